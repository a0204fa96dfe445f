import Verif.Spec.Surface
/-! Lemmas on closed loops. -/
namespace Votess

theorem pathEdges_append (A : List Nat) (a : Nat) (B : List Nat) :
    pathEdges (A ++ a :: B) = pathEdges (A ++ [a]) ++ pathEdges (a :: B) := by
  induction A with
  | nil => simp [pathEdges]
  | cons x A ih =>
    cases A with
    | nil => simp [pathEdges]
    | cons y A => simpa [pathEdges] using ih

theorem loopEdges_rot (A B : List Nat) : (loopEdges (A ++ B)).Perm (loopEdges (B ++ A)) := by
  cases A with
  | nil => simp
  | cons x A =>
    cases B with
    | nil => simp
    | cons y B =>
      have h1 : loopEdges (x :: A ++ y :: B)
          = pathEdges (x :: A ++ [y]) ++ pathEdges (y :: B ++ [x]) := by
        have := pathEdges_append (x :: A) y (B ++ [x])
        simpa [loopEdges] using this
      have h2 : loopEdges (y :: B ++ x :: A)
          = pathEdges (y :: B ++ [x]) ++ pathEdges (x :: A ++ [y]) := by
        have := pathEdges_append (y :: B) x (A ++ [y])
        simpa [loopEdges] using this
      rw [h1, h2]; exact List.perm_append_comm

theorem pathEdges_fst (l : List Nat) (x : Nat) : (pathEdges (l ++ [x])).map Prod.fst = l := by
  induction l with
  | nil => rfl
  | cons a l ih =>
    cases l with
    | nil => rfl
    | cons b l => simpa [pathEdges] using ih

theorem pathEdges_snd (x : Nat) (l : List Nat) : (pathEdges (x :: l)).map Prod.snd = l := by
  induction l generalizing x with
  | nil => rfl
  | cons b l ih => simpa [pathEdges] using ih b

theorem loopEdges_fst (L : List Nat) : (loopEdges L).map Prod.fst = L := by
  cases L with
  | nil => rfl
  | cons x l => exact pathEdges_fst (x :: l) x

theorem loopEdges_snd (L : List Nat) : ((loopEdges L).map Prod.snd).Perm L := by
  cases L with
  | nil => exact .refl _
  | cons x l =>
    have : (loopEdges (x :: l)).map Prod.snd = l ++ [x] := pathEdges_snd x (l ++ [x])
    rw [this]; exact List.perm_append_comm

theorem loopEdges_length (L : List Nat) : (loopEdges L).length = L.length := by
  rw [← List.length_map (f := Prod.fst), loopEdges_fst]

theorem loopEdges_fst_mem {L : List Nat} {e : Nat × Nat} (h : e ∈ loopEdges L) : e.1 ∈ L := by
  rw [← loopEdges_fst L]; exact List.mem_map.mpr ⟨e, h, rfl⟩

theorem loopEdges_snd_mem {L : List Nat} {e : Nat × Nat} (h : e ∈ loopEdges L) : e.2 ∈ L :=
  (loopEdges_snd L).mem_iff.mp (List.mem_map.mpr ⟨e, h, rfl⟩)

theorem loopEdges_of_fst {L : List Nat} {x : Nat} (h : x ∈ L) : ∃ y, (x, y) ∈ loopEdges L := by
  rw [← loopEdges_fst L] at h
  obtain ⟨⟨a, b⟩, h1, rfl⟩ := List.mem_map.mp h
  exact ⟨b, h1⟩

theorem loopEdges_of_snd {L : List Nat} {y : Nat} (h : y ∈ L) : ∃ x, (x, y) ∈ loopEdges L := by
  have := (loopEdges_snd L).mem_iff.mpr h
  obtain ⟨⟨a, b⟩, h1, rfl⟩ := List.mem_map.mp this
  exact ⟨a, h1⟩

theorem nodup_map_inj {α β : Type} {f : α → β} {l : List α} (h : (l.map f).Nodup) {a b : α}
    (ha : a ∈ l) (hb : b ∈ l) (e : f a = f b) : a = b := by
  induction l with
  | nil => cases ha
  | cons x l ih =>
    simp only [List.map_cons, List.nodup_cons] at h
    rcases List.mem_cons.mp ha with rfl | ha'
    · rcases List.mem_cons.mp hb with rfl | hb'
      · rfl
      · exact absurd (List.mem_map.mpr ⟨b, hb', e.symm⟩) h.1
    · rcases List.mem_cons.mp hb with rfl | hb'
      · exact absurd (List.mem_map.mpr ⟨a, ha', e⟩) h.1
      · exact ih h.2 ha' hb'

theorem loopEdges_fst_inj {L : List Nat} (h : L.Nodup) {x y z : Nat} (h1 : (x, y) ∈ loopEdges L)
    (h2 : (x, z) ∈ loopEdges L) : y = z := by
  have := nodup_map_inj (f := Prod.fst) (l := loopEdges L) (by rw [loopEdges_fst]; exact h) h1 h2 rfl
  simpa using this

theorem loopEdges_snd_inj {L : List Nat} (h : L.Nodup) {x y z : Nat} (h1 : (x, z) ∈ loopEdges L)
    (h2 : (y, z) ∈ loopEdges L) : x = y := by
  have := nodup_map_inj (f := Prod.snd) (l := loopEdges L)
    ((loopEdges_snd L).nodup_iff.mpr h) h1 h2 rfl
  simpa using this

/-- rotating a loop -/
theorem loop_rotate {L : List Nat} {x : Nat} (h : x ∈ L) :
    ∃ A, (x :: A).Perm L ∧ (loopEdges (x :: A)).Perm (loopEdges L) := by
  obtain ⟨X, Y, rfl⟩ := List.append_of_mem h
  exact ⟨Y ++ X, by simpa using (List.perm_append_comm (l₁ := x :: Y) (l₂ := X)),
    by simpa using (loopEdges_rot X (x :: Y)).symm⟩

theorem loopEdges_snoc (v : Nat) (A : List Nat) (u : Nat) :
    loopEdges (v :: A ++ [u]) = pathEdges (v :: A ++ [u]) ++ [(u, v)] := by
  have := pathEdges_append (v :: A) u [v]
  simpa [loopEdges, pathEdges] using this

/-- a loop through the edge `(u, v)`, written with `v` first and `u` last -/
theorem loop_rotate_edge {L : List Nat} (hn : L.Nodup) {u v : Nat} (h : (u, v) ∈ loopEdges L)
    (huv : u ≠ v) :
    ∃ A, (v :: A ++ [u]).Perm L ∧ (loopEdges (v :: A ++ [u])).Perm (loopEdges L) := by
  obtain ⟨A, p1, p2⟩ := loop_rotate (loopEdges_snd_mem h)
  have hA : A ≠ [] := by
    rintro rfl
    have := p1.mem_iff.mpr (loopEdges_fst_mem h)
    simp at this; exact huv this
  have hA' := List.dropLast_concat_getLast hA
  generalize A.dropLast = B at hA'
  generalize A.getLast hA = w at hA'
  subst hA'
  have hw : w = u := by
    refine loopEdges_snd_inj (z := v) (p1.nodup_iff.mpr hn) ?_ (p2.mem_iff.mpr h)
    have := loopEdges_snoc v B w
    simp only [List.cons_append] at this
    rw [this]; simp
  subst hw
  exact ⟨B, p1, p2⟩

namespace IsLoop

variable {ud : Nat} {c L : List Nat}

theorem perm (h : IsLoop ud c L) {L' : List Nat} (p1 : L'.Perm L)
    (p2 : (loopEdges L').Perm (loopEdges L)) : IsLoop ud c L' :=
  ⟨p1.nodup_iff.mpr h.nodup, by rw [p1.length_eq]; exact h.len,
    fun e he => h.next e (p2.mem_iff.mp he), fun v hv hv' => h.off v hv (fun h => hv' (p1.mem_iff.mpr h))⟩

theorem lt (h : IsLoop ud c L) {x : Nat} (hx : x ∈ L) : x < c.length := by
  obtain ⟨y, hy⟩ := loopEdges_of_fst hx
  exact (List.getElem?_eq_some_iff.mp (h.next _ hy)).1

theorem mem_iff (h : IsLoop ud c L) {x y : Nat} (hx : x ∈ L) :
    (x, y) ∈ loopEdges L ↔ c[x]? = some y := by
  constructor
  · exact h.next _
  · intro hc
    obtain ⟨z, hz⟩ := loopEdges_of_fst hx
    have := h.next _ hz
    simp only [hc, Option.some.injEq] at this
    subst this; exact hz

theorem mem_of_ne (h : IsLoop ud c L) {x y : Nat} (hc : c[x]? = some y) (hy : y ≠ ud) :
    (x, y) ∈ loopEdges L := by
  by_cases hx : x ∈ L
  · exact (h.mem_iff hx).mpr hc
  · have := h.off x (List.getElem?_eq_some_iff.mp hc).1 hx
    rw [hc] at this; simp at this; exact absurd this hy

theorem edge_ne (h : IsLoop ud c L) {x y : Nat} (he : (x, y) ∈ loopEdges L) : x ≠ y := by
  rintro rfl
  obtain ⟨A, p1, p2⟩ := loop_rotate (loopEdges_fst_mem he)
  have hl := h.len
  rw [← p1.length_eq] at hl
  cases A with
  | nil => simp at hl
  | cons z A =>
    have h1 : (x, z) ∈ loopEdges (x :: z :: A) := by simp [loopEdges, pathEdges]
    have hn := p1.nodup_iff.mpr h.nodup
    have := loopEdges_fst_inj hn h1 (p2.mem_iff.mpr he)
    subst this; simp at hn

/-- a loop has no edge together with its reverse -/
theorem edge_asymm (h : IsLoop ud c L) {x y : Nat} (he : (x, y) ∈ loopEdges L) :
    (y, x) ∉ loopEdges L := by
  intro he'
  obtain ⟨A, p1, p2⟩ := loop_rotate (loopEdges_fst_mem he)
  have hl := h.len
  rw [← p1.length_eq] at hl
  match A with
  | [] => simp at hl
  | [_] => simp at hl
  | z :: w :: A =>
    have hn := p1.nodup_iff.mpr h.nodup
    have h1 : (x, z) ∈ loopEdges (x :: z :: w :: A) := by simp [loopEdges, pathEdges]
    have h2 : (z, w) ∈ loopEdges (x :: z :: w :: A) := by simp [loopEdges, pathEdges]
    have e := loopEdges_fst_inj hn h1 (p2.mem_iff.mpr he)
    subst e
    have e := loopEdges_fst_inj hn h2 (p2.mem_iff.mpr he')
    subst e; simp at hn

/-- different positions of the table hold different defined entries -/
theorem inj (h : IsLoop ud c L) {i j v : Nat} (hi : c[i]? = some v) (hj : c[j]? = some v)
    (hv : v ≠ ud) : i = j :=
  loopEdges_snd_inj h.nodup (h.mem_of_ne hi hv) (h.mem_of_ne hj hv)

/-- inserting `e2` in the middle of the edge `(e1, e0)` -/
theorem insert (h : IsLoop ud c L) {e0 e1 e2 : Nat} (he : (e1, e0) ∈ loopEdges L) (h2 : e2 ∉ L)
    (hlt : e2 < c.length) :
    ∃ L', IsLoop ud ((c.set e1 e2).set e2 e0) L' ∧ L'.length = L.length + 1 ∧ e2 ∈ L' ∧
      (∀ x, x ∈ L' ↔ x ∈ L ∨ x = e2) ∧
      ∀ e, e ∈ loopEdges L' ↔ (e ∈ loopEdges L ∧ e ≠ (e1, e0)) ∨ e = (e1, e2) ∨ e = (e2, e0) := by
  obtain ⟨A, p1, p2⟩ := loop_rotate_edge h.nodup he (h.edge_ne he)
  have hn := p1.nodup_iff.mpr h.nodup
  have h2' : e2 ∉ e0 :: A ++ [e1] := fun hx => h2 (p1.mem_iff.mp hx)
  have hE : loopEdges (e0 :: A ++ [e1]) = pathEdges (e0 :: A ++ [e1]) ++ [(e1, e0)] :=
    loopEdges_snoc _ _ _
  have hE' : loopEdges (e0 :: (A ++ [e1]) ++ [e2])
      = pathEdges (e0 :: A ++ [e1]) ++ [(e1, e2), (e2, e0)] := by
    rw [loopEdges_snoc]
    have := pathEdges_append (e0 :: A) e1 [e2]
    simp only [List.cons_append, List.append_assoc, List.nil_append, pathEdges] at this ⊢
    rw [this]; simp
  have hfst : ∀ e ∈ pathEdges (e0 :: A ++ [e1]), e.1 ∈ e0 :: A := by
    intro e he'
    have := pathEdges_fst (e0 :: A) e1
    rw [← this]; exact List.mem_map.mpr ⟨e, he', rfl⟩
  have hne1 : ∀ e ∈ pathEdges (e0 :: A ++ [e1]), e.1 ≠ e1 := by
    intro e he' hx
    have := hfst e he'
    rw [hx] at this
    rw [List.nodup_append] at hn
    exact hn.2.2 _ this _ (by simp) rfl
  have hmem : ∀ x, x ∈ e0 :: (A ++ [e1]) ++ [e2] ↔ x ∈ L ∨ x = e2 := by
    intro x
    rw [List.mem_append, ← p1.mem_iff]
    simp
  refine ⟨e0 :: (A ++ [e1]) ++ [e2], ⟨?_, ?_, ?_, ?_⟩, ?_, ?_, hmem, ?_⟩
  · have := List.nodup_append.mpr ⟨hn, (by simp : [e2].Nodup), ?_⟩
    · simpa using this
    · intro a ha b hb
      simp only [List.mem_singleton] at hb
      subst hb; rintro rfl; exact h2' ha
  · simp
  · intro e he'
    rw [hE'] at he'
    have h21 : e2 ≠ e1 := by rintro rfl; exact h2' (by simp)
    have l1 : e1 < c.length := h.lt (p1.mem_iff.mp (by simp))
    simp only [List.mem_append, List.mem_cons, List.not_mem_nil, or_false] at he'
    rcases he' with he' | rfl | rfl
    · have n2 : e.1 ≠ e2 := by
        intro hx; apply h2'; rw [← hx]
        exact List.mem_append_left _ (hfst e he')
      rw [List.getElem?_set_ne (Ne.symm n2), List.getElem?_set_ne (Ne.symm (hne1 e he'))]
      exact h.next e (p2.mem_iff.mp (by rw [hE]; exact List.mem_append_left _ he'))
    · simp only
      rw [List.getElem?_set_ne h21, List.getElem?_set_self l1]
    · simp only
      rw [List.getElem?_set_self (by simpa using hlt)]
  · intro v hv hv'
    have n2 : e2 ≠ v := by rintro rfl; exact hv' (by simp)
    have n1 : e1 ≠ v := by rintro rfl; exact hv' (by simp)
    rw [List.getElem?_set_ne n2, List.getElem?_set_ne n1]
    refine h.off v (by simpa using hv) (fun hx => hv' ?_)
    exact (hmem v).mpr (Or.inl hx)
  · have := p1.length_eq
    simp at this ⊢; omega
  · simp
  · intro e
    rw [hE']
    have e1' : e ∈ loopEdges L ↔ e ∈ pathEdges (e0 :: A ++ [e1]) ∨ e = (e1, e0) := by
      rw [← p2.mem_iff, hE]; simp
    rw [e1']
    constructor
    · intro hx
      simp only [List.mem_append, List.mem_cons, List.not_mem_nil, or_false] at hx
      rcases hx with hx | hx
      · exact Or.inl ⟨Or.inl hx, fun hx' => hne1 e hx (by rw [hx'])⟩
      · exact Or.inr hx
    · rintro (⟨hx | hx, hy⟩ | hx)
      · exact List.mem_append_left _ hx
      · exact absurd hx hy
      · exact List.mem_append_right _ (by simpa using hx)

/-- cutting the corner `e2` of the path `e0, e2, e1` -/
theorem shortcut (h : IsLoop ud c L) {e0 e1 e2 : Nat} (ha : (e0, e2) ∈ loopEdges L)
    (hb : (e2, e1) ∈ loopEdges L) (hc : (e1, e0) ∉ loopEdges L) (h01 : e0 ≠ e1) :
    ∃ L', IsLoop ud ((c.set e2 ud).set e0 e1) L' ∧ L'.length + 1 = L.length ∧ e0 ∈ L' ∧
      (∀ x, x ∈ L' ↔ x ∈ L ∧ x ≠ e2) ∧
      ∀ e, e ∈ loopEdges L' ↔
        (e ∈ loopEdges L ∧ e ≠ (e0, e2) ∧ e ≠ (e2, e1)) ∨ e = (e0, e1) := by
  obtain ⟨A, p1, p2⟩ := loop_rotate_edge h.nodup hb (h.edge_ne hb)
  have hn := p1.nodup_iff.mpr h.nodup
  have hA : A ≠ [] := by
    rintro rfl
    have : (e1, e2) ∈ loopEdges (e1 :: [] ++ [e2]) := by simp [loopEdges, pathEdges]
    exact h01 (loopEdges_snd_inj hn (p2.mem_iff.mpr ha) this)
  have hA' := List.dropLast_concat_getLast hA
  generalize A.dropLast = B at hA'
  generalize A.getLast hA = w at hA'
  subst hA'
  have hpE : pathEdges (e1 :: (B ++ [w]) ++ [e2]) = pathEdges (e1 :: B ++ [w]) ++ [(w, e2)] := by
    have := pathEdges_append (e1 :: B) w [e2]
    simpa [pathEdges] using this
  have hE : loopEdges (e1 :: (B ++ [w]) ++ [e2])
      = pathEdges (e1 :: B ++ [w]) ++ [(w, e2), (e2, e1)] := by
    rw [loopEdges_snoc, hpE]; simp
  have hw : w = e0 :=
    loopEdges_snd_inj (z := e2) hn (by rw [hE]; simp) (p2.mem_iff.mpr ha)
  subst hw
  have hE' : loopEdges (e1 :: B ++ [w]) = pathEdges (e1 :: B ++ [w]) ++ [(w, e1)] :=
    loopEdges_snoc _ _ _
  have hn' : (e1 :: B ++ [w]).Nodup := by
    have : (e1 :: B ++ [w] ++ [e2]).Nodup := by simpa using hn
    exact (List.nodup_append.mp this).1
  have h2' : e2 ∉ e1 :: B ++ [w] := by
    have : (e1 :: B ++ [w] ++ [e2]).Nodup := by simpa using hn
    intro hx
    exact (List.nodup_append.mp this).2.2 _ hx _ (by simp) rfl
  have hB : B ≠ [] := by
    rintro rfl
    apply hc
    rw [← p2.mem_iff, hE]; simp [pathEdges]
  have hfst : ∀ e ∈ pathEdges (e1 :: B ++ [w]), e.1 ∈ e1 :: B := by
    intro e he'
    have := pathEdges_fst (e1 :: B) w
    rw [← this]; exact List.mem_map.mpr ⟨e, he', rfl⟩
  have hnew : ∀ e ∈ pathEdges (e1 :: B ++ [w]), e.1 ≠ w ∧ e.1 ≠ e2 := by
    intro e he'
    have := hfst e he'
    refine ⟨fun hx => ?_, fun hx => ?_⟩
    · rw [hx] at this
      exact (List.nodup_append.mp hn').2.2 _ this _ (by simp) rfl
    · rw [hx] at this
      exact h2' (List.mem_append_left _ this)
  have hmem : ∀ x, x ∈ e1 :: B ++ [w] ↔ x ∈ L ∧ x ≠ e2 := by
    intro x
    rw [← p1.mem_iff]
    constructor
    · intro hx
      refine ⟨?_, ?_⟩
      · simp at hx ⊢; grind
      · rintro rfl; exact h2' hx
    · rintro ⟨hx, hx'⟩
      simp at hx ⊢; grind
  refine ⟨e1 :: B ++ [w], ⟨hn', ?_, ?_, ?_⟩, ?_, by simp, hmem, ?_⟩
  · cases B with
    | nil => exact absurd rfl hB
    | cons b B => simp
  · intro e he'
    rw [hE'] at he'
    simp only [List.mem_append, List.mem_cons, List.not_mem_nil, or_false] at he'
    rcases he' with he' | rfl
    · obtain ⟨n1, n2⟩ := hnew e he'
      rw [List.getElem?_set_ne (Ne.symm n1), List.getElem?_set_ne (Ne.symm n2)]
      exact h.next e (p2.mem_iff.mp (by rw [hE]; exact List.mem_append_left _ he'))
    · simp only
      rw [List.getElem?_set_self (by simpa using h.lt (loopEdges_fst_mem ha))]
  · intro v hv hv'
    have n1 : w ≠ v := by rintro rfl; exact hv' (by simp)
    rw [List.getElem?_set_ne n1]
    by_cases n2 : e2 = v
    · subst n2
      rw [List.getElem?_set_self (h.lt (loopEdges_fst_mem hb))]
    · rw [List.getElem?_set_ne n2]
      exact h.off v (by simpa using hv) (fun hx => hv' ((hmem v).mpr ⟨hx, Ne.symm n2⟩))
  · have := p1.length_eq
    simp at this ⊢; omega
  · intro e
    rw [hE']
    have e1' : e ∈ loopEdges L ↔ e ∈ pathEdges (e1 :: B ++ [w]) ∨ e = (w, e2) ∨ e = (e2, e1) := by
      rw [← p2.mem_iff, hE]; simp
    rw [e1']
    constructor
    · intro hx
      simp only [List.mem_append, List.mem_cons, List.not_mem_nil, or_false] at hx
      rcases hx with hx | hx
      · obtain ⟨n1, n2⟩ := hnew e hx
        exact Or.inl ⟨Or.inl hx, fun hx' => n1 (by rw [hx']), fun hx' => n2 (by rw [hx'])⟩
      · exact Or.inr hx
    · rintro (⟨hx | hx | hx, hy, hz⟩ | hx)
      · exact List.mem_append_left _ hx
      · exact absurd hx hy
      · exact absurd hx hz
      · exact List.mem_append_right _ (by simpa using hx)

/-- a loop containing the edges `e0 → e2 → e1 → e0` has no other edge -/
theorem triangle (h : IsLoop ud c L) {e0 e1 e2 : Nat} (ha : (e0, e2) ∈ loopEdges L)
    (hb : (e2, e1) ∈ loopEdges L) (hc : (e1, e0) ∈ loopEdges L) :
    ∀ e ∈ loopEdges L, e = (e0, e2) ∨ e = (e2, e1) ∨ e = (e1, e0) := by
  have h01 : e0 ≠ e1 := fun hx => h.edge_ne hc hx.symm
  obtain ⟨A, p1, p2⟩ := loop_rotate_edge h.nodup hb (h.edge_ne hb)
  have hn := p1.nodup_iff.mpr h.nodup
  match A with
  | [] =>
    have : (e1, e2) ∈ loopEdges (e1 :: [] ++ [e2]) := by simp [loopEdges, pathEdges]
    exact absurd (loopEdges_snd_inj hn (p2.mem_iff.mpr ha) this) h01
  | [x] =>
    have hx : (e1, x) ∈ loopEdges (e1 :: [x] ++ [e2]) := by simp [loopEdges, pathEdges]
    have := loopEdges_fst_inj hn hx (p2.mem_iff.mpr hc)
    subst this
    intro e he
    rw [← p2.mem_iff] at he
    simp [loopEdges, pathEdges] at he
    grind
  | x :: y :: A =>
    have hx : (e1, x) ∈ loopEdges (e1 :: x :: y :: A ++ [e2]) := by simp [loopEdges, pathEdges]
    have := loopEdges_fst_inj hn hx (p2.mem_iff.mpr hc)
    subst this
    have hx : (x, y) ∈ loopEdges (e1 :: x :: y :: A ++ [e2]) := by simp [loopEdges, pathEdges]
    have := loopEdges_fst_inj hn hx (p2.mem_iff.mpr ha)
    subst this
    exact absurd hn (by simp)

end IsLoop

end Votess
