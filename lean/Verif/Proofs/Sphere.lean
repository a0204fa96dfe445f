import Verif.Proofs.Surface
import Mathlib.Data.ZMod.Basic
import Mathlib.Algebra.BigOperators.Group.Finset.Basic
import Mathlib.Algebra.BigOperators.Intervals
import Mathlib.Algebra.BigOperators.Ring.Finset
import Mathlib.Tactic.Ring
import Mathlib.Tactic.LinearCombination
/-!
Simply connected closed surfaces: cycles of edges bound, modulo 2.

Used to show that a partly absorbed disc can always be extended (every triangulated disc is
"extendably shellable").
-/
set_option linter.unusedSectionVars false
namespace Votess

/-! ### connected regions -/

/-- triangles connected through common edges -/
def Conn (S : List Tri) : Prop :=
  ∀ X : Tri → Prop, (∀ t ∈ S, ∀ u ∈ S, ∀ a b, (a, b) ∈ t.edges → (b, a) ∈ u.edges → X t → X u) →
    ∀ t ∈ S, X t → ∀ u ∈ S, X u

theorem Conn.perm {S S' : List Tri} (h : Conn S) (p : S.Perm S') : Conn S' := by
  intro X hX t ht hXt u hu
  exact h X (fun t ht u hu => hX t (p.mem_iff.mp ht) u (p.mem_iff.mp hu)) t (p.mem_iff.mpr ht) hXt u
    (p.mem_iff.mpr hu)

theorem fst_snd_perm (S : List Tri) : ((triEdges S).map Prod.fst).Perm ((triEdges S).map Prod.snd) := by
  induction S with
  | nil => exact .refl _
  | cons t S ih =>
    have e : triEdges (t :: S) = t.edges ++ triEdges S := rfl
    rw [e, List.map_append, List.map_append]
    refine List.Perm.append ?_ ih
    show [t.a, t.b, t.c].Perm [t.b, t.c, t.a]
    exact List.perm_append_comm (l₁ := [t.a]) (l₂ := [t.b, t.c])

theorem countP_map_eq {α β : Type} [DecidableEq β] (f : α → β) (x : β) (l : List α) :
    (l.map f).count x = (l.filter fun e => f e = x).length := by
  induction l with
  | nil => rfl
  | cons a l ih =>
    by_cases h : f a = x
    · simp [h, ih]
    · simp [h, ih]

/-- at every vertex as many unmatched edges leave as arrive -/
theorem balance {n : Nat} {S : List Tri} (hv : ValidTris n S) {w x : Nat} (h : Unmatched S (w, x)) :
    ∃ y, Unmatched S (x, y) := by
  by_contra hcon
  have hall : ∀ y, (x, y) ∈ triEdges S → (y, x) ∈ triEdges S := by
    intro y hy
    by_contra hn
    exact hcon ⟨y, hy, hn⟩
  have hlen : ((triEdges S).filter fun e => e.1 = x).length
      = ((triEdges S).filter fun e => e.2 = x).length := by
    rw [← countP_map_eq Prod.fst, ← countP_map_eq Prod.snd]
    exact (fst_snd_perm S).count_eq x
  have hsub : (((triEdges S).filter fun e => e.1 = x).map Prod.swap) ⊆
      ((triEdges S).filter fun e => e.2 = x) := by
    intro e he
    obtain ⟨⟨a, b⟩, h1, rfl⟩ := List.mem_map.mp he
    rw [List.mem_filter] at h1
    simp only [decide_eq_true_eq] at h1
    obtain ⟨h1, rfl⟩ := h1
    rw [List.mem_filter]
    exact ⟨hall b h1, by simp⟩
  have hnd : (((triEdges S).filter fun e => e.1 = x).map Prod.swap).Nodup :=
    (hv.nodup.filter _).map Prod.swap_injective
  have hp := (List.subperm_of_subset hnd hsub).perm_of_length_le (by rw [List.length_map, hlen])
  have hm : (w, x) ∈ ((triEdges S).filter fun e => e.2 = x) := by
    rw [List.mem_filter]; exact ⟨h.1, by simp⟩
  rw [← hp.mem_iff] at hm
  obtain ⟨⟨a, b⟩, h1, h2⟩ := List.mem_map.mp hm
  rw [List.mem_filter] at h1
  simp only [Prod.swap_prod_mk, Prod.mk.injEq] at h2
  obtain ⟨rfl, rfl⟩ := h2
  exact h.2 h1.1

/-- a region whose boundary is one loop is connected -/
theorem conn_of_loop {n : Nat} {S : List Tri} (hv : ValidTris n S) (hno : NoClosedPart S)
    {ℓ : List Nat} (hnd : ℓ.Nodup) (hb : ∀ e, Unmatched S e ↔ e ∈ loopEdges ℓ) : Conn S := by
  classical
  intro X hX t ht hXt u hu
  by_contra hXu
  have hm1 : ∀ e, e ∈ triEdges (S.filter fun t => decide (X t)) ↔ ∃ v ∈ S, X v ∧ e ∈ v.edges := by
    intro e; rw [mem_triEdges]; simp [and_assoc]
  have hm2 : ∀ e, e ∈ triEdges (S.filter fun t => !decide (X t)) ↔ ∃ v ∈ S, ¬ X v ∧ e ∈ v.edges := by
    intro e; rw [mem_triEdges]; simp [and_assoc]
  have hv1 : ValidTris n (S.filter fun t => decide (X t)) := validTris_sub hv List.filter_sublist
  have u1 : ∀ e, Unmatched (S.filter fun t => decide (X t)) e → Unmatched S e := by
    rintro ⟨a, b⟩ ⟨h1, h2⟩
    obtain ⟨v, hvS, hXv, he⟩ := (hm1 _).mp h1
    refine ⟨mem_triEdges.mpr ⟨v, hvS, he⟩, fun h3 => h2 ?_⟩
    obtain ⟨v', hv'S, he'⟩ := mem_triEdges.mp h3
    exact (hm1 _).mpr ⟨v', hv'S, hX v hvS v' hv'S a b he he' hXv, he'⟩
  have u2 : ∀ e, Unmatched (S.filter fun t => !decide (X t)) e → Unmatched S e := by
    rintro ⟨a, b⟩ ⟨h1, h2⟩
    obtain ⟨v, hvS, hXv, he⟩ := (hm2 _).mp h1
    refine ⟨mem_triEdges.mpr ⟨v, hvS, he⟩, fun h3 => h2 ?_⟩
    obtain ⟨v', hv'S, he'⟩ := mem_triEdges.mp h3
    exact (hm2 _).mpr ⟨v', hv'S, fun hx => hXv (hX v' hv'S v hvS b a he' he hx), he'⟩
  -- the first part has an unmatched edge
  obtain ⟨⟨a, b⟩, hab⟩ : ∃ e, Unmatched (S.filter fun t => decide (X t)) e := by
    by_contra hc
    refine hno (S.filter fun t => decide (X t)) ?_ (fun v hv => (List.mem_filter.mp hv).1) ?_
    · intro h0
      have : t ∈ S.filter fun t => decide (X t) := List.mem_filter.mpr ⟨ht, by simpa using hXt⟩
      rw [h0] at this; cases this
    · intro e he
      by_contra hn
      exact hc ⟨e, he, hn⟩
  -- so all loop edges belong to it
  have hall : ∀ x ∈ ℓ, ∃ y, (x, y) ∈ loopEdges ℓ ∧ (x, y) ∈ triEdges (S.filter fun t => decide (X t)) := by
    have hab' := (hb _).mp (u1 _ hab)
    refine loop_induct (x := a) (loopEdges_fst_mem hab') ⟨b, hab', hab.1⟩ ?_
    rintro ⟨x, y⟩ hxy ⟨y', h1, h2⟩
    simp only at h1 h2 ⊢
    obtain rfl := loopEdges_fst_inj hnd hxy h1
    have hun : Unmatched (S.filter fun t => decide (X t)) (x, y) :=
      ⟨h2, fun h3 => ((hb _).mpr hxy).2 (triEdges_mono (fun v hv => (List.mem_filter.mp hv).1) h3)⟩
    obtain ⟨z, hz⟩ := balance hv1 hun
    exact ⟨z, (hb _).mp (u1 _ hz), hz.1⟩
  -- and the rest is closed
  refine hno (S.filter fun t => !decide (X t)) ?_ (fun v hv => (List.mem_filter.mp hv).1) ?_
  · intro h0
    have : u ∈ S.filter fun t => !decide (X t) := List.mem_filter.mpr ⟨hu, by simpa using hXu⟩
    rw [h0] at this; cases this
  · rintro ⟨x, y⟩ he
    by_contra hn
    have h1 := (hb _).mp (u2 _ ⟨he, hn⟩)
    obtain ⟨y', h2, h3⟩ := hall x (loopEdges_fst_mem h1)
    obtain rfl := loopEdges_fst_inj hnd h1 h2
    obtain ⟨v, hvS, hXv, hev⟩ := (hm1 _).mp h3
    obtain ⟨v', hv'S, hXv', hev'⟩ := (hm2 _).mp he
    exact hXv' (hv.tri_unique hvS hv'S hev hev' ▸ hXv)

theorem pathEdges_reverse (l : List Nat) : (pathEdges l.reverse).Perm ((pathEdges l).map Prod.swap) := by
  induction l with
  | nil => exact .refl _
  | cons a l ih =>
    cases l with
    | nil => exact .refl _
    | cons b l =>
      rw [List.reverse_cons, List.reverse_cons, List.append_assoc, List.singleton_append,
        pathEdges_append l.reverse b [a]]
      simp only [pathEdges, List.map_cons, Prod.swap_prod_mk]
      refine (List.perm_append_comm).trans ?_
      rw [List.singleton_append]
      rw [List.reverse_cons] at ih
      exact ih.cons _

theorem loopEdges_reverse (ℓ : List Nat) (e : Nat × Nat) :
    e ∈ loopEdges ℓ.reverse ↔ (e.2, e.1) ∈ loopEdges ℓ := by
  cases ℓ with
  | nil => simp [loopEdges]
  | cons x l =>
    rw [List.reverse_cons, (loopEdges_rot l.reverse [x]).mem_iff, List.singleton_append]
    have h1 : loopEdges (x :: l.reverse) = pathEdges (x :: l ++ [x]).reverse := by
      simp [loopEdges]
    rw [h1, (pathEdges_reverse _).mem_iff]
    constructor
    · intro h
      obtain ⟨⟨a, b⟩, h1, rfl⟩ := List.mem_map.mp h
      exact h1
    · intro h
      exact List.mem_map.mpr ⟨(e.2, e.1), h, rfl⟩


/-! ### edge sets modulo 2 -/

theorem z2_self (a : ZMod 2) : a + a = 0 := by revert a; decide

/-- an edge list as an edge set modulo 2, both directions identified -/
def zOf (E : List (Nat × Nat)) (a b : Nat) : ZMod 2 := ((E.count (a, b) + E.count (b, a) : Nat) : ZMod 2)

theorem zOf_symm (E : List (Nat × Nat)) (a b : Nat) : zOf E a b = zOf E b a := by
  unfold zOf; rw [Nat.add_comm]

theorem zOf_append (E E' : List (Nat × Nat)) (a b : Nat) :
    zOf (E ++ E') a b = zOf E a b + zOf E' a b := by
  unfold zOf; simp only [List.count_append]; push_cast; ring

theorem zOf_perm {E E' : List (Nat × Nat)} (p : E.Perm E') (a b : Nat) : zOf E a b = zOf E' a b := by
  unfold zOf; rw [p.count_eq, p.count_eq]

theorem zOf_swap (x y a b : Nat) : zOf [(x, y)] a b = zOf [(y, x)] a b := by
  unfold zOf
  have : ∀ p q r s : Nat, List.count (p, q) [(r, s)] = List.count (q, p) [(s, r)] := by
    intro p q r s
    rw [List.count_singleton, List.count_singleton]
    by_cases h : r = p ∧ s = q
    · obtain ⟨rfl, rfl⟩ := h; simp
    · rw [if_neg (by simpa using h), if_neg (by simp; tauto)]
  rw [this a b x y, this b a x y, Nat.add_comm]

theorem zOf_mem {E : List (Nat × Nat)} {a b : Nat} (h : zOf E a b ≠ 0) : (a, b) ∈ E ∨ (b, a) ∈ E := by
  by_contra hc
  rw [not_or] at hc
  apply h
  unfold zOf
  rw [List.count_eq_zero_of_not_mem hc.1, List.count_eq_zero_of_not_mem hc.2]; simp

theorem zOf_zero {E : List (Nat × Nat)} {a b : Nat} (h1 : (a, b) ∉ E) (h2 : (b, a) ∉ E) :
    zOf E a b = 0 := by
  by_contra h; rcases zOf_mem h with h | h <;> contradiction

theorem sum_count (n v : Nat) : ∀ E : List (Nat × Nat), (∀ e ∈ E, e.2 < n) →
    ∑ j ∈ Finset.range n, E.count (v, j) = (E.map Prod.fst).count v
  | [], _ => by simp
  | (x, y) :: E, h => by
    have ih := sum_count n v E (fun e he => h e (List.mem_cons_of_mem _ he))
    have hy : y < n := h (x, y) (by simp)
    simp only [List.count_cons, Finset.sum_add_distrib, List.map_cons, ih]
    congr 1
    by_cases hx : x = v
    · subst hx
      simp [hy]
    · simp [hx]

theorem sum_count' (n v : Nat) (E : List (Nat × Nat)) (h : ∀ e ∈ E, e.1 < n) :
    ∑ j ∈ Finset.range n, E.count (j, v) = (E.map Prod.snd).count v := by
  have := sum_count n v (E.map Prod.swap) (fun e he => by
    obtain ⟨x, hx, rfl⟩ := List.mem_map.mp he; exact h x hx)
  rw [List.map_map] at this
  have e1 : (Prod.fst ∘ Prod.swap : Nat × Nat → Nat) = Prod.snd := rfl
  rw [e1] at this
  rw [← this]
  refine Finset.sum_congr rfl fun j _ => ?_
  exact (List.count_map_of_injective E Prod.swap Prod.swap_injective (j, v)).symm

/-- a loop has even degree everywhere -/
theorem zOf_loop_even {n : Nat} {ℓ : List Nat} (hl : ∀ x ∈ ℓ, x < n) (v : Nat) :
    ∑ j ∈ Finset.range n, zOf (loopEdges ℓ) v j = 0 := by
  unfold zOf
  rw [← Nat.cast_sum, Finset.sum_add_distrib,
    sum_count n v _ (fun e he => hl _ (loopEdges_snd_mem he)),
    sum_count' n v _ (fun e he => hl _ (loopEdges_fst_mem he)), loopEdges_fst,
    (loopEdges_snd ℓ).count_eq]
  push_cast
  exact z2_self _

/-- every edge cycle of the surface is, modulo 2, the boundary of a set of triangles -/
def Simple (n : Nat) (T : List Tri) : Prop :=
  ∀ z : Nat → Nat → ZMod 2, (∀ a b, z a b = z b a) → (∀ a b, z a b ≠ 0 → (a, b) ∈ triEdges T) →
    (∀ v, ∑ j ∈ Finset.range n, z v j = 0) →
    ∃ X : Tri → ZMod 2, ∀ t ∈ T, ∀ u ∈ T, ∀ a b, (a, b) ∈ t.edges → (b, a) ∈ u.edges → X t + X u = z a b

theorem Simple.perm {n : Nat} {T T' : List Tri} (h : Simple n T) (p : T.Perm T') : Simple n T' := by
  intro z h1 h2 h3
  obtain ⟨X, hX⟩ := h z h1 (fun a b hz => (triEdges_perm p _).mpr (h2 a b hz)) h3
  exact ⟨X, fun t ht u hu => hX t (p.mem_iff.mpr ht) u (p.mem_iff.mpr hu)⟩

/-- potential along a path -/
theorem path_potential (w : Nat → ZMod 2) : ∀ (l : List Nat) (x : Nat) (y0 : ZMod 2), (x :: l).Nodup →
    ∃ y : Nat → ZMod 2, y x = y0 ∧ (∀ e ∈ pathEdges (x :: l), y e.1 + y e.2 = w e.2) ∧
      y ((x :: l).getLast (by simp)) = y0 + (l.map w).sum
  | [], x, y0, _ => ⟨fun _ => y0, rfl, by simp [pathEdges], by simp⟩
  | b :: l, x, y0, hn => by
    obtain ⟨y, h1, h2, h3⟩ := path_potential w l b (y0 + w b) (List.nodup_cons.mp hn).2
    have hx := (List.nodup_cons.mp hn).1
    have hy : ∀ v ∈ b :: l, Function.update y x y0 v = y v := fun v hv =>
      Function.update_of_ne (by rintro rfl; exact hx hv) _ _
    refine ⟨Function.update y x y0, by simp, ?_, ?_⟩
    · intro e he
      simp only [pathEdges, List.mem_cons] at he
      rcases he with rfl | he
      · simp only [Function.update_self]
        rw [hy b (by simp), h1]
        have := z2_self y0
        linear_combination this
      · have m2 : e.2 ∈ b :: l := by
          have : e.2 ∈ (pathEdges (b :: l)).map Prod.snd := List.mem_map.mpr ⟨e, he, rfl⟩
          rw [pathEdges_snd] at this
          exact List.mem_cons_of_mem _ this
        have m1 : e.1 ∈ b :: l := by
          have h5 : e ∈ loopEdges (b :: l) := by
            rcases List.eq_nil_or_concat l with rfl | ⟨l', u, rfl⟩
            · simp [pathEdges] at he
            · have := loopEdges_snoc b l' u
              simp only [List.concat_eq_append] at he ⊢
              rw [List.cons_append] at this
              rw [this]; exact List.mem_append_left _ he
          exact loopEdges_fst_mem h5
        rw [hy _ m1, hy _ m2]; exact h2 e he
    · rw [List.getLast_cons (by simp), hy _ (List.getLast_mem _), h3]
      simp only [List.map_cons, List.sum_cons]; ring

/-- potential around a loop -/
theorem loop_potential (w : Nat → ZMod 2) {L : List Nat} (hn : L.Nodup) (hw : (L.map w).sum = 0) :
    ∃ y : Nat → ZMod 2, ∀ e ∈ loopEdges L, y e.1 + y e.2 = w e.2 := by
  cases L with
  | nil => exact ⟨fun _ => 0, by simp [loopEdges]⟩
  | cons x l =>
    obtain ⟨y, h1, h2, h3⟩ := path_potential w l x 0 hn
    refine ⟨y, fun e he => ?_⟩
    simp only [List.map_cons, List.sum_cons] at hw
    rcases List.eq_nil_or_concat l with rfl | ⟨l', u, rfl⟩
    · simp [loopEdges, pathEdges] at he
      subst he
      simp only [List.map_nil, List.sum_nil, add_zero] at hw
      rw [hw]; exact z2_self _
    · simp only [List.concat_eq_append] at *
      have h5 := loopEdges_snoc x l' u
      rw [List.cons_append] at h5
      rw [h5, List.mem_append] at he
      rcases he with he | he
      · exact h2 e he
      · rw [List.mem_singleton] at he
        subst he
        simp only
        have : (x :: (l' ++ [u])).getLast (by simp) = u := by simp
        rw [this] at h3
        rw [h3, h1]
        have := z2_self (((l' ++ [u]).map w).sum)
        linear_combination this - hw

theorem simple_step {n : Nat} {T K R N : List Tri} {L : List Nat} (hs : Surf n T) (hT : Simple n T)
    (hp : (K ++ R).Perm T) (hR : R ≠ []) (hc : Conn R) (hnd : L.Nodup)
    (hb : ∀ e, e ∈ loopEdges L ↔ Unmatched R e) (hN : N.Perm (cone n L)) : Simple (n + 1) (K ++ N) := by
  classical
  refine Simple.perm ?_ (hN.symm.append_left K)
  clear hN
  have hvp := hs.valid.perm hp
  have hndp := hvp.nodup
  rw [triEdges_append, List.nodup_append] at hndp
  have hdis : ∀ e, e ∈ triEdges K → e ∉ triEdges R := fun e h1 h2 => hndp.2.2 e h1 e h2 rfl
  have hKT : ∀ t ∈ K, t ∈ T := fun t ht => hp.mem_iff.mp (List.mem_append_left _ ht)
  have hRT : ∀ t ∈ R, t ∈ T := fun t ht => hp.mem_iff.mp (List.mem_append_right _ ht)
  have hLn : ∀ x ∈ L, x < n := by
    intro x hx
    obtain ⟨y, hy⟩ := loopEdges_of_fst hx
    exact (triEdges_lt hs.valid (triEdges_mono hRT ((hb _).mp hy).1)).1
  have hnL : n ∉ L := fun h => Nat.lt_irrefl n (hLn n h)
  have hasym : ∀ a b, (a, b) ∈ loopEdges L → (b, a) ∉ loopEdges L := fun a b h1 h2 =>
    ((hb _).mp h1).2 ((hb _).mp h2).1
  intro z hsym hsup hev
  have hsup' : ∀ a b, z a b ≠ 0 → (a, b) ∈ triEdges K ∨ (a, b) ∈ loopEdges L ∨ (b = n ∧ a ∈ L) ∨ (a = n ∧ b ∈ L) := by
    intro a b h
    have := hsup a b h
    rw [triEdges_append, List.mem_append, cone_edges] at this
    exact this
  have hKn : ∀ a b, (a, b) ∈ triEdges K → a < n ∧ b < n := fun a b h =>
    triEdges_lt hs.valid (triEdges_mono hKT h)
  have hoff : ∀ v, v ∉ L → z v n = 0 := by
    intro v hv
    by_contra h
    rcases hsup' v n h with h | h | h | h
    · exact Nat.lt_irrefl n (hKn _ _ h).2
    · exact hnL (loopEdges_snd_mem h)
    · exact hv h.2
    · exact hnL h.2
  -- potential on the cone
  have hw : (L.map fun x => z x n).sum = 0 := by
    rw [← List.sum_toFinset _ hnd, ← hev n]
    have : ∀ j ∈ Finset.range (n + 1), z n j = z j n := fun j _ => hsym n j
    rw [Finset.sum_congr rfl this]
    refine Finset.sum_subset ?_ ?_
    · intro x hx
      rw [List.mem_toFinset] at hx
      have := hLn x hx
      rw [Finset.mem_range]; omega
    · intro x _ hx
      rw [List.mem_toFinset] at hx
      exact hoff x hx
  obtain ⟨y, hy⟩ := loop_potential (fun x => z x n) hnd hw
  -- the cycle moved off the cone
  let z' : Nat → Nat → ZMod 2 := fun a b => if a < n ∧ b < n then
    z a b + (if (a, b) ∈ loopEdges L then y a else 0) + (if (b, a) ∈ loopEdges L then y b else 0) else 0
  have hz' : ∀ a b, a < n → b < n → z' a b = z a b + (if (a, b) ∈ loopEdges L then y a else 0)
      + (if (b, a) ∈ loopEdges L then y b else 0) := fun a b h1 h2 => if_pos ⟨h1, h2⟩
  have hz0 : ∀ a b, ¬ (a < n ∧ b < n) → z' a b = 0 := fun a b h => if_neg h
  have hLT : ∀ a b, (a, b) ∈ loopEdges L → (a, b) ∈ triEdges T := fun a b h =>
    triEdges_mono hRT ((hb _).mp h).1
  have g1 : ∀ a b, z' a b = z' b a := by
    intro a b
    by_cases h : a < n ∧ b < n
    · rw [hz' a b h.1 h.2, hz' b a h.2 h.1, hsym a b]; ring
    · rw [hz0 a b h, hz0 b a (fun h' => h ⟨h'.2, h'.1⟩)]
  have g2 : ∀ a b, z' a b ≠ 0 → (a, b) ∈ triEdges T := by
    intro a b hne
    by_cases h : a < n ∧ b < n
    · rw [hz' a b h.1 h.2] at hne
      by_cases h1 : (a, b) ∈ loopEdges L
      · exact hLT _ _ h1
      · by_cases h2 : (b, a) ∈ loopEdges L
        · exact hs.closed _ (hLT _ _ h2)
        · rw [if_neg h1, if_neg h2, add_zero, add_zero] at hne
          rcases hsup' a b hne with h3 | h3 | h3 | h3
          · exact triEdges_mono hKT h3
          · exact absurd h3 h1
          · omega
          · omega
    · exact absurd (hz0 a b h) hne
  have g3 : ∀ v, ∑ j ∈ Finset.range n, z' v j = 0 := by
    intro v
    by_cases hvn : v < n
    · have e1 : ∑ j ∈ Finset.range n, z' v j = ∑ j ∈ Finset.range n, z v j
          + ∑ j ∈ Finset.range n, (if (v, j) ∈ loopEdges L then y v else 0)
          + ∑ j ∈ Finset.range n, (if (j, v) ∈ loopEdges L then y j else 0) := by
        rw [← Finset.sum_add_distrib, ← Finset.sum_add_distrib]
        exact Finset.sum_congr rfl fun j hj => hz' v j hvn (Finset.mem_range.mp hj)
      have e2 := hev v
      rw [Finset.sum_range_succ] at e2
      rw [e1]
      by_cases hvL : v ∈ L
      · obtain ⟨s, hs'⟩ := loopEdges_of_fst hvL
        obtain ⟨p, hp'⟩ := loopEdges_of_snd hvL
        have sn : s < n := hLn s (loopEdges_snd_mem hs')
        have pn : p < n := hLn p (loopEdges_fst_mem hp')
        have f1 : ∑ j ∈ Finset.range n, (if (v, j) ∈ loopEdges L then y v else 0) = y v := by
          rw [Finset.sum_eq_single s]
          · rw [if_pos hs']
          · intro j _ hj
            rw [if_neg fun h => hj (loopEdges_fst_inj hnd h hs')]
          · intro h; exact absurd (Finset.mem_range.mpr sn) h
        have f2 : ∑ j ∈ Finset.range n, (if (j, v) ∈ loopEdges L then y j else 0) = y p := by
          rw [Finset.sum_eq_single p]
          · rw [if_pos hp']
          · intro j _ hj
            rw [if_neg fun h => hj (loopEdges_snd_inj hnd h hp')]
          · intro h; exact absurd (Finset.mem_range.mpr pn) h
        rw [f1, f2]
        have := hy _ hp'
        simp only at this
        linear_combination e2 + this
      · have f1 : ∑ j ∈ Finset.range n, (if (v, j) ∈ loopEdges L then y v else 0) = 0 :=
          Finset.sum_eq_zero fun j _ => if_neg fun h => hvL (loopEdges_fst_mem h)
        have f2 : ∑ j ∈ Finset.range n, (if (j, v) ∈ loopEdges L then y j else 0) = 0 :=
          Finset.sum_eq_zero fun j _ => if_neg fun h => hvL (loopEdges_snd_mem h)
        rw [f1, f2]
        rw [hoff v hvL] at e2
        simpa using e2
    · exact Finset.sum_eq_zero fun j _ => hz0 v j (fun h => hvn h.1)
  obtain ⟨X, hX⟩ := hT z' g1 g2 g3
  -- constant on the removed part
  obtain ⟨r0, hr0⟩ := List.exists_mem_of_ne_nil R hR
  have hconst : ∀ r ∈ R, X r = X r0 := by
    refine hc (fun r => X r = X r0) ?_ r0 hr0 rfl
    intro t ht u hu a b hta hub hXt
    have h1 := hX t (hRT t ht) u (hRT u hu) a b hta hub
    have ta := mem_triEdges.mpr ⟨t, ht, hta⟩
    have ua := mem_triEdges.mpr ⟨u, hu, hub⟩
    have nab : (a, b) ∉ loopEdges L := fun h => ((hb _).mp h).2 ua
    have nba : (b, a) ∉ loopEdges L := fun h => ((hb _).mp h).2 ta
    have lt := triEdges_lt hs.valid (triEdges_mono hRT ta)
    have hz : z a b = 0 := by
      by_contra hne
      rcases hsup' a b hne with h3 | h3 | h3 | h3
      · exact hdis _ h3 ta
      · exact nab h3
      · have := lt.2; simp only at this; omega
      · have := lt.1; simp only at this; omega
    rw [hz' a b lt.1 lt.2, if_neg nab, if_neg nba, hz] at h1
    linear_combination h1 - hXt - z2_self (X r0)
  refine ⟨fun t => if t.c = n then y t.a else X t + X r0, ?_⟩
  have kK : ∀ t ∈ K, (if t.c = n then y t.a else X t + X r0) = X t + X r0 := by
    intro t ht
    have := hs.valid.tri t (hKT t ht)
    rw [if_neg (by omega)]
  have kN : ∀ a b, (if (⟨a, b, n⟩ : Tri).c = n then y (⟨a, b, n⟩ : Tri).a else X ⟨a, b, n⟩ + X r0) = y a := by
    intro a b; rw [if_pos rfl]
  have hKN : ∀ t ∈ K, ∀ u ∈ cone n L, ∀ a b, (a, b) ∈ t.edges → (b, a) ∈ u.edges →
      (if t.c = n then y t.a else X t + X r0) + (if u.c = n then y u.a else X u + X r0) = z a b := by
    intro t ht u hu a b hta hub
    obtain ⟨⟨e1, e2⟩, he, rfl⟩ := List.mem_map.mp hu
    have lt := hKn a b (mem_triEdges.mpr ⟨t, ht, hta⟩)
    simp only [Tri.edges, List.mem_cons, List.not_mem_nil, or_false, Prod.mk.injEq] at hub
    rcases hub with ⟨rfl, rfl⟩ | ⟨rfl, rfl⟩ | ⟨rfl, rfl⟩
    · rw [kK t ht, kN]
      obtain ⟨r, hr, hre⟩ := mem_triEdges.mp ((hb _).mp he).1
      have h1 := hX t (hKT t ht) r (hRT r hr) a b hta hre
      rw [hz' a b lt.1 lt.2, if_neg (hasym _ _ he), if_pos he, hconst r hr] at h1
      have := z2_self (y b)
      linear_combination h1 + this
    · omega
    · omega
  intro t ht u hu a b hta hub
  rcases List.mem_append.mp ht with ht | ht <;> rcases List.mem_append.mp hu with hu | hu
  · simp only [kK t ht, kK u hu]
    have h1 := hX t (hKT t ht) u (hKT u hu) a b hta hub
    have ta := mem_triEdges.mpr ⟨t, ht, hta⟩
    have ua := mem_triEdges.mpr ⟨u, hu, hub⟩
    have lt := hKn a b ta
    rw [hz' a b lt.1 lt.2, if_neg (fun h => hdis _ ta ((hb _).mp h).1),
      if_neg (fun h => hdis _ ua ((hb _).mp h).1)] at h1
    linear_combination h1 + z2_self (X r0)
  · exact hKN t ht u hu a b hta hub
  · rw [hsym, add_comm]; exact hKN u hu t ht b a hub hta
  · obtain ⟨⟨e1, e2⟩, he, rfl⟩ := List.mem_map.mp ht
    obtain ⟨⟨f1, f2⟩, hf, rfl⟩ := List.mem_map.mp hu
    simp only
    have l1 := hLn _ (loopEdges_fst_mem he)
    have l2 := hLn _ (loopEdges_snd_mem he)
    have m1 := hLn _ (loopEdges_fst_mem hf)
    have m2 := hLn _ (loopEdges_snd_mem hf)
    simp only at l1 l2 m1 m2
    simp only [Tri.edges, List.mem_cons, List.not_mem_nil, or_false, Prod.mk.injEq] at hta hub
    rcases hta with ⟨rfl, rfl⟩ | ⟨rfl, rfl⟩ | ⟨rfl, rfl⟩
    · rcases hub with ⟨rfl, rfl⟩ | ⟨rfl, rfl⟩ | ⟨rfl, rfl⟩
      · exact absurd hf (hasym _ _ he)
      · omega
      · omega
    · rcases hub with ⟨rfl, rfl⟩ | ⟨h1, h2⟩ | ⟨h1, rfl⟩
      · omega
      · omega
      · exact hy _ he
    · rcases hub with ⟨rfl, rfl⟩ | ⟨rfl, h2⟩ | ⟨rfl, rfl⟩
      · omega
      · have := hy _ hf
        simp only at this
        rw [hsym, add_comm]; exact this
      · omega

end Votess
