import Verif.Proofs.Sphere
import Verif.Proofs.Polytope
/-!
On a simply connected closed surface a disc inside a connected region with connected complement
can always be extended by a triangle of the region.
-/
set_option linter.unusedSectionVars false
namespace Votess

theorem z2_cases (a : ZMod 2) : a = 0 ∨ a = 1 := by revert a; decide

/-- the boundary of the complement -/
theorem unmatched_compl {n : Nat} {T A B : List Tri} (hs : Surf n T) (hp : (A ++ B).Perm T) (e : Nat × Nat) :
    Unmatched A e ↔ Unmatched B (e.2, e.1) := by
  have hvp := hs.valid.perm hp
  have hnd := hvp.nodup
  rw [triEdges_append, List.nodup_append] at hnd
  have hdis : ∀ e, e ∈ triEdges A → e ∉ triEdges B := fun e h1 h2 => hnd.2.2 e h1 e h2 rfl
  have hcl := hs.closed.perm hp.symm
  have key : ∀ e, e ∈ triEdges A ∨ e ∈ triEdges B → (e.2, e.1) ∈ triEdges A ∨ (e.2, e.1) ∈ triEdges B := by
    intro e he
    have := hcl e (by rw [triEdges_append, List.mem_append]; exact he)
    rwa [triEdges_append, List.mem_append] at this
  unfold Unmatched
  constructor
  · rintro ⟨h1, h2⟩
    exact ⟨(key e (Or.inl h1)).resolve_left h2, hdis e h1⟩
  · rintro ⟨h1, h2⟩
    have h3 := (key _ (Or.inr h1)).resolve_right h2
    exact ⟨h3, fun h4 => hdis _ h4 h1⟩

section
variable {n : Nat} {T : List Tri}

/-- A disc `M` with boundary `L` inside the connected region `M ++ Q`, the rest `K` connected: some
triangle of `Q` can be added to the disc.  (Induction on `Q`: a rejected triangle next to the disc
has a chord cutting off a pocket inside `Q`.) -/
theorem no_stuck (hs : Surf n T) (hT : Simple n T) {M : List Tri} {L : List Nat} (hM : M ≠ [])
    (hnd : L.Nodup) (hb : ∀ e, e ∈ loopEdges L ↔ Unmatched M e) :
    ∀ (m : Nat) (K Q : List Tri), Q.length ≤ m → (K ++ (M ++ Q)).Perm T → K ≠ [] → Q ≠ [] →
      Conn (M ++ Q) → Conn K → (∀ t ∈ Q, Rejects L t) → False := by
  classical
  intro m
  induction m with
  | zero =>
    intro K Q hl _ _ hQ
    exact absurd (List.length_eq_zero_iff.mp (by omega)) hQ
  | succ m ih =>
  intro K Q hl hp hK hQ hcR hcK hrej
  -- bookkeeping
  have hKT : ∀ t ∈ K, t ∈ T := fun t ht => hp.mem_iff.mp (List.mem_append_left _ ht)
  have hMT : ∀ t ∈ M, t ∈ T := fun t ht =>
    hp.mem_iff.mp (List.mem_append_right _ (List.mem_append_left _ ht))
  have hQT : ∀ t ∈ Q, t ∈ T := fun t ht =>
    hp.mem_iff.mp (List.mem_append_right _ (List.mem_append_right _ ht))
  have hsplit : ∀ t ∈ T, t ∈ K ∨ t ∈ M ∨ t ∈ Q := by
    intro t ht
    have := hp.mem_iff.mpr ht
    simpa [List.mem_append] using this
  have hvp := hs.valid.perm hp
  have hnde := hvp.nodup
  rw [triEdges_append, triEdges_append, List.nodup_append, List.nodup_append] at hnde
  have dKM : ∀ t, t ∈ K → t ∉ M := fun t h1 h2 =>
    hnde.2.2 _ (mem_triEdges.mpr ⟨t, h1, edge_ab t⟩) _
      (List.mem_append_left _ (mem_triEdges.mpr ⟨t, h2, edge_ab t⟩)) rfl
  have dKQ : ∀ t, t ∈ K → t ∉ Q := fun t h1 h2 =>
    hnde.2.2 _ (mem_triEdges.mpr ⟨t, h1, edge_ab t⟩) _
      (List.mem_append_right _ (mem_triEdges.mpr ⟨t, h2, edge_ab t⟩)) rfl
  have dMQ : ∀ t, t ∈ M → t ∉ Q := fun t h1 h2 =>
    hnde.2.1.2.2 _ (mem_triEdges.mpr ⟨t, h1, edge_ab t⟩) _ (mem_triEdges.mpr ⟨t, h2, edge_ab t⟩) rfl
  have uniq := @ValidTris.tri_unique n T hs.valid
  have hasym : ∀ a b, (a, b) ∈ loopEdges L → (b, a) ∉ loopEdges L := fun a b h1 h2 =>
    ((hb _).mp h1).2 ((hb _).mp h2).1
  have loopM : ∀ u ∈ T, ∀ e, e ∈ loopEdges L → e ∈ u.edges → u ∈ M := by
    intro u hu e he heu
    obtain ⟨v, hv, hev⟩ := mem_triEdges.mp ((hb _).mp he).1
    exact uniq (hMT v hv) hu hev heu ▸ hv
  -- the absorbed part is connected
  have hcM : Conn M := by
    refine conn_of_loop (n := n) (validTris_sub hvp ?_) (noClosedPart_of_irred (K := K ++ Q) hs ?_ (by simp [hK]))
      hnd (fun e => (hb e).symm)
    · exact (List.sublist_append_left M Q).trans (List.sublist_append_right K _)
    · refine List.Perm.trans ?_ hp
      rw [List.append_assoc]
      exact List.perm_append_comm.append_left K
  -- a waiting triangle next to it
  obtain ⟨m0, hm0, t, ht, x, y, hxy, hyx⟩ : ∃ m0 ∈ M, ∃ t ∈ Q, ∃ x y, (x, y) ∈ m0.edges ∧ (y, x) ∈ t.edges := by
    by_contra hcon
    obtain ⟨m0, hm0⟩ := List.exists_mem_of_ne_nil M hM
    obtain ⟨q, hq⟩ := List.exists_mem_of_ne_nil Q hQ
    refine dMQ q (hcR (fun t => t ∈ M) ?_ m0 (List.mem_append_left _ hm0) hm0 q (List.mem_append_right _ hq)) hq
    intro t _ u hu a b hta hub htM
    rcases List.mem_append.mp hu with hu | hu
    · exact hu
    · exact absurd ⟨t, htM, u, hu, a, b, hta, hub⟩ hcon
  have htM : t ∉ M := fun h => dMQ t h ht
  have htK : t ∉ K := fun h => dKQ t h ht
  have hxyL : (x, y) ∈ loopEdges L := by
    rw [hb]
    refine ⟨mem_triEdges.mpr ⟨m0, hm0, hxy⟩, fun h => ?_⟩
    obtain ⟨v, hv, hev⟩ := mem_triEdges.mp h
    exact htM (uniq (hMT v hv) (hQT t ht) hev hyx ▸ hv)
  obtain ⟨c, hc⟩ := rot_of_edge hyx
  obtain ⟨hcL, hcx, hyc⟩ := hrej t ht y x c hc hxyL
  have htv : y ≠ x ∧ x ≠ c ∧ c ≠ y := by
    have := hs.valid.tri t (hQT t ht)
    rcases hc with ⟨rfl, rfl, rfl⟩ | ⟨rfl, rfl, rfl⟩ | ⟨rfl, rfl, rfl⟩ <;> tauto
  have hedges : ∀ e, e ∈ t.edges ↔ e = (y, x) ∨ e = (x, c) ∨ e = (c, y) := fun e => hc.edges e
  have hxc : (x, c) ∈ t.edges := (hedges _).mpr (Or.inr (Or.inl rfl))
  have hcy : (c, y) ∈ t.edges := (hedges _).mpr (Or.inr (Or.inr rfl))
  obtain ⟨A, pA, pE⟩ := loop_rotate_edge hnd hxyL (fun h => htv.1 h.symm)
  have hcA : c ∈ A := by
    have := pA.mem_iff.mpr hcL
    simp only [List.cons_append, List.mem_cons, List.mem_append, List.not_mem_nil, or_false] at this
    rcases this with h | h | h
    · exact absurd h htv.2.2
    · exact h
    · exact absurd h.symm htv.2.1
  obtain ⟨A1, A2, rfl⟩ := List.append_of_mem hcA
  have hndA := pA.nodup_iff.mpr hnd
  have hE : (pathEdges (y :: A1 ++ [c]) ++ pathEdges (c :: A2 ++ [x]) ++ [(x, y)]).Perm (loopEdges L) := by
    refine List.Perm.trans ?_ pE
    rw [loopEdges_snoc]
    have := pathEdges_append (y :: A1) c (A2 ++ [x])
    simp only [List.cons_append, List.append_assoc] at this ⊢
    rw [this]
    simp
  have hl1 : loopEdges (y :: A1 ++ [c]) = pathEdges (y :: A1 ++ [c]) ++ [(c, y)] := loopEdges_snoc y A1 c
  have hl2 : loopEdges (c :: A2 ++ [x]) = pathEdges (c :: A2 ++ [x]) ++ [(x, c)] := loopEdges_snoc c A2 x
  generalize hP1 : pathEdges (y :: A1 ++ [c]) = P1 at hE hl1
  generalize hP2 : pathEdges (c :: A2 ++ [x]) = P2 at hE hl2
  have nd1 : (y :: A1 ++ [c]).Nodup := by
    refine List.Nodup.sublist ?_ hndA
    simp
  have nd2 : (c :: A2 ++ [x]).Nodup := by
    refine List.Nodup.sublist ?_ hndA
    simp
  have nd1' : (c :: A2 ++ [x] ++ [y]).Nodup := by
    refine List.Nodup.sublist (l₂ := A1 ++ (c :: A2 ++ [x]) ++ [y]) (by simp) ?_
    have : (A1 ++ (c :: A2 ++ [x]) ++ [y]).Perm (y :: (A1 ++ c :: A2) ++ [x]) := by
      refine List.perm_append_comm.trans ?_
      simp
    exact this.nodup_iff.mpr hndA
  have nd2' : (y :: A1 ++ [c] ++ [x]).Nodup := by
    refine List.Nodup.sublist ?_ hndA
    simp
  have xl1 : x ∉ y :: A1 ++ [c] := by
    have := List.nodup_append.mp nd2'
    exact fun h => this.2.2 x h x (by simp) rfl
  have yl2 : y ∉ c :: A2 ++ [x] := by
    have := List.nodup_append.mp nd1'
    exact fun h => this.2.2 y h y (by simp) rfl
  have hEm : ∀ e, e ∈ loopEdges L ↔ e ∈ P1 ∨ e ∈ P2 ∨ e = (x, y) := by
    intro e; rw [← hE.mem_iff]; simp
  have hEnd := hE.nodup_iff.mpr (loopEdges_nodup hnd)
  -- functions given by cycles of arcs and chords
  have pot : ∀ (ℓ : List Nat) (P : List (Nat × Nat)) (p q : Nat), loopEdges ℓ = P ++ [(p, q)] →
      (∀ e ∈ P, e ∈ loopEdges L) → (p, q) ∈ t.edges →
      ∃ X : Tri → ZMod 2, (∀ u ∈ T, ∀ v ∈ T, ∀ a b, (a, b) ∈ u.edges → (b, a) ∈ v.edges →
        X u + X v = zOf (loopEdges ℓ) a b) ∧ ∀ u ∈ M, X u = 0 := by
    intro ℓ P p q hℓ hP hpq
    have hin : ∀ e ∈ loopEdges ℓ, e ∈ triEdges T := by
      intro e he
      rw [hℓ, List.mem_append, List.mem_singleton] at he
      rcases he with he | rfl
      · exact triEdges_mono hMT ((hb e).mp (hP e he)).1
      · exact mem_triEdges.mpr ⟨t, hQT t ht, hpq⟩
    obtain ⟨X, hX⟩ := hT (zOf (loopEdges ℓ)) (zOf_symm _)
      (fun a b h => by
        rcases zOf_mem h with h | h
        · exact hin _ h
        · exact hs.closed _ (hin _ h))
      (zOf_loop_even (fun v hv => by
        obtain ⟨w, hw⟩ := loopEdges_of_fst hv
        exact (triEdges_lt hs.valid (hin _ hw)).1))
    have hconst : ∀ u ∈ M, X u = X m0 := by
      refine hcM (fun u => X u = X m0) ?_ m0 hm0 rfl
      intro u hu v hv a b hua hvb hXu
      have h1 := hX u (hMT u hu) v (hMT v hv) a b hua hvb
      have no : ∀ a b (u v : Tri), u ∈ M → v ∈ M → (a, b) ∈ u.edges → (b, a) ∈ v.edges → (a, b) ∉ loopEdges ℓ := by
        intro a b u v hu hv hua hvb he
        rw [hℓ, List.mem_append, List.mem_singleton] at he
        rcases he with he | he
        · exact ((hb _).mp (hP _ he)).2 (mem_triEdges.mpr ⟨v, hv, hvb⟩)
        · exact htM (uniq (hMT u hu) (hQT t ht) hua (he ▸ hpq) ▸ hu)
      rw [zOf_zero (no a b u v hu hv hua hvb) (no b a v u hv hu hvb hua)] at h1
      linear_combination h1 - hXu - z2_self (X m0)
    refine ⟨fun u => X u + X m0, ?_, ?_⟩
    · intro u hu v hv a b hua hvb
      linear_combination hX u hu v hv a b hua hvb + z2_self (X m0)
    · intro u hu
      simp only [hconst u hu]
      exact z2_self _
  obtain ⟨X1, hX1, hX1M⟩ := pot _ P1 c y hl1 (fun e he => (hEm e).mpr (Or.inl he)) hcy
  obtain ⟨X2, hX2, hX2M⟩ := pot _ P2 x c hl2 (fun e he => (hEm e).mpr (Or.inr (Or.inl he))) hxc
  have hX1t : X1 t = 0 := by
    have := hX1 t (hQT t ht) m0 (hMT m0 hm0) y x hyx hxy
    rw [hX1M m0 hm0, zOf_zero (fun h => xl1 (loopEdges_snd_mem h)) (fun h => xl1 (loopEdges_fst_mem h))] at this
    simpa using this
  have hX2t : X2 t = 0 := by
    have := hX2 t (hQT t ht) m0 (hMT m0 hm0) y x hyx hxy
    rw [hX2M m0 hm0, zOf_zero (fun h => yl2 (loopEdges_fst_mem h)) (fun h => yl2 (loopEdges_snd_mem h))] at this
    simpa using this
  -- together with the disc and the triangle they fill the sphere
  have htne : t.edges.Nodup := by
    have := hs.valid.nodup
    exact (List.nodup_flatMap.mp this).1 t (hQT t ht)
  have hχt : ∀ u ∈ T, ∀ v ∈ T, ∀ a b, (a, b) ∈ u.edges → (b, a) ∈ v.edges →
      (if u = t then 1 else 0) + (if v = t then 1 else 0) = zOf t.edges a b := by
    intro u hu v hv a b hua hvb
    have cnt : ∀ (u : Tri) e, u ∈ T → e ∈ u.edges → t.edges.count e = if u = t then 1 else 0 := by
      intro u e hu he
      by_cases h : u = t
      · rw [if_pos h]; subst h; exact List.count_eq_one_of_mem htne he
      · rw [if_neg h]
        exact List.count_eq_zero_of_not_mem fun h' => h (uniq hu (hQT t ht) he h')
    unfold zOf
    rw [cnt u _ hu hua, cnt v _ hv hvb]
    push_cast; rfl
  have hχM : ∀ u ∈ T, ∀ v ∈ T, ∀ a b, (a, b) ∈ u.edges → (b, a) ∈ v.edges →
      (if u ∈ M then 1 else 0) + (if v ∈ M then 1 else 0) = zOf (loopEdges L) a b := by
    intro u hu v hv a b hua hvb
    have one : ∀ a b (u v : Tri), u ∈ T → v ∈ T → (a, b) ∈ u.edges → (b, a) ∈ v.edges →
        ((a, b) ∈ loopEdges L ↔ u ∈ M ∧ v ∉ M) := by
      intro a b u v hu hv hua hvb
      rw [hb]
      constructor
      · rintro ⟨h1, h2⟩
        refine ⟨loopM u hu _ ((hb _).mpr ⟨h1, h2⟩) hua, fun h3 => h2 (mem_triEdges.mpr ⟨v, h3, hvb⟩)⟩
      · rintro ⟨h1, h2⟩
        refine ⟨mem_triEdges.mpr ⟨u, h1, hua⟩, fun h3 => ?_⟩
        obtain ⟨w, hw, hwe⟩ := mem_triEdges.mp h3
        exact h2 (uniq (hMT w hw) hv hwe hvb ▸ hw)
    have cnt : ∀ e, (loopEdges L).count e = if e ∈ loopEdges L then 1 else 0 := by
      intro e
      by_cases h : e ∈ loopEdges L
      · rw [if_pos h]; exact List.count_eq_one_of_mem (loopEdges_nodup hnd) h
      · rw [if_neg h]; exact List.count_eq_zero_of_not_mem h
    unfold zOf
    rw [cnt, cnt]
    have o1 := one a b u v hu hv hua hvb
    have o2 := one b a v u hv hu hvb hua
    by_cases h1 : u ∈ M <;> by_cases h2 : v ∈ M <;> simp only [o1, o2, h1, h2] <;> decide
  have hsum : ∀ a b, zOf (loopEdges (y :: A1 ++ [c])) a b + zOf (loopEdges (c :: A2 ++ [x])) a b
      + zOf t.edges a b + zOf (loopEdges L) a b = 0 := by
    intro a b
    have ht' : t.edges.Perm [(y, x), (x, c), (c, y)] := by
      unfold Tri.edges
      rcases hc with ⟨rfl, rfl, rfl⟩ | ⟨rfl, rfl, rfl⟩ | ⟨rfl, rfl, rfl⟩
      · exact .refl _
      · exact List.perm_append_comm (l₁ := [_]) (l₂ := [_, _])
      · exact List.perm_append_comm (l₁ := [_, _]) (l₂ := [_])
    have e3 : ∀ E F G : Nat × Nat, zOf [E, F, G] a b = zOf [E] a b + zOf [F] a b + zOf [G] a b := by
      intro E F G
      rw [← zOf_append, ← zOf_append]; rfl
    rw [hl1, hl2, zOf_perm ht', ← zOf_perm hE, e3, zOf_append, zOf_append, zOf_append, zOf_append,
      zOf_swap y x]
    linear_combination z2_self (zOf P1 a b) + z2_self (zOf P2 a b) + z2_self (zOf [(x, c)] a b)
      + z2_self (zOf [(c, y)] a b) + z2_self (zOf [(x, y)] a b)
  have hF : ∀ u ∈ T, X1 u + X2 u + (if u = t then 1 else 0) + (if u ∈ M then 1 else 0) = 1 := by
    intro u hu
    have hmem := hs.irred (T.filter fun u => X1 u + X2 u + (if u = t then 1 else 0) + (if u ∈ M then 1 else 0) = 1)
      ?_ (fun v hv => (List.mem_filter.mp hv).1) ?_ u hu
    · have := (List.mem_filter.mp hmem).2
      exact of_decide_eq_true this
    · apply List.ne_nil_of_mem (a := m0)
      rw [List.mem_filter]
      refine ⟨hMT m0 hm0, ?_⟩
      rw [decide_eq_true_eq, hX1M m0 hm0, hX2M m0 hm0, if_pos hm0, if_neg (fun h : m0 = t => htM (h ▸ hm0))]
      decide
    · rintro ⟨a, b⟩ he
      obtain ⟨v, hv, hve⟩ := mem_triEdges.mp he
      rw [List.mem_filter, decide_eq_true_eq] at hv
      obtain ⟨w, hw, hwe⟩ := mem_triEdges.mp (hs.closed (a, b) (mem_triEdges.mpr ⟨v, hv.1, hve⟩))
      refine mem_triEdges.mpr ⟨w, ?_, hwe⟩
      rw [List.mem_filter, decide_eq_true_eq]
      refine ⟨hw, ?_⟩
      have i1 := hX1 v hv.1 w hw a b hve hwe
      have i2 := hX2 v hv.1 w hw a b hve hwe
      have i3 := hχt v hv.1 w hw a b hve hwe
      have i4 := hχM v hv.1 w hw a b hve hwe
      have i5 := hsum a b
      have i6 := hv.2
      have i7 : (1 : ZMod 2) + 1 = 0 := z2_self 1
      linear_combination i1 + i2 + i3 + i4 + i5 - i6 - i7
  -- a cycle function is constant on the other side
  have hKc : ∀ (ℓ : List Nat) (P : List (Nat × Nat)) (p q : Nat) (X : Tri → ZMod 2),
      loopEdges ℓ = P ++ [(p, q)] → (∀ e ∈ P, e ∈ loopEdges L) → (p, q) ∈ t.edges →
      (∀ u ∈ T, ∀ v ∈ T, ∀ a b, (a, b) ∈ u.edges → (b, a) ∈ v.edges →
        X u + X v = zOf (loopEdges ℓ) a b) → ∀ k0 ∈ K, ∀ k ∈ K, X k = X k0 := by
    intro ℓ P p q X hℓ hP hpq hX k0 hk0
    refine hcK (fun u => X u = X k0) ?_ k0 hk0 rfl
    intro u hu v hv a b hua hvb hXu
    have h1 := hX u (hKT u hu) v (hKT v hv) a b hua hvb
    have no : ∀ e (u : Tri), u ∈ K → e ∈ u.edges → e ∉ loopEdges ℓ := by
      intro e u hu hua he
      rw [hℓ, List.mem_append, List.mem_singleton] at he
      rcases he with he | he
      · exact dKM u hu (loopM u (hKT u hu) e (hP e he) hua)
      · exact htK (uniq (hKT u hu) (hQT t ht) hua (he ▸ hpq) ▸ hu)
    rw [zOf_zero (no _ u hu hua) (no _ v hv hvb)] at h1
    linear_combination h1 - hXu - z2_self (X k0)
  -- a smaller instance
  have fin : ∀ (ℓ ℓ' : List Nat) (P : List (Nat × Nat)) (p q : Nat) (X : Tri → ZMod 2),
      ℓ.Nodup → loopEdges ℓ = P ++ [(p, q)] → (∀ e ∈ P, e ∈ loopEdges L) → (p, q) ∈ t.edges → p ≠ q →
      (q, p) ∉ loopEdges L → ℓ'.Nodup →
      (∀ e, e ∈ loopEdges ℓ' ↔ (e ∈ loopEdges L ∧ e ∉ P) ∨ e = (q, p)) →
      (∀ u ∈ T, ∀ v ∈ T, ∀ a b, (a, b) ∈ u.edges → (b, a) ∈ v.edges →
        X u + X v = zOf (loopEdges ℓ) a b) → (∀ u ∈ M, X u = 0) → X t = 0 → (∀ u ∈ K, X u = 0) → False := by
    intro ℓ ℓ' P p q X hndℓ hℓ hP hpq hne hqp hndℓ' hℓ' hX hXM hXt hXK
    have hone : ∀ a b, (a, b) ∈ loopEdges ℓ → (b, a) ∉ loopEdges ℓ → zOf (loopEdges ℓ) a b = 1 := by
      intro a b h1 h2
      unfold zOf
      rw [List.count_eq_one_of_mem (loopEdges_nodup hndℓ) h1, List.count_eq_zero_of_not_mem h2]
      decide
    have hmℓ : ∀ e, e ∈ loopEdges ℓ ↔ e ∈ P ∨ e = (p, q) := by
      intro e; rw [hℓ, List.mem_append, List.mem_singleton]
    have hqpℓ : (q, p) ∉ loopEdges ℓ := by
      rw [hmℓ]
      rintro (h | h)
      · exact hqp (hP _ h)
      · simp only [Prod.mk.injEq] at h; exact hne h.2
    -- a triangle of the pocket
    obtain ⟨u0, hu0, hu0e⟩ := mem_triEdges.mp (hs.closed (p, q) (mem_triEdges.mpr ⟨t, hQT t ht, hpq⟩))
    have hXu0 : X u0 = 1 := by
      have := hX t (hQT t ht) u0 hu0 p q hpq hu0e
      rw [hone p q ((hmℓ _).mpr (Or.inr rfl)) hqpℓ, hXt, zero_add] at this
      exact this
    have h10 : (1 : ZMod 2) ≠ 0 := by decide
    have hmW : ∀ u ∈ T, X u = 1 ↔ u ∈ Q.filter fun u => decide (X u = 1) := by
      intro u hu
      rw [List.mem_filter, decide_eq_true_eq]
      constructor
      · intro h
        rcases hsplit u hu with h1 | h1 | h1
        · rw [hXK u h1] at h; exact absurd h.symm h10
        · rw [hXM u h1] at h; exact absurd h.symm h10
        · exact ⟨h1, h⟩
      · exact fun h => h.2
    generalize hW : (Q.filter fun u => decide (X u = 1)) = W at hmW
    have hWQ : ∀ u ∈ W, u ∈ Q := by
      intro u hu; rw [← hW] at hu; exact (List.mem_filter.mp hu).1
    have hlen : W.length ≤ m := by
      have : W.length < Q.length := by
        rw [← hW, List.length_filter_lt_length_iff_exists]
        refine ⟨t, ht, ?_⟩
        rw [decide_eq_true_eq, hXt]; exact fun h => h10 h.symm
      omega
    have hperm : ((K ++ Q.filter fun u => !decide (X u = 1)) ++ (M ++ W)).Perm T := by
      refine List.Perm.trans ?_ hp
      rw [List.append_assoc]
      refine List.Perm.append_left K ?_
      have h1 : (W ++ Q.filter fun u => !decide (X u = 1)).Perm Q := by
        rw [← hW]; exact List.filter_append_perm _ _
      refine List.Perm.trans ?_ (h1.append_left M)
      rw [← List.append_assoc M W]
      exact List.perm_append_comm
    have htout : t ∉ M ++ W := by
      intro h
      rcases List.mem_append.mp h with h | h
      · exact htM h
      · have := (hmW t (hQT t ht)).mpr h
        rw [hXt] at this; exact h10 this.symm
    have hMWT : ∀ u ∈ M ++ W, u ∈ T := by
      intro u hu
      rcases List.mem_append.mp hu with h | h
      · exact hMT u h
      · exact hQT u (hWQ u h)
    have hun : ∀ e, Unmatched (M ++ W) e ↔ e ∈ loopEdges ℓ' := by
      rintro ⟨a, b⟩
      rw [hℓ']
      constructor
      · rintro ⟨h1, h2⟩
        obtain ⟨u, hu, hue⟩ := mem_triEdges.mp h1
        have huT := hMWT u hu
        obtain ⟨v, hv, hve⟩ := mem_triEdges.mp (hs.closed (a, b) (mem_triEdges.mpr ⟨u, huT, hue⟩))
        have hvo : v ∉ M ++ W := fun h => h2 (mem_triEdges.mpr ⟨v, h, hve⟩)
        rw [List.mem_append, not_or] at hvo
        have hXv : X v = 0 := by
          rcases z2_cases (X v) with h | h
          · exact h
          · exact absurd ((hmW v hv).mp h) hvo.2
        have hz := hX u huT v hv a b hue hve
        rcases List.mem_append.mp hu with huM | huW
        · left
          have hL : (a, b) ∈ loopEdges L := by
            rw [hb]
            exact ⟨mem_triEdges.mpr ⟨u, huM, hue⟩, fun h =>
              h2 (triEdges_mono (fun w hw => List.mem_append_left _ hw) h)⟩
          refine ⟨hL, fun hPab => ?_⟩
          have hba : (b, a) ∉ loopEdges ℓ := by
            rw [hmℓ]
            rintro (h | h)
            · exact hasym a b hL (hP _ h)
            · simp only [Prod.mk.injEq] at h
              obtain ⟨rfl, rfl⟩ := h
              exact hqp hL
          rw [hone a b ((hmℓ _).mpr (Or.inl hPab)) hba, hXM u huM, hXv] at hz
          exact h10 (by simpa using hz.symm)
        · right
          have hXu := (hmW u huT).mpr huW
          rw [hXu, hXv, add_zero] at hz
          have hnz : zOf (loopEdges ℓ) a b ≠ 0 := by rw [← hz]; exact h10
          have huM : u ∉ M := fun h => dMQ u h (hWQ u huW)
          rcases zOf_mem hnz with h | h
          · rcases (hmℓ _).mp h with h | h
            · exact absurd (loopM u huT _ (hP _ h) hue) huM
            · have : u = t := uniq huT (hQT t ht) hue (h ▸ hpq)
              exact absurd (this ▸ hu) htout
          · rcases (hmℓ _).mp h with h | h
            · exact absurd (loopM v hv _ (hP _ h) hve) hvo.1
            · simp only [Prod.mk.injEq] at h
              rw [h.1, h.2]
      · rintro (⟨hL, hPn⟩ | h)
        · obtain ⟨u, hu, hue⟩ := mem_triEdges.mp ((hb _).mp hL).1
          obtain ⟨v, hv, hve⟩ := mem_triEdges.mp (hs.closed (a, b) (mem_triEdges.mpr ⟨u, hMT u hu, hue⟩))
          refine ⟨mem_triEdges.mpr ⟨u, List.mem_append_left _ hu, hue⟩, fun h => ?_⟩
          obtain ⟨w, hw, hwe⟩ := mem_triEdges.mp h
          obtain rfl : w = v := uniq (hMWT w hw) hv hwe hve
          rcases List.mem_append.mp hw with hw | hw
          · exact ((hb _).mp hL).2 (mem_triEdges.mpr ⟨w, hw, hwe⟩)
          · have hz := hX u (hMT u hu) w hv a b hue hve
            rw [hXM u hu, (hmW w hv).mpr hw, zero_add] at hz
            have hnz : zOf (loopEdges ℓ) a b ≠ 0 := by rw [← hz]; exact h10
            rcases zOf_mem hnz with h | h
            · rcases (hmℓ _).mp h with h | h
              · exact hPn h
              · exact htM (uniq (hMT u hu) (hQT t ht) hue (h ▸ hpq) ▸ hu)
            · rcases (hmℓ _).mp h with h | h
              · exact hasym a b hL (hP _ h)
              · simp only [Prod.mk.injEq] at h
                obtain ⟨rfl, rfl⟩ := h
                exact hqp hL
        · rw [Prod.mk.injEq] at h
          obtain ⟨rfl, rfl⟩ := h
          refine ⟨mem_triEdges.mpr ⟨u0, List.mem_append_right _ ((hmW u0 hu0).mp hXu0), hu0e⟩, fun h => ?_⟩
          obtain ⟨w, hw, hwe⟩ := mem_triEdges.mp h
          exact htout (uniq (hMWT w hw) (hQT t ht) hwe hpq ▸ hw)
    have hvp' := hs.valid.perm hperm
    have hWne : W ≠ [] := List.ne_nil_of_mem ((hmW u0 hu0).mp hXu0)
    have hK'ne : (K ++ Q.filter fun u => !decide (X u = 1)) ≠ [] := by simp [hK]
    have c1 : Conn (M ++ W) :=
      conn_of_loop (n := n) (validTris_sub hvp' (List.sublist_append_right _ _))
        (noClosedPart_of_irred hs hperm hK'ne) hndℓ' hun
    have c2 : Conn (K ++ Q.filter fun u => !decide (X u = 1)) := by
      refine conn_of_loop (n := n) (ℓ := ℓ'.reverse) (validTris_sub hvp' (List.sublist_append_left _ _))
        (noClosedPart_of_irred (K := M ++ W) hs (List.perm_append_comm.trans hperm) (by simp [hM]))
        (List.nodup_reverse.mpr hndℓ') ?_
      intro e
      rw [loopEdges_reverse, ← hun, unmatched_compl hs hperm]
    exact ih _ W hlen hperm hK'ne hWne c1 c2 (fun u hu => hrej u (hWQ u hu))
  -- one of the two pockets lies inside
  have hndl1 := loopEdges_nodup nd1
  have hndl2 := loopEdges_nodup nd2
  have hndE := List.nodup_append.mp hEnd
  have hndE' := List.nodup_append.mp hndE.1
  have hd12 : ∀ e, e ∈ P1 → e ∉ P2 := fun e h1 h2 => hndE'.2.2 e h1 e h2 rfl
  have hdx1 : (x, y) ∉ P1 := fun h => hndE.2.2 _ (List.mem_append_left _ h) _ (List.mem_singleton.mpr rfl) rfl
  have hdx2 : (x, y) ∉ P2 := fun h => hndE.2.2 _ (List.mem_append_right _ h) _ (List.mem_singleton.mpr rfl) rfl
  have hout1 : ∀ e, e ∈ loopEdges (c :: A2 ++ [x] ++ [y]) ↔ (e ∈ loopEdges L ∧ e ∉ P1) ∨ e = (y, c) := by
    intro e
    have : loopEdges (c :: A2 ++ [x] ++ [y]) = P2 ++ [(x, y)] ++ [(y, c)] := by
      have h1 := loopEdges_snoc c (A2 ++ [x]) y
      have h2 := pathEdges_append (c :: A2) x [y]
      rw [← hP2]
      simp only [List.cons_append, List.append_assoc, List.nil_append] at h1 h2 ⊢
      rw [h1, h2]; simp [pathEdges]
    rw [this, hEm, List.mem_append, List.mem_append, List.mem_singleton, List.mem_singleton]
    constructor
    · rintro ((h | h) | h)
      · exact Or.inl ⟨Or.inr (Or.inl h), fun h' => hd12 e h' h⟩
      · exact Or.inl ⟨Or.inr (Or.inr h), h ▸ hdx1⟩
      · exact Or.inr h
    · rintro (⟨h | h | h, h'⟩ | h)
      · exact absurd h h'
      · exact Or.inl (Or.inl h)
      · exact Or.inl (Or.inr h)
      · exact Or.inr h
  have hout2 : ∀ e, e ∈ loopEdges (y :: A1 ++ [c] ++ [x]) ↔ (e ∈ loopEdges L ∧ e ∉ P2) ∨ e = (c, x) := by
    intro e
    have : loopEdges (y :: A1 ++ [c] ++ [x]) = P1 ++ [(c, x)] ++ [(x, y)] := by
      have h1 := loopEdges_snoc y (A1 ++ [c]) x
      have h2 := pathEdges_append (y :: A1) c [x]
      rw [← hP1]
      simp only [List.cons_append, List.append_assoc, List.nil_append] at h1 h2 ⊢
      rw [h1, h2]; simp [pathEdges]
    rw [this, hEm, List.mem_append, List.mem_append, List.mem_singleton, List.mem_singleton]
    constructor
    · rintro ((h | h) | h)
      · exact Or.inl ⟨Or.inl h, hd12 e h⟩
      · exact Or.inr h
      · exact Or.inl ⟨Or.inr (Or.inr h), h ▸ hdx2⟩
    · rintro (⟨h | h | h, h'⟩ | h)
      · exact Or.inl (Or.inl h)
      · exact absurd h h'
      · exact Or.inr h
      · exact Or.inl (Or.inr h)
  have hs1 : ∀ e ∈ P1, e ∈ loopEdges L := fun e he => (hEm e).mpr (Or.inl he)
  have hs2 : ∀ e ∈ P2, e ∈ loopEdges L := fun e he => (hEm e).mpr (Or.inr (Or.inl he))
  obtain ⟨k0, hk0⟩ := List.exists_mem_of_ne_nil K hK
  rcases z2_cases (X1 k0) with h | h
  · exact fin _ _ P1 c y X1 nd1 hl1 hs1 hcy htv.2.2 hyc nd1' hout1 hX1 hX1M hX1t
      (fun k hk => (hKc _ P1 c y X1 hl1 hs1 hcy hX1 k0 hk0 k hk).trans h)
  · have h2 : X2 k0 = 0 := by
      have := hF k0 (hKT k0 hk0)
      rw [h, if_neg (fun h : k0 = t => htK (h ▸ hk0)), if_neg (dKM k0 hk0)] at this
      simpa using this
    exact fin _ _ P2 x c X2 nd2 hl2 hs2 hxc htv.2.1 hcx nd2' hout2 hX2 hX2M hX2t
      (fun k hk => (hKc _ P2 x c X2 hl2 hs2 hxc hX2 k0 hk0 k hk).trans h2)

end

end Votess
