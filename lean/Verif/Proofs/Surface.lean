import Verif.Proofs.Boundary
/-! Replacing part of a closed surface by the cone over its boundary loop. -/
namespace Votess

/-- triangles joining the edges of a loop with the plane `new` -/
def cone (new : Nat) (L : List Nat) : List Tri := (loopEdges L).map fun e => ⟨e.1, e.2, new⟩

/-- the loop found for the triangles `R` -/
structure LoopOf (R : List Tri) (dR L : List Nat) : Prop where
  loop : IsLoop bUndefined dR L
  sub : ∀ e ∈ loopEdges L, e ∈ triEdges R
  bd : (∀ e, e ∈ loopEdges L ↔ Unmatched R e) ∨
    ∃ S, S ≠ [] ∧ (∀ t ∈ S, t ∈ R) ∧ ClosedTris S
  len : L.length ≤ R.length + 2

theorem LoopOf.perm {R R' : List Tri} {dR L : List Nat} (h : LoopOf R dR L) (p : R.Perm R') :
    LoopOf R' dR L := by
  have pe := p.flatMap_right Tri.edges
  refine ⟨h.loop, fun e he => pe.mem_iff.mp (h.sub e he), ?_, by rw [← p.length_eq]; exact h.len⟩
  rcases h.bd with hb | ⟨S, h1, h2, h3⟩
  · left; intro e; rw [hb]; simp only [Unmatched, triEdges, pe.mem_iff]
  · right; exact ⟨S, h1, fun t ht => p.mem_iff.mp (h2 t ht), h3⟩

theorem validTris_mono {m n : Nat} {R : List Tri} (h : ValidTris m R) (hmn : m ≤ n) : ValidTris n R :=
  ⟨fun t ht => by have := h.tri t ht; omega, h.nodup⟩

theorem validTris_sub {n : Nat} {R S : List Tri} (h : ValidTris n R) (hs : S.Sublist R) :
    ValidTris n S :=
  ⟨fun t ht => h.tri t (hs.subset ht), h.nodup.sublist (triEdges_sublist hs)⟩


theorem cone_edges (new : Nat) (L : List Nat) (e : Nat × Nat) :
    e ∈ triEdges (cone new L) ↔
      e ∈ loopEdges L ∨ (e.2 = new ∧ e.1 ∈ L) ∨ (e.1 = new ∧ e.2 ∈ L) := by
  rw [mem_triEdges]
  constructor
  · rintro ⟨t, ht, he⟩
    obtain ⟨⟨u, v⟩, huv, rfl⟩ := List.mem_map.mp ht
    simp only [Tri.edges, List.mem_cons, List.not_mem_nil, or_false] at he
    rcases he with rfl | rfl | rfl
    · exact Or.inl huv
    · exact Or.inr (Or.inl ⟨rfl, loopEdges_snd_mem huv⟩)
    · exact Or.inr (Or.inr ⟨rfl, loopEdges_fst_mem huv⟩)
  · obtain ⟨x, y⟩ := e
    rintro (h | ⟨h, h'⟩ | ⟨h, h'⟩)
    · exact ⟨_, List.mem_map.mpr ⟨(x, y), h, rfl⟩, by simp [Tri.edges]⟩
    · simp only at h h'; subst h
      obtain ⟨w, hw⟩ := loopEdges_of_snd h'
      exact ⟨_, List.mem_map.mpr ⟨(w, x), hw, rfl⟩, by simp [Tri.edges]⟩
    · simp only at h h'; subst h
      obtain ⟨w, hw⟩ := loopEdges_of_fst h'
      exact ⟨_, List.mem_map.mpr ⟨(y, w), hw, rfl⟩, by simp [Tri.edges]⟩

theorem loopEdges_nodup {L : List Nat} (h : L.Nodup) : (loopEdges L).Nodup := by
  have : ((loopEdges L).map Prod.fst).Nodup := by rw [loopEdges_fst]; exact h
  exact List.Pairwise.of_map _ (fun a b h e => h (by rw [e])) this

theorem cone_nodup {new : Nat} {L : List Nat} (h : L.Nodup) (hl : new ∉ L) :
    (triEdges (cone new L)).Nodup := by
  have e : triEdges (cone new L)
      = (loopEdges L).flatMap (fun e => [(e.1, e.2), (e.2, new), (new, e.1)]) := by
    simp [triEdges, cone, Tri.edges, List.flatMap_map]
  rw [e]
  unfold List.Nodup
  rw [List.pairwise_flatMap]
  have hf : ∀ e ∈ loopEdges L, e.1 ≠ new ∧ e.2 ≠ new := fun e he =>
    ⟨fun hx => hl (by rw [← hx]; exact loopEdges_fst_mem he),
     fun hx => hl (by rw [← hx]; exact loopEdges_snd_mem he)⟩
  constructor
  · intro e he
    obtain ⟨h1, h2⟩ := hf e he
    simp; grind
  · refine List.Pairwise.imp_of_mem ?_ (loopEdges_nodup h)
    rintro ⟨a, b⟩ ⟨c, d⟩ ha hb hab x hx y hy
    obtain ⟨h1, h2⟩ := hf _ ha
    obtain ⟨h3, h4⟩ := hf _ hb
    have hac : a ≠ c := by
      rintro rfl; exact hab (by rw [loopEdges_fst_inj h ha hb])
    have hbd : b ≠ d := by
      rintro rfl; exact hab (by rw [loopEdges_snd_inj h ha hb])
    simp only [List.mem_cons, List.not_mem_nil, or_false] at hx hy h1 h2 h3 h4
    rcases hx with rfl | rfl | rfl <;> rcases hy with rfl | rfl | rfl <;> simp <;> omega

theorem triEdges_lt {n : Nat} {R : List Tri} (h : ValidTris n R) {e : Nat × Nat}
    (he : e ∈ triEdges R) : e.1 < n ∧ e.2 < n := by
  obtain ⟨t, ht, he⟩ := mem_triEdges.mp he
  have := h.tri t ht
  simp only [Tri.edges, List.mem_cons, List.not_mem_nil, or_false] at he
  rcases he with rfl | rfl | rfl <;> simp only <;> omega

theorem triEdges_mono {R S : List Tri} (h : ∀ t ∈ R, t ∈ S) {e : Nat × Nat} (he : e ∈ triEdges R) :
    e ∈ triEdges S := by
  obtain ⟨t, ht, he⟩ := mem_triEdges.mp he
  exact mem_triEdges.mpr ⟨t, h t ht, he⟩

/-- a directed edge belongs to one triangle only -/
theorem ValidTris.tri_unique {n : Nat} {R : List Tri} (h : ValidTris n R) {t u : Tri} (ht : t ∈ R)
    (hu : u ∈ R) {e : Nat × Nat} (he : e ∈ t.edges) (he' : e ∈ u.edges) : t = u := by
  have hn := h.nodup
  clear h
  induction R with
  | nil => cases ht
  | cons x R ih =>
    simp only [triEdges, List.flatMap_cons] at hn
    obtain ⟨_, h2, h3⟩ := List.nodup_append.mp hn
    rcases List.mem_cons.mp ht with rfl | ht'
    · rcases List.mem_cons.mp hu with rfl | hu'
      · rfl
      · exact absurd rfl (h3 e he e (mem_triEdges.mpr ⟨u, hu', he'⟩))
    · rcases List.mem_cons.mp hu with rfl | hu'
      · exact absurd rfl (h3 e he' e (mem_triEdges.mpr ⟨t, ht', he⟩))
      · exact ih ht' hu' h2

theorem edge_ab (t : Tri) : (t.a, t.b) ∈ t.edges := by simp [Tri.edges]

/-- every non-empty closed part is everything -/
def Irred (T : List Tri) : Prop :=
  ∀ S, S ≠ [] → (∀ t ∈ S, t ∈ T) → ClosedTris S → ∀ t ∈ T, t ∈ S

/-- closed connected surface -/
structure Surf (n : Nat) (T : List Tri) : Prop where
  valid : ValidTris n T
  closed : ClosedTris T
  irred : Irred T

theorem ClosedTris.perm {R S : List Tri} (p : R.Perm S) (h : ClosedTris R) : ClosedTris S := by
  have pe := p.flatMap_right Tri.edges
  intro e he
  exact pe.mem_iff.mp (h e (pe.mem_iff.mpr he))

theorem Surf.perm {n : Nat} {T T' : List Tri} (h : Surf n T) (p : T'.Perm T) : Surf n T' :=
  ⟨h.valid.perm p, h.closed.perm p.symm, fun S h1 h2 h3 t ht =>
    h.irred S h1 (fun u hu => p.mem_iff.mp (h2 u hu)) h3 t (p.mem_iff.mp ht)⟩

/-- the property spreads along a loop -/
theorem loop_induct {L : List Nat} {X : Nat → Prop} {x : Nat} (hx : x ∈ L) (h0 : X x)
    (hs : ∀ e ∈ loopEdges L, X e.1 → X e.2) : ∀ y ∈ L, X y := by
  obtain ⟨A, p1, p2⟩ := loop_rotate hx
  have hs' : ∀ e ∈ pathEdges (x :: A ++ [x]), X e.1 → X e.2 := fun e he => hs e (p2.mem_iff.mp he)
  have key : ∀ (A : List Nat) (x : Nat) (z : Nat), X x → (∀ e ∈ pathEdges (x :: A ++ [z]), X e.1 → X e.2) →
      ∀ y ∈ x :: A, X y := by
    intro A
    induction A with
    | nil => intro x z h0 _ y hy; simp at hy; subst hy; exact h0
    | cons b A ih =>
      intro x z h0 hs y hy
      have hb : X b := hs (x, b) (by simp [pathEdges]) h0
      rcases List.mem_cons.mp hy with rfl | hy
      · exact h0
      · exact ih b z hb (fun e he => hs e (by simp only [List.cons_append, pathEdges] at he ⊢; exact List.mem_cons_of_mem _ he)) y hy
  intro y hy
  exact key A x x h0 hs' y (p1.mem_iff.mpr hy)

section step
variable {n : Nat} {T K R N : List Tri} {dR L : List Nat}

theorem LoopOf.lt (hv : ValidTris n R) (hL : LoopOf R dR L) {x : Nat} (hx : x ∈ L) : x < n := by
  obtain ⟨y, hy⟩ := loopEdges_of_fst hx
  exact (triEdges_lt hv (hL.sub _ hy)).1

theorem triEdges_perm {R S : List Tri} (p : R.Perm S) (e : Nat × Nat) :
    e ∈ triEdges R ↔ e ∈ triEdges S := (p.flatMap_right Tri.edges).mem_iff

/-- replacing `R` by the cone keeps a valid triangle list -/
theorem valid_step (hv : ValidTris n T) (hp : (K ++ R).Perm T) (hL : LoopOf R dR L)
    (hN : N.Perm (cone n L)) : ValidTris (n + 1) (K ++ N) := by
  have hvp := hv.perm hp
  have hvK : ValidTris n K := validTris_sub hvp (List.sublist_append_left K R)
  have hvR : ValidTris n R := validTris_sub hvp (List.sublist_append_right K R)
  have hlt : ∀ x ∈ L, x < n := fun x hx => hL.lt hvR hx
  have hnL : n ∉ L := fun h => by have := hlt n h; omega
  refine ⟨?_, ?_⟩
  · intro t ht
    rcases List.mem_append.mp ht with ht | ht
    · have := hvK.tri t ht; omega
    · obtain ⟨e, he, rfl⟩ := List.mem_map.mp (hN.mem_iff.mp ht)
      have h1 := hlt _ (loopEdges_fst_mem he)
      have h2 := hlt _ (loopEdges_snd_mem he)
      have h3 := hL.loop.edge_ne he
      simp only; omega
  · rw [triEdges_append, List.nodup_append]
    refine ⟨hvK.nodup, ((hN.flatMap_right Tri.edges).nodup_iff).mpr (cone_nodup hL.loop.nodup hnL), ?_⟩
    intro e he e' he' hee
    subst hee
    have h1 := triEdges_lt hvK he
    rw [triEdges_perm hN, cone_edges] at he'
    rcases he' with he' | he' | he'
    · have := hvp.nodup
      rw [triEdges_append, List.nodup_append] at this
      exact this.2.2 e he e (hL.sub e he') rfl
    · omega
    · omega

/-- no part of the removed triangles is closed, unless everything is removed -/
theorem noClosedPart_of_irred (hs : Surf n T) (hp : (K ++ R).Perm T) (hK : K ≠ []) :
    NoClosedPart R := by
  intro S h1 h2 h3
  obtain ⟨t, ht⟩ := List.exists_mem_of_ne_nil K hK
  have hT := hs.irred S h1 (fun u hu => hp.mem_iff.mp (List.mem_append_right _ (h2 u hu))) h3 t
    (hp.mem_iff.mp (List.mem_append_left _ ht))
  have := (hs.valid.perm hp).nodup
  rw [triEdges_append, List.nodup_append] at this
  exact this.2.2 (t.a, t.b) (mem_triEdges.mpr ⟨t, ht, edge_ab t⟩) _
    (mem_triEdges.mpr ⟨t, h2 t hT, edge_ab t⟩) rfl

theorem surf_step (hs : Surf n T) (hp : (K ++ R).Perm T) (hR : R ≠ []) (hK : K ≠ [])
    (hL : LoopOf R dR L) (hN : N.Perm (cone n L)) : Surf (n + 1) (K ++ N) := by
  have hvp := hs.valid.perm hp
  have hnd := hvp.nodup
  rw [triEdges_append, List.nodup_append] at hnd
  have hdis : ∀ e, e ∈ triEdges K → e ∉ triEdges R := fun e h1 h2 => hnd.2.2 e h1 e h2 rfl
  have hvK : ValidTris n K := validTris_sub hvp (List.sublist_append_left K R)
  have hvR : ValidTris n R := validTris_sub hvp (List.sublist_append_right K R)
  have hclp : ClosedTris (K ++ R) := hs.closed.perm hp.symm
  have hcl : ∀ e, e ∈ triEdges K ∨ e ∈ triEdges R →
      (e.2, e.1) ∈ triEdges K ∨ (e.2, e.1) ∈ triEdges R := by
    intro e he
    have := hclp e (by rw [triEdges_append]; exact List.mem_append.mpr he)
    rw [triEdges_append] at this; exact List.mem_append.mp this
  have hlt : ∀ x ∈ L, x < n := fun x hx => hL.lt hvR hx
  have hbd : ∀ e, e ∈ loopEdges L ↔ Unmatched R e := by
    rcases hL.bd with h | ⟨S, h1, h2, h3⟩
    · exact h
    · exact absurd h3 (noClosedPart_of_irred hs hp hK S h1 h2)
  have hNe : ∀ e, e ∈ triEdges N ↔
      e ∈ loopEdges L ∨ (e.2 = n ∧ e.1 ∈ L) ∨ (e.1 = n ∧ e.2 ∈ L) := fun e => by
    rw [triEdges_perm hN, cone_edges]
  have hNm : ∀ t, t ∈ N ↔ ∃ e ∈ loopEdges L, (⟨e.1, e.2, n⟩ : Tri) = t := fun t => by
    rw [hN.mem_iff]; unfold cone; rw [List.mem_map]
  have hKR : ∀ t ∈ K, t ∉ R := fun t h1 h2 =>
    hdis (t.a, t.b) (mem_triEdges.mpr ⟨t, h1, edge_ab t⟩) (mem_triEdges.mpr ⟨t, h2, edge_ab t⟩)
  refine ⟨valid_step hs.valid hp hL hN, ?_, ?_⟩
  · intro e he
    rw [triEdges_append, List.mem_append] at he ⊢
    rcases he with he | he
    · rcases hcl e (Or.inl he) with h | h
      · exact Or.inl h
      · right
        rw [hNe]; left
        rw [hbd]
        exact ⟨h, hdis e he⟩
    · rw [hNe] at he
      rcases he with he | ⟨h1, h2⟩ | ⟨h1, h2⟩
      · left
        have hu := (hbd e).mp he
        rcases hcl e (Or.inr hu.1) with h | h
        · exact h
        · exact absurd h hu.2
      · right; rw [hNe]; right; right; exact ⟨h1, h2⟩
      · right; rw [hNe]; right; left; exact ⟨h1, h2⟩
  · intro S hS hsub hclS
    by_cases hc : ∃ t ∈ S, t ∈ N
    · -- the whole cone is in `S`
      obtain ⟨t, htS, htN⟩ := hc
      obtain ⟨⟨u, v⟩, huv, rfl⟩ := (hNm t).mp htN
      have hall : ∀ y ∈ L, ∃ w, (y, w) ∈ loopEdges L ∧ (⟨y, w, n⟩ : Tri) ∈ S := by
        refine loop_induct (x := u) (loopEdges_fst_mem huv) ⟨v, huv, htS⟩ ?_
        rintro ⟨x, y⟩ hxy ⟨w, hw, hwS⟩
        simp only at hw hwS ⊢
        obtain rfl := loopEdges_fst_inj hL.loop.nodup hxy hw
        have h1 : (n, y) ∈ triEdges S := hclS (y, n)
          (mem_triEdges.mpr ⟨_, hwS, by simp [Tri.edges]⟩)
        obtain ⟨t', ht'S, ht'e⟩ := mem_triEdges.mp h1
        rcases List.mem_append.mp (hsub t' ht'S) with ht' | ht'
        · have := triEdges_lt hvK (mem_triEdges.mpr ⟨t', ht', ht'e⟩)
          simp at this
        · obtain ⟨⟨x', y'⟩, hx'y', rfl⟩ := (hNm t').mp ht'
          have := hlt _ (loopEdges_fst_mem hx'y')
          have := hlt _ (loopEdges_snd_mem hx'y')
          have hy := hlt _ (loopEdges_snd_mem hxy)
          simp only [Tri.edges, List.mem_cons, List.not_mem_nil, or_false, Prod.mk.injEq] at *
          have e : y = x' := by omega
          subst e
          exact ⟨y', hx'y', ht'S⟩
      -- put `R` back
      have hcl2 : ClosedTris (S.filter (fun t => decide (t ∈ K)) ++ R) := by
        have hm : ∀ e, e ∈ triEdges (S.filter (fun t => decide (t ∈ K)) ++ R) ↔
            (∃ t, t ∈ S ∧ t ∈ K ∧ e ∈ t.edges) ∨ e ∈ triEdges R := by
          intro e
          rw [triEdges_append, List.mem_append, mem_triEdges]
          simp [and_assoc]
        intro e he
        rw [hm] at he ⊢
        have back : ∀ e', e' ∈ triEdges S → e' ∈ triEdges N → e'.1 < n → e'.2 < n → e' ∈ loopEdges L := by
          intro e' _ h2 h3 h4
          rw [hNe] at h2
          rcases h2 with h2 | h2 | h2
          · exact h2
          · omega
          · omega
        rcases he with ⟨t, h1, h2, h3⟩ | he
        · have hlt' := triEdges_lt hvK (mem_triEdges.mpr ⟨t, h2, h3⟩)
          have hr := hclS e (mem_triEdges.mpr ⟨t, h1, h3⟩)
          obtain ⟨t', h4, h5⟩ := mem_triEdges.mp hr
          rcases List.mem_append.mp (hsub t' h4) with h6 | h6
          · left; exact ⟨t', h4, h6, h5⟩
          · right
            exact hL.sub _ (back _ hr (mem_triEdges.mpr ⟨t', h6, h5⟩) hlt'.2 hlt'.1)
        · by_cases hu : (e.2, e.1) ∈ triEdges R
          · right; exact hu
          · left
            have hle : e ∈ loopEdges L := (hbd e).mpr ⟨he, hu⟩
            obtain ⟨w, hw, hwS⟩ := hall e.1 (loopEdges_fst_mem hle)
            have hee : (e.1, w) = e := by
              obtain ⟨a, b⟩ := e
              rw [loopEdges_fst_inj hL.loop.nodup hle hw]
            have h1 : e ∈ triEdges S :=
              mem_triEdges.mpr ⟨_, hwS, by simp only [Tri.edges]; rw [← hee]; simp⟩
            have hr := hclS e h1
            obtain ⟨t', h4, h5⟩ := mem_triEdges.mp hr
            have hlt' := triEdges_lt hvR he
            rcases List.mem_append.mp (hsub t' h4) with h6 | h6
            · exact ⟨t', h4, h6, h5⟩
            · exfalso
              have := back _ hr (mem_triEdges.mpr ⟨t', h6, h5⟩) hlt'.2 hlt'.1
              exact hL.loop.edge_asymm hle this
      have hfull := hs.irred _ (by simp [hR]) (by
        intro t ht
        apply hp.mem_iff.mp
        rcases List.mem_append.mp ht with ht | ht
        · simp only [List.mem_filter, decide_eq_true_eq] at ht
          exact List.mem_append_left _ ht.2
        · exact List.mem_append_right _ ht) hcl2
      intro t ht
      rcases List.mem_append.mp ht with ht | ht
      · have := hfull t (hp.mem_iff.mp (List.mem_append_left _ ht))
        rcases List.mem_append.mp this with h | h
        · exact (List.mem_filter.mp h).1
        · exact absurd h (hKR t ht)
      · obtain ⟨⟨x, y⟩, hxy, rfl⟩ := (hNm t).mp ht
        obtain ⟨w, hw, hwS⟩ := hall x (loopEdges_fst_mem hxy)
        have := loopEdges_fst_inj hL.loop.nodup hxy hw
        simp only at this ⊢
        rw [this]; exact hwS
    · -- `S` is in `K`
      exfalso
      have hSK : ∀ t ∈ S, t ∈ K := by
        intro t ht
        rcases List.mem_append.mp (hsub t ht) with h | h
        · exact h
        · exact absurd ⟨t, ht, h⟩ hc
      obtain ⟨t, ht⟩ := List.exists_mem_of_ne_nil R hR
      have := hs.irred S hS (fun u hu => hp.mem_iff.mp (List.mem_append_left _ (hSK u hu))) hclS t
        (hp.mem_iff.mp (List.mem_append_right _ ht))
      exact hKR t (hSK t this) ht

end step

end Votess
