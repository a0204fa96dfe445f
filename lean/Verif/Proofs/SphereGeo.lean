import Verif.Proofs.SphereStuck
import Verif.Proofs.CellRow
import Mathlib.Tactic.FieldSimp
/-!
In exact arithmetic the removed vertices are connected, the kept vertices are connected, and the
surface of the cell stays simply connected; so the boundary computation never gets stuck.
-/
set_option linter.unusedSectionVars false
namespace Votess

variable {K : Type} [Field K] [LinearOrder K] [IsStrictOrderedRing K] [FloorRing K]

/-- a vertex none of whose neighbours is better is best -/
theorem lp_local {h : Nat → Plane K} {S : List Tri} (hc : ClosedTris S)
    (hor : ∀ t ∈ S, 0 < tdet h t)
    (hst : ∀ t ∈ S, ∀ u ∈ S, ∀ j, u.has j → ¬ t.has j → 0 < (h j).eval (tv h t)) (g : Plane K)
    {t : Tri} (ht : t ∈ S)
    (hmax : ∀ u ∈ S, ∀ a b, (a, b) ∈ t.edges → (b, a) ∈ u.edges → g.eval (tv h u) ≤ g.eval (tv h t))
    (x : Pt K) (hx : ∀ j, t.has j → 0 ≤ (h j).eval x) : g.eval x ≤ g.eval (tv h t) := by
  have hD := hor t ht
  have coef : ∀ a b c, RotOf t a b c → odet g (h b) (h c) ≤ 0 := by
    intro a b c hr
    obtain ⟨u, hu, d, hd, hna⟩ := neighbour hc hor ht hr
    have hpos := hst u hu t ht a ((hr.has a).mpr (by simp)) hna
    have hDu := ne_of_gt (hor u hu)
    have hb := tv_on hDu ((hd.has b).mpr (by simp))
    have hcc := tv_on hDu ((hd.has c).mpr (by simp))
    have hdec := tv_decomp (ne_of_gt hD) hr g (tv h u)
    rw [hb, hcc, mul_zero, mul_zero, add_zero, add_zero] at hdec
    have hle := hmax u hu b c hr.rot.edge hd.edge
    by_contra hneg
    rw [not_le] at hneg
    have h1 := mul_pos hneg hpos
    have h2 := mul_le_mul_of_nonneg_right hle (le_of_lt hD)
    linarith
  have r1 : RotOf t t.a t.b t.c := Or.inl ⟨rfl, rfl, rfl⟩
  have c1 := coef _ _ _ r1
  have c2 := coef _ _ _ r1.rot
  have c3 := coef _ _ _ r1.rot.rot
  have x1 := hx t.a (by simp [Tri.has])
  have x2 := hx t.b (by simp [Tri.has])
  have x3 := hx t.c (by simp [Tri.has])
  have hdec := tv_decomp (ne_of_gt hD) r1 g x
  have m1 := mul_nonneg (neg_nonneg.mpr c1) x1
  have m2 := mul_nonneg (neg_nonneg.mpr c2) x2
  have m3 := mul_nonneg (neg_nonneg.mpr c3) x3
  have hfin : g.eval x * tdet h t ≤ g.eval (tv h t) * tdet h t := by linarith
  exact le_of_mul_le_mul_right hfin hD

/-- a triple using all planes of another triple is that triple -/
theorem tri_eq_of_has {n : Nat} {h : Nat → Plane K} {T : List Tri} (hv : ValidTris n T)
    (hor : ∀ t ∈ T, 0 < tdet h t) {s t : Tri} (hs : s ∈ T) (ht : t ∈ T)
    (ha : t.has s.a) (hb : t.has s.b) (hc : t.has s.c) : t = s := by
  have hn := hv.tri s hs
  have r : RotOf t s.a s.b s.c ∨ RotOf t s.b s.a s.c := by
    unfold Tri.has at ha hb hc
    unfold RotOf
    rcases ha with ha | ha | ha <;> rcases hb with hb | hb | hb <;> rcases hc with hc | hc | hc <;>
      simp only [ha, hb, hc] at hn ⊢ <;> simp_all
  rcases r with r | r
  · exact hv.tri_unique ht hs r.edge (edge_ab s)
  · exfalso
    have h1 := hor s hs
    have h2 := hor t ht
    rw [← r.det] at h2
    have : odet (h s.b) (h s.a) (h s.c) = - tdet h s := by simp only [odet, tdet, det3]; ring
    rw [this] at h2; linarith

/-- the vertices on one side of a plane are connected (non-degenerate position) -/
theorem conn_strict {n : Nat} {h : Nat → Plane K} {T S : List Tri} (hv : ValidTris n T) (hc : ClosedTris T)
    (hor : ∀ t ∈ T, 0 < tdet h t)
    (hst : ∀ t ∈ T, ∀ j, j < n → ¬ t.has j → 0 < (h j).eval (tv h t)) (g : Plane K)
    (hS : ∀ t, t ∈ S ↔ t ∈ T ∧ 0 < g.eval (tv h t)) : Conn S := by
  classical
  have hlt := hv.has_lt
  intro X hX t0 ht0 hXt0 s hs
  by_contra hXs
  obtain ⟨hsT, hgs⟩ := (hS s).mp hs
  have hge : ∀ t ∈ T, ∀ j, j < n → 0 ≤ (h j).eval (tv h t) := by
    intro t ht j hj
    by_cases hh : t.has j
    · rw [tv_on (ne_of_gt (hor t ht)) hh]
    · exact le_of_lt (hst t ht j hj hh)
  have na := hlt s hsT s.a (by simp [Tri.has])
  have nb := hlt s hsT s.b (by simp [Tri.has])
  have nc := hlt s hsT s.c (by simp [Tri.has])
  -- the sum of the planes of the target
  let ℓ : Plane K := ⟨(h s.a).a + (h s.b).a + (h s.c).a, (h s.a).b + (h s.b).b + (h s.c).b,
    (h s.a).c + (h s.b).c + (h s.c).c, (h s.a).d + (h s.b).d + (h s.c).d⟩
  have hℓ : ∀ x, ℓ.eval x = (h s.a).eval x + (h s.b).eval x + (h s.c).eval x := by
    intro x; simp only [ℓ, Plane.eval]; ring
  have hℓs : ℓ.eval (tv h s) = 0 := by
    have hd := ne_of_gt (hor s hsT)
    rw [hℓ, tv_on hd (by simp [Tri.has]), tv_on hd (by simp [Tri.has]), tv_on hd (by simp [Tri.has])]
    ring
  have hℓ0 : ∀ t ∈ T, 0 ≤ ℓ.eval (tv h t) := by
    intro t ht
    have := hge t ht _ na; have := hge t ht _ nb; have := hge t ht _ nc
    rw [hℓ]; linarith
  have hℓpos : ∀ t ∈ T, t ≠ s → 0 < ℓ.eval (tv h t) := by
    intro t ht hne
    have h1 := hge t ht _ na; have h2 := hge t ht _ nb; have h3 := hge t ht _ nc
    rw [hℓ]
    by_cases ha : t.has s.a
    · by_cases hb : t.has s.b
      · by_cases hcc : t.has s.c
        · exact absurd (tri_eq_of_has hv hor hsT ht ha hb hcc) hne
        · have := hst t ht _ nc hcc; linarith
      · have := hst t ht _ nb hb; linarith
    · have := hst t ht _ na ha; linarith
  -- the best triple reached
  obtain ⟨t, htZ, hbest⟩ := list_max (fun t => g.eval (tv h t) / ℓ.eval (tv h t))
    (S.filter fun t => decide (X t)) (by
      apply List.ne_nil_of_mem (a := t0)
      rw [List.mem_filter, decide_eq_true_eq]; exact ⟨ht0, hXt0⟩)
  rw [List.mem_filter, decide_eq_true_eq] at htZ
  obtain ⟨htS, hXt⟩ := htZ
  obtain ⟨htT, hgt⟩ := (hS t).mp htS
  have hts : t ≠ s := by rintro rfl; exact hXs hXt
  have hlp := hℓpos t htT hts
  let G : Plane K := ⟨g.a * ℓ.eval (tv h t) - ℓ.a * g.eval (tv h t), g.b * ℓ.eval (tv h t) - ℓ.b * g.eval (tv h t),
    g.c * ℓ.eval (tv h t) - ℓ.c * g.eval (tv h t), g.d * ℓ.eval (tv h t) - ℓ.d * g.eval (tv h t)⟩
  have hG : ∀ x, G.eval x = g.eval x * ℓ.eval (tv h t) - ℓ.eval x * g.eval (tv h t) := by
    intro x; simp only [G]; generalize ℓ.eval (tv h t) = A; generalize g.eval (tv h t) = B
    simp only [Plane.eval]; ring
  have hcon := lp_local hc hor (fun t ht u hu j hj => hst t ht j (hlt u hu j hj)) G htT (by
    intro u hu a b hta hub
    by_contra hgt'
    rw [not_le, hG, hG, mul_comm (g.eval (tv h t)), sub_self] at hgt'
    have hu0 := hℓ0 u hu
    have hgu : 0 < g.eval (tv h u) := by
      have h1 := mul_nonneg hu0 (le_of_lt hgt)
      have h2 : 0 < g.eval (tv h u) * ℓ.eval (tv h t) := by linarith
      exact (mul_pos_iff_of_pos_right hlp).mp h2
    have huS := (hS u).mpr ⟨hu, hgu⟩
    have hXu := hX t htS u huS a b hta hub hXt
    have hus : u ≠ s := by rintro rfl; exact hXs hXu
    have hul := hℓpos u hu hus
    have := hbest u (by rw [List.mem_filter, decide_eq_true_eq]; exact ⟨huS, hXu⟩)
    rw [div_le_div_iff₀ hul hlp] at this
    linarith) (tv h s) (fun j hj => hge s hsT j (hlt t htT j hj))
  rw [hG, hG, hℓs, mul_comm (g.eval (tv h t)), sub_self] at hcon
  have := mul_pos hgs hlp
  linarith

/-- the kept and the removed vertices are connected -/
theorem Poly.conn {n : Nat} {h : Nat → Plane K} {T A R : List Tri} (hp : Poly n h T)
    (hperm : (A ++ R).Perm T) (g : Plane K) (hA : ∀ t ∈ A, 0 ≤ g.eval (tv h t))
    (hR : ∀ t ∈ R, g.eval (tv h t) < 0) : Conn A ∧ Conn R := by
  have hRT : ∀ t ∈ R, t ∈ T := fun t ht => hperm.mem_iff.mp (List.mem_append_right _ ht)
  have hAT : ∀ t ∈ A, t ∈ T := fun t ht => hperm.mem_iff.mp (List.mem_append_left _ ht)
  obtain ⟨gap, hg, hgap⟩ := list_gap (fun t => - g.eval (tv h t)) R
    (fun t ht => by have := hR t ht; linarith)
  obtain ⟨M, hM, hsh⟩ := tv_shift_list hp.orient g
  obtain ⟨δ, hδ, hδM, -⟩ := small_delta hM (show 0 < gap / 3 by linarith)
  obtain ⟨e, he, hst⟩ := hp.gen δ hδ
  have hor : ∀ t ∈ T, 0 < tdet (pert h e) t := fun t ht => by rw [tdet_pert]; exact hp.orient t ht
  have hAn : ∀ t ∈ A, 0 < g.eval (tv (pert h e) t) + gap / 3 := by
    intro t ht
    have h1 := (abs_le.mp (hsh t (hAT t ht) e δ he)).1
    have h2 := hA t ht
    linarith
  have hRn : ∀ t ∈ R, g.eval (tv (pert h e) t) + gap / 3 < 0 := by
    intro t ht
    have h1 := (abs_le.mp (hsh t (hRT t ht) e δ he)).2
    have h2 := hgap t ht
    linarith
  have e1 : ∀ x : Pt K, (⟨g.a, g.b, g.c, g.d + gap / 3⟩ : Plane K).eval x = g.eval x + gap / 3 := by
    intro x; simp only [Plane.eval]; ring
  have e2 : ∀ x : Pt K, (⟨-g.a, -g.b, -g.c, -(g.d + gap / 3)⟩ : Plane K).eval x = -(g.eval x + gap / 3) := by
    intro x; simp only [Plane.eval]; ring
  constructor
  · refine conn_strict hp.valid hp.closed hor hst ⟨g.a, g.b, g.c, g.d + gap / 3⟩ (fun t => ?_)
    rw [e1]
    constructor
    · exact fun ht => ⟨hAT t ht, hAn t ht⟩
    · rintro ⟨ht, hpos⟩
      rcases List.mem_append.mp (hperm.mem_iff.mpr ht) with h | h
      · exact h
      · have := hRn t h; linarith
  · refine conn_strict hp.valid hp.closed hor hst ⟨-g.a, -g.b, -g.c, -(g.d + gap / 3)⟩ (fun t => ?_)
    rw [e2]
    constructor
    · exact fun ht => ⟨hRT t ht, by have := hRn t ht; linarith⟩
    · rintro ⟨ht, hpos⟩
      rcases List.mem_append.mp (hperm.mem_iff.mpr ht) with h | h
      · have := hAn t h; linarith
      · exact h

/-! ### the initial box -/

/-- triangles of the box on one side of an edge cycle, from seven edges of the cycle -/
def boxPot (z02 z04 z05 z24 z25 z34 z35 : ZMod 2) (t : Tri) : ZMod 2 :=
  if t.a = 2 ∧ t.b = 5 then 0 else if t.a = 5 ∧ t.b = 3 then z05 else if t.a = 1 then z25 else
    if t.a = 5 then z05 + z35 else if t.b = 2 then z02 else if t.b = 0 then z02 + z04 else
    if t.b = 4 then z02 + z24 else z02 + z04 + z34

/-- all edges of the cycle from seven of them -/
def boxEdge (z02 z04 z05 z24 z25 z34 z35 : ZMod 2) (a b : Nat) : ZMod 2 :=
  match a, b with
  | 0, 2 => z02 | 2, 0 => z02 | 0, 3 => z02 + z04 + z05 | 3, 0 => z02 + z04 + z05
  | 0, 4 => z04 | 4, 0 => z04 | 0, 5 => z05 | 5, 0 => z05
  | 1, 2 => z02 + z24 + z25 | 2, 1 => z02 + z24 + z25
  | 1, 3 => z02 + z04 + z05 + z34 + z35 | 3, 1 => z02 + z04 + z05 + z34 + z35
  | 1, 4 => z04 + z24 + z34 | 4, 1 => z04 + z24 + z34
  | 1, 5 => z05 + z25 + z35 | 5, 1 => z05 + z25 + z35
  | 2, 4 => z24 | 4, 2 => z24 | 2, 5 => z25 | 5, 2 => z25
  | 3, 4 => z34 | 4, 3 => z34 | 3, 5 => z35 | 5, 3 => z35
  | _, _ => 0

theorem boxPot_edge : ∀ t ∈ tInit, ∀ u ∈ tInit, ∀ e ∈ t.edges, (e.2, e.1) ∈ u.edges →
    ∀ z02 z04 z05 z24 z25 z34 z35 : ZMod 2,
      boxPot z02 z04 z05 z24 z25 z34 z35 t + boxPot z02 z04 z05 z24 z25 z34 z35 u
        = boxEdge z02 z04 z05 z24 z25 z34 z35 e.1 e.2 := by
  decide +kernel

theorem tInit_simple : Simple 6 tInit := by
  intro z hsym hsup hev
  have z0 : ∀ a b, (a, b) ∉ triEdges tInit → z a b = 0 := fun a b h => by
    by_contra hne; exact h (hsup a b hne)
  have d : z 0 0 = 0 ∧ z 1 1 = 0 ∧ z 2 2 = 0 ∧ z 3 3 = 0 ∧ z 4 4 = 0 ∧ z 5 5 = 0 ∧ z 0 1 = 0 ∧ z 1 0 = 0
      ∧ z 2 3 = 0 ∧ z 3 2 = 0 ∧ z 4 5 = 0 ∧ z 5 4 = 0 := by
    refine ⟨?_, ?_, ?_, ?_, ?_, ?_, ?_, ?_, ?_, ?_, ?_, ?_⟩ <;> exact z0 _ _ (by decide)
  obtain ⟨d0, d1, d2, d3, d4, d5, d01, d10, d23, d32, d45, d54⟩ := d
  have v0 := hev 0; have v2 := hev 2; have v3 := hev 3; have v4 := hev 4; have v5 := hev 5
  simp only [Finset.sum_range_succ, Finset.sum_range_zero, d0, d2, d3, d4, d5, d01, d23, d32, d45, d54,
    zero_add, add_zero] at v0 v2 v3 v4 v5
  rw [hsym 2 0, hsym 2 1] at v2
  rw [hsym 3 0, hsym 3 1] at v3
  rw [hsym 4 0, hsym 4 1, hsym 4 2, hsym 4 3] at v4
  rw [hsym 5 0, hsym 5 1, hsym 5 2, hsym 5 3] at v5
  have hE : ∀ a b, (a, b) ∈ triEdges tInit →
      boxEdge (z 0 2) (z 0 4) (z 0 5) (z 2 4) (z 2 5) (z 3 4) (z 3 5) a b = z a b := by
    have s20 := hsym 2 0; have s30 := hsym 3 0; have s40 := hsym 4 0; have s50 := hsym 5 0
    have s21 := hsym 2 1; have s31 := hsym 3 1; have s41 := hsym 4 1; have s51 := hsym 5 1
    have s42 := hsym 4 2; have s52 := hsym 5 2; have s43 := hsym 4 3; have s53 := hsym 5 3
    have e3 : z 0 2 + z 0 4 + z 0 5 = z 0 3 := by linear_combination v0 - z2_self (z 0 3)
    have e12 : z 0 2 + z 2 4 + z 2 5 = z 1 2 := by linear_combination v2 - z2_self (z 1 2)
    have e13 : z 0 3 + z 3 4 + z 3 5 = z 1 3 := by linear_combination v3 - z2_self (z 1 3)
    have e14 : z 0 4 + z 2 4 + z 3 4 = z 1 4 := by linear_combination v4 - z2_self (z 1 4)
    have e15 : z 0 5 + z 2 5 + z 3 5 = z 1 5 := by linear_combination v5 - z2_self (z 1 5)
    intro a b hab
    simp only [triEdges, tInit, Tri.edges, List.flatMap_cons, List.flatMap_nil, List.cons_append, List.nil_append,
      List.mem_cons, List.not_mem_nil, or_false, Prod.mk.injEq] at hab
    rcases hab with h | h | h | h | h | h | h | h | h | h | h | h | h | h | h | h | h | h | h | h | h | h | h | h <;>
      (obtain ⟨rfl, rfl⟩ := h; simp only [boxEdge, s20, s30, s40, s50, s21, s31, s41, s51, s42, s52, s43, s53, e3,
        e12, e13, e14, e15])
  refine ⟨boxPot (z 0 2) (z 0 4) (z 0 5) (z 2 4) (z 2 5) (z 3 4) (z 3 5), ?_⟩
  intro t ht u hu a b h1 h2
  rw [boxPot_edge t ht u hu (a, b) h1 h2]
  exact hE a b (mem_triEdges.mpr ⟨t, ht, h1⟩)


/-! ### the cell computation -/

/-- the vertex triples form a triangulated sphere -/
structure SphereInv (s : CCState K) : Prop where
  surf : Surf s.psize (s.T.take s.tsize)
  simple : Simple s.psize (s.T.take s.tsize)

theorem ccStep_sphere {a : CCArgs} {xyz : List (Pt K)} {knn : List Int} {p : Pt K}
    (hc : Ctx a xyz knn) (hpb : InUnitBox p) {nb : Nat} {s : CCState K} (hnb : nb < a.k) (hi : CCInv a s)
    (hg : GeoInv xyz knn p nb s) (hsph : SphereInv s) {o : CCStep K}
    (hstep : ccStep a xyz knn p nb s = .ok o) :
    (∀ s', o = .next s' ∨ o = .brk s' → SphereInv s') ∧
    (∀ s', o = .ret s' → s'.state.get .error_infinite_boundary = s.state.get .error_infinite_boundary) := by
  obtain ⟨t0, ht0, hcut0⟩ := (ccStep_geo hc hpb hnb hi hg hstep).1
  have hsurf : ∀ s', o = .next s' ∨ o = .brk s' → Surf s'.psize (s'.T.take s'.tsize) := by
    intro s' ho
    refine ccStep_surf hc hnb hi hsph.surf ⟨t0, ht0, hcut0⟩ (p := p) ?_
    rw [hstep]
    rcases ho with rfl | rfl
    · exact Or.inl rfl
    · exact Or.inr rfl
  obtain ⟨qi, q, hq, hq'⟩ := hc.ids nb hnb
  obtain ⟨A, R, sr, vs, o', h1, h2, h3, h4, h5, h6, h7⟩ := ccStep_spec (p := p) hc.pm hi hnb hq hq'
  rw [hstep] at h1; cases h1
  rw [candPt_eq hq hq'] at hcut0
  have hA : A ≠ [] := by
    rintro rfl
    rw [← h2.mem_iff, List.nil_append] at ht0
    rw [h4 t0 ht0] at hcut0; cases hcut0
  obtain ⟨cA, cR⟩ := hg.poly.conn h2 (bisect q p).flip
    (fun t ht => by
      have := h3 t ht
      rw [← Bool.not_eq_true, isCut_iff, not_lt] at this
      rw [Plane.flip_eval]; linarith)
    (fun t ht => by
      have := h4 t ht
      rw [isCut_iff] at this
      rw [Plane.flip_eval]; linarith)
  have fin : ∀ s1 : CCState K, Simple s1.psize (s1.T.take s1.tsize) →
      (∀ s', ccFinish p q sr s1 = .next s' ∨ ccFinish p q sr s1 = .brk s' →
        Simple s'.psize (s'.T.take s'.tsize)) ∧ ∀ s', ccFinish p q sr s1 ≠ .ret s' := by
    intro s1 hs1
    rw [ccFinish_eq]
    split
    · refine ⟨fun s' h => ?_, fun s' h => by cases h⟩
      rcases h with h | h <;> cases h
      exact hs1
    · refine ⟨fun s' h => ?_, fun s' h => by cases h⟩
      rcases h with h | h <;> cases h
      exact hs1
  have hbd : ∀ {M : List Tri} {dR L : List Nat}, (∀ t ∈ M, t ∈ R) → LoopOf M dR L →
      ∀ e, e ∈ loopEdges L ↔ Unmatched M e := by
    intro M dR L hM hL
    rcases hL.bd with h | ⟨S, g1, g2, g3⟩
    · exact h
    · exact absurd g3 (noClosedPart_of_irred hsph.surf h2 hA S g1 (fun t ht => hM t (g2 t ht)))
  cases h7 with
  | keep T hR hT hK =>
    subst hR
    rw [List.append_nil] at h2
    obtain ⟨f1, f2⟩ := fin { s with T := T, state := s.state.setTrue .error_nonvalid_neighbor }
      (by simp only; rw [hK]; exact hsph.simple.perm h2.symm)
    exact ⟨fun s' ho => ⟨hsurf s' ho, f1 s' ho⟩, fun s' ho => absurd ho (f2 s')⟩
  | poverflow T ts hR hp hT =>
    refine ⟨fun s' ho => (by rcases ho with h | h <;> cases h), fun s' ho => ?_⟩
    cases ho
    simp [State.get_setTrue]
  | infinite T ts dR M Q L hR hp hT hd hs =>
    exfalso
    have hMR : ∀ t ∈ M, t ∈ R := fun t ht => hs.perm.mem_iff.mp (List.mem_append_left _ ht)
    exact no_stuck hsph.surf hsph.simple hs.mne hs.loop.loop.nodup (hbd hMR hs.loop) Q.length A Q
      (Nat.le_refl _) ((hs.perm.append_left A).trans h2) hA hs.qne (cR.perm hs.perm.symm) cA hs.rej
  | toverflow T ts dR L hR hp hT hd hL ho' =>
    refine ⟨fun s' ho => (by rcases ho with h | h <;> cases h), fun s' ho => ?_⟩
    cases ho
    simp [State.get_setTrue]
  | clip T dR L N hR hp hT hd hL ho' hN hT' =>
    obtain ⟨f1, f2⟩ := fin
      { s with P := s.P.set s.psize (bisect q p), dknn := s.dknn.set nb (s.psize : Int),
               psize := s.psize + 1, T := T, dR := dR, tsize := A.length + L.length }
      (by
        simp only; rw [hT']
        exact simple_step hsph.surf hsph.simple h2 hR cR hL.loop.nodup (hbd (fun _ h => h) hL) hN)
    exact ⟨fun s' ho => ⟨hsurf s' ho, f1 s' ho⟩, fun s' ho => absurd ho (f2 s')⟩

theorem CellReach.sphere {a : CCArgs} {xyz : List (Pt K)} {knn : List Int} {p : Pt K} {s0 : CCState K}
    {dk0 : List Int} (hc : Ctx a xyz knn) (hpb : InUnitBox p) (h0 : CCInv a s0)
    (h1 : Hist xyz knn p dk0 0 s0 []) (h6 : s0.psize = 6) (hT : s0.T.take s0.tsize = tInit)
    {nb : Nat} {b : Bool} {s : CCState K} (h2 : Clear s0.state)
    (hr : CellReach a xyz knn p s0 nb b s) : SphereInv s := by
  induction hr with
  | init => exact ⟨by rw [h6, hT]; exact tInit_surf, by rw [h6, hT]; exact tInit_simple⟩
  | next hr hnb hs ih =>
    have hf := hr.full hc hpb h0 h1 h6 hT h2
    exact (ccStep_sphere hc hpb hnb hf.inv hf.geo ih hs).1 _ (Or.inl rfl)
  | brk hr hnb hs ih =>
    have hf := hr.full hc hpb h0 h1 h6 hT h2
    exact (ccStep_sphere hc hpb hnb hf.inv hf.geo ih hs).1 _ (Or.inr rfl)

/-- the flag for an infinite boundary is never raised -/
theorem ccCompute_no_inf {a : CCArgs} {xyz : List (Pt K)} {index : Int} {st : State} (hst : Clear st)
    {P : List (Plane K)} {T : List Tri} {dR : List Nat} {knn dknn : List Int}
    (h : CCPre a xyz index P T dR knn dknn) {p : Pt K} (hp : rdI xyz index = .ok p) (hpb : InUnitBox p)
    {o : CCOut K} (ho : ccCompute a xyz index st P T dR knn dknn = .ok o) :
    o.s.state.get .error_infinite_boundary = false := by
  obtain ⟨s0, i1, i2, i3, i4, i5, i6⟩ := ccInit_spec st xyz knn p h.plen h.tlen h.dlen h.klen h.pm6 h.tm8
  have hcl : Clear s0.state := by rw [i4]; exact hst
  obtain ⟨b, s, l1, l2⟩ := ccLoop_induct (a := a) (xyz := xyz) (knn := knn) (p := p)
    (fun nb s => CellReach a xyz knn p s0 nb false s)
    (fun nb s => CellReach a xyz knn p s0 (nb + 1) true s ∧
      ∀ f, s.state.get f = decide (f = .security_radius_reached))
    (fun nb s => s.state.get .error_infinite_boundary = false)
    (by
      intro nb s hnb hr
      obtain ⟨j1, ⟨js, j2⟩, j3, -⟩ := hr.inv h.ctx i2 i3 hcl
      obtain ⟨o, o1, -, o3, o4⟩ := ccStep_inv h.ctx hnb j1 j2 (j3 rfl)
      refine ⟨o, o1, ?_, ?_, fun s' hs => ?_⟩
      · rintro s' rfl; exact .next hr hnb o1
      · rintro s' rfl; exact ⟨.brk hr hnb o1, (o3 s' rfl).2.2⟩
      · have hf := hr.full h.ctx hpb i2 i3 i5 i6 hcl
        have hsph := hr.sphere h.ctx hpb i2 i3 i5 i6 hcl
        rw [(ccStep_sphere h.ctx hpb hnb hf.inv hf.geo hsph o1).2 s' hs]
        exact j3 rfl _)
    a.k s0 (Nat.le_refl _) (by simpa using .init)
  have run := fun hb => ccCompute_run st h hp i1 l1 hb
  rcases l2 with ⟨rfl, j1⟩ | ⟨rfl, nb, hnb, j1, j2⟩ | ⟨rfl, nb, hnb, j1⟩
  · obtain ⟨k1, k2, k3, -⟩ := j1.inv h.ctx i2 i3 hcl
    have := run (fun _ => k1)
    rw [ho] at this; cases this
    exact k3 rfl _
  · obtain ⟨k1, k2, k3, -⟩ := j1.inv h.ctx i2 i3 hcl
    have := run (fun _ => k1)
    rw [ho] at this; cases this
    simp only [j2]; rfl
  · have := run (fun h => by cases h)
    rw [ho] at this; cases this
    exact j1

end Votess
