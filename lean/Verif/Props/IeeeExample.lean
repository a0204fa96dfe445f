import Verif.Props.IeeeTess
import Verif.Proofs.CornerFar
/-!
# C67 — points that meet the hypotheses

A test for margins, with a proof that it is right, and a set of points that passes it.
-/
namespace Votess

/-- the common point of three planes -/
def meet (f g h : Plane ℚ) : Pt ℚ :=
  ⟨-(f.d * (g.b * h.c - g.c * h.b) - f.b * (g.d * h.c - g.c * h.d) + f.c * (g.d * h.b - g.b * h.d)) / det3 f g h,
   -(f.a * (g.d * h.c - g.c * h.d) - f.d * (g.a * h.c - g.c * h.a) + f.c * (g.a * h.d - g.d * h.a)) / det3 f g h,
   -(f.a * (g.b * h.d - g.d * h.b) - f.b * (g.a * h.d - g.d * h.a) + f.d * (g.a * h.b - g.b * h.a)) / det3 f g h⟩

theorem meet_unique {f g h : Plane ℚ} (hD : det3 f g h ≠ 0) {v : Pt ℚ} (hf : f.eval v = 0)
    (hg : g.eval v = 0) (hh : h.eval v = 0) : meet f g h = v := by
  cases v with | mk x y z => ?_
  simp only [Plane.eval] at hf hg hh
  unfold meet
  rw [Pt.mk.injEq, div_eq_iff hD, div_eq_iff hD, div_eq_iff hD]
  simp only [det3]
  refine ⟨?_, ?_, ?_⟩
  · linear_combination -(g.b * h.c - g.c * h.b) * hf + (f.b * h.c - f.c * h.b) * hg - (f.b * g.c - f.c * g.b) * hh
  · linear_combination (g.a * h.c - g.c * h.a) * hf - (f.a * h.c - f.c * h.a) * hg + (f.a * g.c - f.c * g.a) * hh
  · linear_combination -(g.a * h.b - g.b * h.a) * hf + (f.a * h.b - f.b * h.a) * hg - (f.a * g.b - f.b * g.a) * hh

theorem meet_eval {f g h : Plane ℚ} (hD : det3 f g h ≠ 0) :
    f.eval (meet f g h) = 0 ∧ g.eval (meet f g h) = 0 ∧ h.eval (meet f g h) = 0 := by
  unfold meet Plane.eval
  simp only
  refine ⟨?_, ?_, ?_⟩ <;> field_simp <;> simp only [det3] <;> ring

def inCellB (p : Pt ℚ) (sites : List (Pt ℚ)) (x : Pt ℚ) : Bool :=
  decide (0 ≤ x.x) && decide (x.x ≤ 1) && decide (0 ≤ x.y) && decide (x.y ≤ 1) && decide (0 ≤ x.z) &&
    decide (x.z ≤ 1) && sites.all fun q => decide (sqDist x p ≤ sqDist x q)

theorem inCellB_iff (p : Pt ℚ) (sites : List (Pt ℚ)) (x : Pt ℚ) :
    inCellB p sites x = true ↔ VoronoiCell p sites x := by
  unfold inCellB VoronoiCell InUnitBox
  simp only [Bool.and_eq_true, decide_eq_true_eq, List.all_eq_true]
  tauto

/-- all corners with their determinants -/
def cornerList (p : Pt ℚ) (sites : List (Pt ℚ)) : List (Pt ℚ × ℚ) :=
  (boundaryPlanes p sites).flatMap fun f => (boundaryPlanes p sites).flatMap fun g =>
    (boundaryPlanes p sites).filterMap fun h =>
      if det3 f g h = 0 then none
      else if inCellB p sites (meet f g h) then some (meet f g h, det3 f g h) else none

theorem mem_cornerList (p : Pt ℚ) (sites : List (Pt ℚ)) (v : Pt ℚ) (D : ℚ) :
    (v, D) ∈ cornerList p sites ↔ Corner p sites v D := by
  unfold cornerList Corner
  simp only [List.mem_flatMap, List.mem_filterMap]
  constructor
  · rintro ⟨f, hf, g, hg, h, hh, e⟩
    split at e
    · cases e
    · rename_i hD
      split at e
      · rename_i hc
        injection e with e
        injection e with e1 e2
        subst e1 e2
        exact ⟨(inCellB_iff _ _ _).mp hc, hD, f, hf, g, hg, h, hh, rfl, meet_eval hD⟩
      · cases e
  · rintro ⟨hc, hD, f, hf, g, hg, h, hh, rfl, e1, e2, e3⟩
    refine ⟨f, hf, g, hg, h, hh, ?_⟩
    rw [if_neg hD, meet_unique hD e1 e2 e3, if_pos ((inCellB_iff _ _ _).mpr hc)]

/-- the test for one other point, given the corners -/
def roomB (m : ℚ) (p q : Pt ℚ) (cs : List (Pt ℚ × ℚ)) : Bool :=
  (cs.all fun c => decide (m / 2 ^ 12 ≤ |c.2|) &&
    decide (m / 2 ^ 13 < |sqDist c.1 p - sqDist c.1 q| * |c.2|)) &&
  ((cs.all fun c => decide (m / 2 ^ 11 < (sqDist q p - 4 * sqDist c.1 p) * |c.2|)) ||
    cs.any fun c => cs.all fun c' => decide (sqDist c'.1 p < sqDist c.1 p) ||
      decide (m / 2 ^ 11 < (4 * sqDist c'.1 p - sqDist q p) * |c'.2|))

/-- the test for a point beyond the cell -/
def beyondB (L : List (Pt ℚ)) (p q : Pt ℚ) : Bool :=
  (cornerList p (closerTo L p q)).all fun c => decide (4 * sqDist c.1 p < sqDist q p)

theorem beyondB_iff (L : List (Pt ℚ)) (p q : Pt ℚ) : beyondB L p q = true ↔ Beyond L p q := by
  unfold beyondB
  rw [beyond_iff, List.all_eq_true]
  constructor
  · intro h v D hv
    exact of_decide_eq_true (h (v, D) ((mem_cornerList _ _ _ _).mpr hv))
  · rintro h ⟨v, D⟩ hv
    exact decide_eq_true (h v D ((mem_cornerList _ _ _ _).mp hv))

/-- the test for a point that matters -/
def mattersB (L : List (Pt ℚ)) (p q : Pt ℚ) : Bool := (closerTo L p q).all fun c => !beyondB L p c

theorem mattersB_iff (L : List (Pt ℚ)) (p q : Pt ℚ) : mattersB L p q = true ↔ Matters L p q := by
  unfold mattersB Matters
  rw [List.all_eq_true]
  refine forall₂_congr fun c _ => ?_
  rw [← beyondB_iff, Bool.not_eq_true', Bool.not_eq_true]

/-- the test for one point; `ms` are the other points and whether they matter -/
def marginB' (m : ℚ) (L : List (Pt ℚ)) (p : Pt ℚ) (ms : List (Pt ℚ × Bool)) : Bool :=
  decide (ms.Pairwise fun a b => (a.2 || b.2) = true → m / 2 ^ 17 < |sqDist a.1 p - sqDist b.1 p|) &&
  ms.all fun a => !a.2 || roomB m p a.1 (cornerList p (closerTo L p a.1))

def marginB (m : ℚ) (L : List (Pt ℚ)) (i : Nat) (p : Pt ℚ) : Bool :=
  marginB' m L p ((L.eraseIdx i).map fun q => (q, mattersB L p q))

theorem marginB_sound {m : ℚ} {L : List (Pt ℚ)} {i : Nat} {p : Pt ℚ} (h : marginB m L i p = true) :
    WideMarginsBy m L i p := by
  unfold marginB marginB' at h
  rw [Bool.and_eq_true, decide_eq_true_eq, List.all_eq_true, List.pairwise_map] at h
  have h2 : ∀ q ∈ L.eraseIdx i, Matters L p q → roomB m p q (cornerList p (closerTo L p q)) = true := by
    intro q hq hmat
    have := h.2 (q, mattersB L p q) (List.mem_map.mpr ⟨q, hq, rfl⟩)
    simpa only [(mattersB_iff L p q).mpr hmat, Bool.not_true, Bool.false_or] using this
  refine ⟨h.1.imp fun {q q'} hs hmat => hs (by rw [Bool.or_eq_true, mattersB_iff, mattersB_iff]; exact hmat), fun q hq hmat v D hv => ?_, fun q hq hmat => ?_⟩
  · have := h2 q hq hmat
    unfold roomB at this
    rw [Bool.and_eq_true, List.all_eq_true] at this
    have := this.1 (v, D) ((mem_cornerList _ _ _ _).mpr hv)
    simpa only [Bool.and_eq_true, decide_eq_true_eq] using this
  · have := h2 q hq hmat
    unfold roomB at this
    rw [Bool.and_eq_true, Bool.or_eq_true, List.all_eq_true, List.all_eq_true, List.any_eq_true] at this
    rcases this.2 with hb | ⟨⟨v, D⟩, hm, ha⟩
    · refine Or.inl fun v D hv => ?_
      simpa only [decide_eq_true_eq] using hb (v, D) ((mem_cornerList _ _ _ _).mpr hv)
    · refine Or.inr ⟨v, D, (mem_cornerList _ _ _ _).mp hm, fun v' D' hv' hle => ?_⟩
      rw [List.all_eq_true] at ha
      have := ha (v', D') ((mem_cornerList _ _ _ _).mpr hv')
      rw [Bool.or_eq_true, decide_eq_true_eq, decide_eq_true_eq] at this
      rcases this with h | h
      · exact absurd hle (not_le.mpr h)
      · exact h

/-- the test for all points -/
def allMarginsB (m : ℚ) (L : List (Pt ℚ)) : Bool := L.zipIdx.all fun e => marginB m L e.2 e.1

theorem allMarginsB_sound {m : ℚ} {L : List (Pt ℚ)} (h : allMarginsB m L = true) : AllWideMarginsBy m L := by
  intro i p hp
  unfold allMarginsB at h
  rw [List.all_eq_true] at h
  exact marginB_sound (h (p, i) (List.mem_zipIdx_iff_getElem?.mpr hp))

/-- four points -/
def four : List (Pt ℚ) := [⟨1/2, 15/16, 3/8⟩, ⟨1/4, 9/16, 1/2⟩, ⟨15/16, 3/8, 3/4⟩, ⟨11/16, 3/16, 7/16⟩]

theorem four_box : ∀ v ∈ four, InUnitBox v := by
  intro p hp
  simp only [four, List.mem_cons, List.not_mem_nil, or_false] at hp
  rcases hp with rfl | rfl | rfl | rfl <;> norm_num [InUnitBox]

set_option maxRecDepth 100000 in
theorem four_margins : AllMargins four := (allMarginsB_sound (by decide +kernel)).margins one_pos four_box

theorem four_safe (gr : Int) : SafePoints gr (four.map toF32) := by
  left
  intro p hp
  simp only [four, List.map_cons, List.map_nil, List.mem_cons, List.not_mem_nil, or_false] at hp
  rcases hp with rfl | rfl | rfl | rfl <;> exact ⟨_, _, _, rfl, by norm_num, by norm_num, by norm_num⟩

/-- all other points as candidates; a grid of 3 cells in each direction, whose width is rounded -/
example : ∃ (out : TessOut F32) (L : List (Pt ℚ)),
    tesellateCpu 4 8 ⟨3, 3, 9, 14, 0, 0, false, false⟩ (four.map toF32) = .ok out ∧
    out.xyz = L.map toF32 ∧ L.Perm four ∧
    ∀ i p, L[i]? = some p → ∃ row, RowIs out.dnn i row ∧ ExactRow L i p row := by
  obtain ⟨out, L, h1, h2, h3, h4⟩ := C67_enough_room (hw := 8) (prm := ⟨3, 3, 9, 14, 0, 0, false, false⟩)
    ⟨by decide, by decide, by decide, by decide, by decide⟩ (four_safe 3) four_margins (by decide) rfl
    (by decide) (by decide)
  exact ⟨out, L, h1, h2, h3, fun i p hp => by
    obtain ⟨row, g1, -, g2⟩ := h4 i p hp; exact ⟨row, g1, g2⟩⟩

/-- recompute from one candidate -/
example : ∃ (out : TessOut F32) (L : List (Pt ℚ)),
    tesellateCpu 4 8 ⟨1, 3, 9, 14, 0, 0, false, true⟩ (four.map toF32) = .ok out ∧
    out.xyz = L.map toF32 ∧ L.Perm four ∧
    ∀ i p, L[i]? = some p → ∃ row, RowIs out.dnn i row ∧ ExactRow L i p row := by
  obtain ⟨out, L, h1, h2, h3, h4⟩ := C67_recompute (hw := 8) (prm := ⟨1, 3, 9, 14, 0, 0, false, true⟩)
    ⟨by decide, by decide, by decide, by decide, by decide⟩ (four_safe 3) four_margins (by decide) rfl
    (by decide) (by decide)
  exact ⟨out, L, h1, h2, h3, fun i p hp => by
    obtain ⟨row, g1, -, g2⟩ := h4 i p hp; exact ⟨row, g1, g2⟩⟩

/-- fewer candidates without recompute: no infinite boundary -/
example : ∃ (out : TessOut F32), tesellateCpu 4 8 ⟨2, 3, 9, 14, 0, 0, false, false⟩ (four.map toF32) = .ok out ∧
    out.report.infBoundary = 0 := by
  obtain ⟨out, L, h1, -, -, h2, -⟩ := C67_tessellation (hw := 8) (prm := ⟨2, 3, 9, 14, 0, 0, false, false⟩)
    ⟨by decide, by decide, by decide, by decide, by decide⟩ (four_safe 3) four_margins (by decide) rfl
  exact ⟨out, h1, h2⟩

end Votess
