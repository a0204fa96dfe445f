import Verif.Proofs.MarginGeneral
/-! The point of a cell farthest from its site is a corner. -/
namespace Votess

theorem sqDist_along (p x d : Pt ℚ) (τ : ℚ) : sqDist (along x d τ) p = sqDist x p +
    2 * τ * ((x.x - p.x) * d.x + (x.y - p.y) * d.y + (x.z - p.z) * d.z) + τ ^ 2 * (d.x ^ 2 + d.y ^ 2 + d.z ^ 2) := by
  simp only [sqDist, along]; ring

/-- walking to the boundary without coming closer; `l` are the normals to keep -/
theorem walk_out {p : Pt ℚ} {sites : List (Pt ℚ)} {x : Pt ℚ} (hx : VoronoiCell p sites x) {d : Pt ℚ}
    (hd : ¬ (d.x = 0 ∧ d.y = 0 ∧ d.z = 0)) : ∃ y, VoronoiCell p sites y ∧ sqDist x p ≤ sqDist y p ∧
      (∀ g, slope g d = 0 → g.eval x = 0 → g.eval y = 0) ∧
      ∃ h ∈ boundaryPlanes p sites, slope h d ≠ 0 ∧ h.eval y = 0 := by
  have key : ∀ d : Pt ℚ, ¬ (d.x = 0 ∧ d.y = 0 ∧ d.z = 0) →
      0 ≤ (x.x - p.x) * d.x + (x.y - p.y) * d.y + (x.z - p.z) * d.z → ∃ y, VoronoiCell p sites y ∧ sqDist x p ≤ sqDist y p ∧
      (∀ g, slope g d = 0 → g.eval x = 0 → g.eval y = 0) ∧
      ∃ h ∈ boundaryPlanes p sites, slope h d ≠ 0 ∧ h.eval y = 0 := by
    intro d hd hs
    obtain ⟨τ, t0, h1, h, h2, h3, h4⟩ := walk_cell hx hd
    refine ⟨_, h1, ?_, fun g g1 g2 => by rw [eval_along, g1, g2]; ring, h, h2, h3, h4⟩
    rw [sqDist_along]
    have a := mul_nonneg t0 hs
    have b : 0 ≤ τ ^ 2 * (d.x ^ 2 + d.y ^ 2 + d.z ^ 2) := by positivity
    linarith
  rcases le_total 0 ((x.x - p.x) * d.x + (x.y - p.y) * d.y + (x.z - p.z) * d.z) with h | h
  · exact key d hd h
  · have e : ∀ g : Plane ℚ, slope g ⟨-d.x, -d.y, -d.z⟩ = - slope g d := by intro g; simp only [slope]; ring
    obtain ⟨y, h1, h2, h3, k, h4, h5, h6⟩ := key ⟨-d.x, -d.y, -d.z⟩ (by simpa using hd) (by simp only; linarith)
    exact ⟨y, h1, h2, fun g g1 g2 => h3 g (by rw [e, g1, neg_zero]) g2, k, h4, fun h0 => h5 (by rw [e, h0, neg_zero]), h6⟩

theorem exists_far_corner {p : Pt ℚ} {sites : List (Pt ℚ)} {x : Pt ℚ} (hx : VoronoiCell p sites x) :
    ∃ v D, Corner p sites v D ∧ sqDist x p ≤ sqDist v p := by
  obtain ⟨y, y1, y2, -, f, f1, f2, f3⟩ := walk_out (d := ⟨1, 0, 0⟩) hx (by norm_num)
  have hf : ¬ (f.a = 0 ∧ f.b = 0 ∧ f.c = 0) := by
    rintro ⟨h1, h2, h3⟩
    exact f2 (by simp [slope, h1])
  -- a direction in the plane
  obtain ⟨d, d0, d1⟩ : ∃ d : Pt ℚ, ¬ (d.x = 0 ∧ d.y = 0 ∧ d.z = 0) ∧ slope f d = 0 := by
    by_cases h : f.a = 0 ∧ f.b = 0
    · exact ⟨⟨1, 0, 0⟩, by norm_num, by simp [slope, h.1]⟩
    · refine ⟨⟨-f.b, f.a, 0⟩, ?_, by simp only [slope]; ring⟩
      rintro ⟨h1, h2, -⟩
      exact h ⟨h2, neg_eq_zero.mp h1⟩
  obtain ⟨z, z1, z2, z3, g, g1, g2, g3⟩ := walk_out y1 d0
  have hc : ¬ ((crossDir f g).x = 0 ∧ (crossDir f g).y = 0 ∧ (crossDir f g).z = 0) := by
    rintro ⟨h1, h2, h3⟩
    simp only [crossDir] at h1 h2 h3
    obtain ⟨l, e1, e2, e3⟩ := parallel_of_cross hf h1 h2 h3
    apply g2
    have : slope g d = l * slope f d := by simp only [slope, e1, e2, e3]; ring
    rw [this, d1, mul_zero]
  obtain ⟨v, v1, v2, v3, h, h1, h2, h3⟩ := walk_out z1 hc
  refine ⟨v, det3 f g h, ⟨v1, by rw [← slope_cross]; exact h2, f, f1, g, g1, h, h1, rfl, ?_, ?_, h3⟩, y2.trans (z2.trans v2)⟩
  · exact v3 f (by rw [slope_cross, det3_left]) (z3 f d1 f3)
  · exact v3 g (by rw [slope_cross, det3_right]) g3

/-- a point is beyond the cell if it is beyond all its corners -/
theorem beyond_iff (L : List (Pt ℚ)) (p q : Pt ℚ) :
    Beyond L p q ↔ ∀ v D, Corner p (closerTo L p q) v D → 4 * sqDist v p < sqDist q p := by
  constructor
  · intro h v D hv
    exact h v hv.1
  · intro h x hx
    obtain ⟨v, D, h1, h2⟩ := exists_far_corner hx
    have := h v D h1
    linarith

end Votess
