import Verif.Props.IeeeKnn
/-!
# C66 — a wrong nearest neighbour in a grid of the table of C65
-/
namespace Votess

/-- three points on a line along the first axis; the last is at `1 - 2^-24` -/
def farXyz : List (Pt ℚ) := [⟨29/32, 1/2, 1/2⟩, ⟨31/32, 1/2, 1/2⟩, ⟨1 - 1/2^24, 1/2, 1/2⟩]

/-- the run as a test (the sort in the form of `xyzSort_eq`) -/
def farRun : Bool :=
  match (do
      let ids ← cellIds 25 (farXyz.map toF32)
      let off ← offsetTable 25 ((buckets 4 0 (ids.zip (farXyz.map toF32))).map (·.1))
      pure { xyz := (buckets 4 0 (ids.zip (farXyz.map toF32))).map (·.2),
             id := (buckets 4 0 (ids.zip (farXyz.map toF32))).map (·.1), offset := off } :
      M (Sorted F32)) with
  | .error _ => false
  | .ok S => decide (S.xyz = farXyz.map toF32) &&
    match knnCompute S.xyz S.id S.offset 1 1 25 [((0 : Int), (⊤ : WithTop ℚ))] with
    | .error _ => false
    | .ok res => decide (res.map (·.1) = [0])

set_option maxRecDepth 100000 in
theorem farRun_true : farRun = true := by decide +kernel

/-- C66: in a grid of 25 cells in each direction the point at `1 - 2^-24` is filed under a cell at the
other end of the box and is not found: the nearest neighbour returned for the second point is twice as
far away as the third point. -/
theorem C66_bad_grid : ∃ S res, xyzSort 4 25 (farXyz.map toF32) = .ok S ∧
    S.xyz = farXyz.map toF32 ∧
    knnCompute S.xyz S.id S.offset 1 1 25 [((0 : Int), (⊤ : WithTop ℚ))] = .ok res ∧
    res.map (·.1) = [0] ∧
    4 * sqDist ⟨1 - 1/2^24, 1/2, 1/2⟩ ⟨31/32, 1/2, 1/2⟩ < sqDist ⟨29/32, 1/2, 1/2⟩ (⟨31/32, 1/2, 1/2⟩ : Pt ℚ) := by
  have h := farRun_true
  unfold farRun at h
  rw [← xyzSort_eq] at h
  cases hS : xyzSort 4 25 (farXyz.map toF32) with
  | error e => rw [hS] at h; simp at h
  | ok S =>
    rw [hS] at h
    simp only [Bool.and_eq_true, decide_eq_true_eq] at h
    obtain ⟨h1, h2⟩ := h
    cases hk : knnCompute S.xyz S.id S.offset 1 1 25 [((0 : Int), (⊤ : WithTop ℚ))] with
    | error e => rw [hk] at h2; simp at h2
    | ok res =>
      rw [hk] at h2
      exact ⟨S, res, rfl, h1, hk, by simpa using h2, by decide +kernel⟩

end Votess
