import Verif.Model.Driver
/-!
# What the driver should compute

Specification only: every point on its own, in freshly initialised buffers, without threads,
chunks or work buffers shared with other points.
-/
namespace Votess

open FP

variable {F D : Type} [FP F D]

/-- neighbour search and cell computation for one point in fresh buffers -/
def soloCell (S : Sorted F) (gr : Int) (a : CCArgs) (index : Nat) : M (List Int × State) := do
  let row ← knnCompute S.xyz S.id S.offset index a.k gr (List.replicate a.k ((0 : Int), dinf F))
  let o ← ccCompute a S.xyz index .init (List.replicate a.pm ⟨ofInt 0, ofInt 0, ofInt 0, ofInt 0⟩)
    (List.replicate a.tm ⟨0, 0, 0⟩) (List.replicate a.pm 0) (row.map (·.1))
    (List.replicate a.k kUndefined)
  pure (o.knn, o.s.state)

/-- result of `soloCell` (a default if it fails) -/
def soloOf (S : Sorted F) (gr : Int) (a : CCArgs) (index : Nat) : List Int × State :=
  match soloCell S gr a index with
  | .ok r => r
  | .error _ => ([], .init)

/-- the row returned for one point: the neighbours in front of the first `k_undefined` -/
def rowOf (S : Sorted F) (gr : Int) (a : CCArgs) (index : Nat) : List Int :=
  (soloOf S gr a index).1.takeWhile fun v => v ≠ kUndefined

/-- the final status of one point -/
def stateOf (S : Sorted F) (gr : Int) (a : CCArgs) (index : Nat) : State := (soloOf S gr a index).2

end Votess
