import Verif.Spec.Geometry
import Mathlib.Order.WithBot
/-!
# Specification of k nearest neighbours
-/
namespace Votess

variable {K : Type} [Field K] [LinearOrder K]

/-- all points but the one at `index`, with their position and squared distance to `q` -/
def otherPoints (xyz : List (Pt K)) (index : Nat) (q : Pt K) : List (Int × WithTop K) :=
  (xyz.zipIdx.filter fun e => decide (e.2 ≠ index)).map
    fun e => ((e.2 : Int), ((sqDist e.1 q : K) : WithTop K))

/-- `res` holds the `k` smallest of the other points, padded with `k` pairs `(0, ∞)`, in
ascending order of distance -/
def KnnSpec (xyz : List (Pt K)) (index : Nat) (q : Pt K) (k : Nat)
    (res : List (Int × WithTop K)) : Prop :=
  res.length = k ∧ res.Pairwise (fun a b => a.2 ≤ b.2) ∧
  ∃ rest, (res ++ rest).Perm (otherPoints xyz index q ++ List.replicate k (0, ⊤)) ∧
    ∀ x ∈ res, ∀ y ∈ rest, x.2 ≤ y.2

end Votess
