import Verif.Spec.Margin
/-!
# How many candidates a cell needs

Specification only.
-/
namespace Votess

variable {K : Type} [Field K] [LinearOrder K]

/-- `k` candidates are enough to know the cell of point `i`, at `p`: one of the other points is beyond the cell cut
out by the points closer than it, and at most `k` other points are as close as that one.  (`notBeyond` also counts
`p`.) -/
def Enough (k : Nat) (xyz : List (Pt K)) (i : Nat) (p : Pt K) : Prop :=
  ∃ c ∈ xyz.eraseIdx i, Beyond xyz p c ∧ (notBeyond xyz p c).length ≤ k + 1

/-- for every point -/
def AllEnough (k : Nat) (xyz : List (Pt K)) : Prop := ∀ i p, xyz[i]? = some p → Enough k xyz i p

/-- no other point has the same distance from `p` as a point that matters -/
def NoTies (xyz : List (Pt K)) (i : Nat) (p : Pt K) : Prop :=
  (xyz.eraseIdx i).Pairwise fun q q' => Matters xyz p q ∨ Matters xyz p q' → sqDist q p ≠ sqDist q' p

end Votess
