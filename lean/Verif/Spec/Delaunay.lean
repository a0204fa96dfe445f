import Verif.Spec.Walk
/-!
# Empty balls

Specification only.  Two points are neighbours in the Delaunay triangulation when a ball that has both on its
surface has no point inside.  The centre may be anywhere; the cells a call computes end at the unit box.
-/
namespace Votess

variable {K : Type} [Field K] [LinearOrder K]

/-- `p` and `q` are on the surface of a ball about `c`, and no point is inside -/
def EmptyBall (L : List (Pt K)) (c p q : Pt K) : Prop :=
  sqDist c p = sqDist c q ∧ ∀ r ∈ L, sqDist c p ≤ sqDist c r

/-- neighbours in the Delaunay triangulation of the whole space -/
def DelaunayPair (L : List (Pt K)) (p q : Pt K) : Prop := ∃ c, EmptyBall L c p q

/-- a ball about a point of the box has `p` and `q` on its surface, all other points are outside -/
def Facing (L : List (Pt K)) (p q : Pt K) : Prop :=
  ∃ c, InUnitBox c ∧ sqDist c p = sqDist c q ∧ ∀ r ∈ L, r ≠ p → r ≠ q → sqDist c p < sqDist c r

/-- what the rows `d` of the points `L` say about empty balls -/
structure DelaunayRows (L : List (Pt K)) (d : Dnn) : Prop where
  /-- a listed point is on the surface of an empty ball together with the point, and its centre is in the box -/
  sound : ∀ (i w : Nat) (p : Pt K), L[i]? = some p → Listed d i w →
    ∃ q c, L[w]? = some q ∧ q ≠ p ∧ InUnitBox c ∧ EmptyBall L c p q
  /-- a point with such a ball and no others on its surface is listed -/
  facing : ∀ (i : Nat) (p q : Pt K), L[i]? = some p → q ∈ L → q ≠ p → Facing L p q → ∃ w, Listed d i w ∧ L[w]? = some q

/-- the rows are exactly the empty balls about points of the box -/
structure DelaunayExact (L : List (Pt K)) (d : Dnn) : Prop extends DelaunayRows L d where
  all : ∀ (i w : Nat) (p q c : Pt K), L[i]? = some p → L[w]? = some q → w ≠ i → InUnitBox c → EmptyBall L c p q →
    Listed d i w

end Votess
