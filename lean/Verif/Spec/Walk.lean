import Verif.Spec.Tessellation
import Verif.Model.Dnn
import Mathlib.Logic.Relation
/-!
# Walking along the rows of a result

Specification only.  A user finds the point nearest to a location by starting anywhere and moving to a listed
neighbour that is closer, as long as there is one.
-/
namespace Votess

variable {K : Type} [Field K] [LinearOrder K]

/-- a loop over `dnn[i]` (`for j < dnn[i].size()`, value `dnn[i][j]`) meets the number `w` -/
def Listed (d : Dnn) (i w : Nat) : Prop :=
  ∃ s j, d.rowSize i = .ok s ∧ j < s ∧ d.at i j = .ok (w : Int)

/-- a step of the walk towards `x`: from point `i` to a listed neighbour that is closer to `x` -/
def StepTo (L : List (Pt K)) (d : Dnn) (x : Pt K) (i w : Nat) : Prop :=
  Listed d i w ∧ ∃ p q, L[i]? = some p ∧ L[w]? = some q ∧ sqDist x q < sqDist x p

/-- point `j` is a nearest one to `x` -/
def NearestTo (L : List (Pt K)) (x : Pt K) (j : Nat) : Prop :=
  ∃ q, L[j]? = some q ∧ ∀ r ∈ L, sqDist x q ≤ sqDist x r

/-- no point but `p` and `q` lies in the closed ball with diameter `pq` -/
def Gabriel (L : List (Pt K)) (p q : Pt K) : Prop :=
  ∀ r ∈ L, r ≠ p → r ≠ q → sqDist p q < sqDist p r + sqDist r q

/-- what the rows `d` of the points `L` are good for -/
structure Navigable (L : List (Pt K)) (d : Dnn) : Prop where
  /-- a walk that cannot go on has found a nearest point -/
  stop : ∀ x, InUnitBox x → ∀ i, i < L.length → (∀ w, ¬ StepTo L d x i w) → NearestTo L x i
  /-- from everywhere a nearest point is reached -/
  arrive : ∀ x, InUnitBox x → ∀ i, i < L.length → ∃ j, Relation.ReflTransGen (StepTo L d x) i j ∧ NearestTo L x j
  /-- no walk has as many steps as there are points -/
  short : ∀ x i c, i < L.length → (i :: c).IsChain (StepTo L d x) → c.length < L.length
  /-- every point is reached from every other one by way of listed neighbours -/
  connected : ∀ (i j : Nat) (p : Pt K), i < L.length → L[j]? = some p →
    ∃ j', Relation.ReflTransGen (Listed d) i j' ∧ L[j']? = some p
  /-- every point has a listed neighbour -/
  nonempty : ∀ (i : Nat) (p : Pt K), L[i]? = some p → (∃ q ∈ L, q ≠ p) → ∃ w, Listed d i w
  /-- two points alone in the ball between them list each other -/
  gabriel : ∀ (i : Nat) (p q : Pt K), L[i]? = some p → q ∈ L → q ≠ p → Gabriel L p q → ∃ w, Listed d i w ∧ L[w]? = some q
  /-- the points nearest to point `i` are listed -/
  closest : ∀ (i : Nat) (p q : Pt K), L[i]? = some p → q ∈ L → q ≠ p → (∀ r ∈ L, r ≠ p → sqDist p q ≤ sqDist p r) →
    ∃ w, Listed d i w ∧ L[w]? = some q

end Votess
