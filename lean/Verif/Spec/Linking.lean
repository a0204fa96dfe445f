import Verif.Spec.Walk
/-!
# Groups of points, and going from near to far

Specification only.  `N i w` says that row `i` lists point `w`.
-/
namespace Votess

variable {K : Type} [Field K] [LinearOrder K]

/-- the points `i` and `j` are at most the linking length apart (`s` is its square) -/
def Friends (L : List (Pt K)) (s : K) (i j : Nat) : Prop :=
  ∃ p q, L[i]? = some p ∧ L[j]? = some q ∧ sqDist p q ≤ s

/-- row `i` lists `w`, which is at most the linking length away -/
def ListedFriends (L : List (Pt K)) (N : Nat → Nat → Prop) (s : K) (i w : Nat) : Prop := N i w ∧ Friends L s i w

/-- for every linking length the groups "friends of friends" are found by looking at listed neighbours only -/
def SameGroups (L : List (Pt K)) (N : Nat → Nat → Prop) : Prop :=
  ∀ s i j, Relation.ReflTransGen (Friends L s) i j ↔ Relation.ReflTransGen (ListedFriends L N s) i j

/-- Seen from any location of the box, every point but the nearest ones is listed by a nearer one. -/
def NearToFar (L : List (Pt K)) (N : Nat → Nat → Prop) : Prop :=
  ∀ x, InUnitBox x → ∀ (j : Nat) (q : Pt K), L[j]? = some q → ¬ NearestTo L x j →
    ∃ (i : Nat) (p : Pt K), L[i]? = some p ∧ sqDist x p < sqDist x q ∧ N i j

/-- The nearest point that is not yet in `S` is among those listed by members of `S` (or no point is nearer). -/
def NextIsListed (L : List (Pt K)) (N : Nat → Nat → Prop) : Prop :=
  ∀ x, InUnitBox x → ∀ (S : List Nat) (j : Nat) (q : Pt K), j ∉ S → L[j]? = some q →
    (∀ (j' : Nat) (q' : Pt K), j' ∉ S → L[j']? = some q' → sqDist x q ≤ sqDist x q') →
    (∃ i ∈ S, N i j) ∨ NearestTo L x j

end Votess
