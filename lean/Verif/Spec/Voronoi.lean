import Verif.Spec.Geometry
import Mathlib.Algebra.Order.Field.Basic
/-!
# Voronoi cells in the unit box

Specification only.
-/
namespace Votess

variable {K : Type} [Field K] [LinearOrder K]

/-- the closed unit box -/
def InUnitBox (x : Pt K) : Prop :=
  (0 ≤ x.x ∧ x.x ≤ 1) ∧ (0 ≤ x.y ∧ x.y ≤ 1) ∧ (0 ≤ x.z ∧ x.z ≤ 1)

/-- points of the box that are at least as close to `p` as to the sites in `sites` -/
def VoronoiCell (p : Pt K) (sites : List (Pt K)) (x : Pt K) : Prop :=
  InUnitBox x ∧ ∀ q ∈ sites, sqDist x p ≤ sqDist x q

/-- the points with the given numbers -/
def sitesOf (xyz : List (Pt K)) (ids : List Int) : List (Pt K) :=
  ids.filterMap fun v => xyz[v.toNat]?

/-- the Voronoi cells of `p` and `q` have a point of the box in common -/
def Touch (xyz : List (Pt K)) (p q : Pt K) : Prop :=
  ∃ x, VoronoiCell p xyz x ∧ VoronoiCell q xyz x

/-- `v` is the only common point of the three planes numbered by `t` -/
def IsVertex (P : List (Plane K)) (t : Tri) (v : Pt K) : Prop :=
  ∃ pa pb pc, P[t.a]? = some pa ∧ P[t.b]? = some pb ∧ P[t.c]? = some pc ∧ det3 pa pb pc ≠ 0 ∧
    pa.eval v = 0 ∧ pb.eval v = 0 ∧ pc.eval v = 0

/-- face `f` of the box -/
def OnFace : Nat → Pt K → Prop
  | 0, x => x.x = 0
  | 1, x => x.x = 1
  | 2, x => x.y = 0
  | 3, x => x.y = 1
  | 4, x => x.z = 0
  | 5, x => x.z = 1
  | _, _ => False

/-- `x` lies on the given boundary plane of the cell of point number `index`, which is at `p`:
a face of the box, or the bisector with another point of the set -/
def Tight (xyz : List (Pt K)) (index : Nat) (p x : Pt K) : Nat ⊕ Nat → Prop
  | .inl f => OnFace f x
  | .inr w => w ≠ index ∧ ∃ q, xyz[w]? = some q ∧ sqDist x p = sqDist x q

/-- general position of one cell: no point of it lies on four boundary planes -/
def GeneralAt (xyz : List (Pt K)) (index : Nat) (p : Pt K) : Prop :=
  ∀ x, VoronoiCell p xyz x → ∀ c : List (Nat ⊕ Nat), c.Nodup → (∀ e ∈ c, Tight xyz index p x e) →
    c.length ≤ 3

/-- value of an affine function `a x + b y + c z + d` -/
def affine (a b c d : K) (x : Pt K) : K := a * x.x + b * x.y + c * x.z + d

end Votess
