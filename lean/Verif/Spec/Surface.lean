import Verif.Model.Basic
/-!
# Combinatorial vocabulary: oriented triangles, their edges, closed loops

Specification only; nothing here refers to a function of the model.
-/
namespace Votess

/-- the three directed edges of an oriented triangle -/
def Tri.edges (t : Tri) : List (Nat × Nat) := [(t.a, t.b), (t.b, t.c), (t.c, t.a)]

/-- all directed edges of a list of triangles -/
def triEdges (R : List Tri) : List (Nat × Nat) := R.flatMap Tri.edges

/-- consecutive pairs of a list -/
def pathEdges : List Nat → List (Nat × Nat)
  | a :: b :: l => (a, b) :: pathEdges (b :: l)
  | _ => []

/-- consecutive pairs of a closed loop (the last vertex is followed by the first) -/
def loopEdges : List Nat → List (Nat × Nat)
  | [] => []
  | x :: l => pathEdges (x :: l ++ [x])

/-- triangles with three different vertices below `n`, no directed edge occurring twice -/
structure ValidTris (n : Nat) (R : List Tri) : Prop where
  tri : ∀ t ∈ R, t.a ≠ t.b ∧ t.b ≠ t.c ∧ t.c ≠ t.a ∧ t.a < n ∧ t.b < n ∧ t.c < n
  nodup : (triEdges R).Nodup

/-- an edge of the triangles whose reverse is not an edge of the triangles -/
def Unmatched (R : List Tri) (e : Nat × Nat) : Prop :=
  e ∈ triEdges R ∧ (e.2, e.1) ∉ triEdges R

/-- every edge occurs together with its reverse -/
def ClosedTris (R : List Tri) : Prop :=
  ∀ e ∈ triEdges R, (e.2, e.1) ∈ triEdges R

/-- `R` contains no closed surface: no non-empty selection of its triangles is closed -/
def NoClosedPart (R : List Tri) : Prop :=
  ∀ S, S ≠ [] → (∀ t ∈ S, t ∈ R) → ¬ ClosedTris S

/-- `tab` (a successor table with `undef` for "no successor") describes the simple closed
loop `L` of at least three vertices -/
structure IsLoop (undef : Nat) (tab : List Nat) (L : List Nat) : Prop where
  nodup : L.Nodup
  len : 3 ≤ L.length
  next : ∀ e ∈ loopEdges L, tab[e.1]? = some e.2
  off : ∀ v, v < tab.length → v ∉ L → tab[v]? = some undef

end Votess
