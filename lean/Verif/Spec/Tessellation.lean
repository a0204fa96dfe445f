import Verif.Spec.Voronoi
/-!
# What a returned row should say

Specification only.
-/
namespace Votess

variable {K : Type} [Field K] [LinearOrder K]

/-- `row` is a correct list of neighbours for the point `p`, number `i` of `xyz` -/
structure CorrectRow (xyz : List (Pt K)) (i : Nat) (p : Pt K) (row : List Int) : Prop where
  /-- the listed neighbours alone determine the Voronoi cell of `p` -/
  cell : ∀ x, VoronoiCell p (sitesOf xyz row) x ↔ VoronoiCell p xyz x
  /-- every entry is the number of another point whose cell touches that of `p` -/
  touch : ∀ v ∈ row, ∃ (w : Nat) (q : Pt K), v = w ∧ xyz[w]? = some q ∧ w ≠ i ∧ q ≠ p ∧ Touch xyz p q
  /-- no point is listed twice -/
  distinct : row.Pairwise fun v w => xyz[v.toNat]? ≠ xyz[w.toNat]?
  /-- removing any point that is not listed leaves the cell as it is -/
  missing : ∀ w : Nat, (w : Int) ∉ row → ∀ x, VoronoiCell p (xyz.eraseIdx w) x → VoronoiCell p xyz x

/-- `row` lists exactly the points whose cell touches that of point `i`, at `p` -/
def ExactRow (xyz : List (Pt K)) (i : Nat) (p : Pt K) (row : List Int) : Prop :=
  ∀ w : Nat, (w : Int) ∈ row ↔ w ≠ i ∧ ∃ q, xyz[w]? = some q ∧ Touch xyz p q

end Votess
