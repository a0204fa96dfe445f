import Verif.Model.XyzSet
/-!
# `validate_sort` — `src/xyzset.ipp:103-121`
-/
namespace Votess

open FP

variable {F D : Type} [FP F D]

/-- `static_cast<T1>(std::floor(x / gl) * f)`, where the factors are multiplied in floating point.
The value of `std::floor` is taken as the integer it is, converted back exactly; since the
product of integers is an integer, truncation and floor agree; src/xyzset.ipp:111-113 -/
def scaledCoord (gl x : F) (gr : Int) : Nat → M Int
  | n => do
    let i ← gridCoord gl x
    match floorInt ((List.replicate n (ofInt gr : F)).foldl mul (ofInt i)) with
    | some c => .ok c
    | none => .error .cast

/-- loop of `validate_sort` from position `i`; src/xyzset.ipp:110-119 -/
def validateSortFrom (gr : Int) (id : List Int) : Nat → List (Pt F) → M Bool
  | _, [] => pure true
  | i, p :: l => do
    let gl : F := recip gr
    let x ← scaledCoord gl p.x gr 0
    let y ← scaledCoord gl p.y gr 1
    let z ← scaledCoord gl p.z gr 2
    let c ← rd id i
    if x + y + z ≠ c then pure false else validateSortFrom gr id (i + 1) l

/-- `validate_sort`; src/xyzset.ipp:103-121 -/
def validateSort (gr : Int) (xyz : List (Pt F)) (id : List Int) : M Bool :=
  validateSortFrom gr id 0 xyz

end Votess
