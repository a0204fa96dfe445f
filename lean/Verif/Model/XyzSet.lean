import Verif.Model.Planes
/-!
# Grid sort — `src/xyzset.ipp`

`T1` is a signed integer type of `nb` bytes (`sizeof(T1)`), `T2` the coordinate type.
Points are generic (`α`) in the sorting part: the passes only move them.
-/
namespace Votess

open FP

variable {F D : Type} [FP F D] {α : Type}

/-- `static_cast<T1>(std::floor(x / gl))`; src/xyzset.ipp:29-31 -/
def gridCoord (gl x : F) : M Int :=
  match floorInt (div x gl) with
  | some i => .ok i
  | none => .error .cast

/-- `id[i]` of one point; src/xyzset.ipp:21,29-31 -/
def cellId (gr : Int) (p : Pt F) : M Int := do
  let gl : F := recip gr
  let x ← gridCoord gl p.x
  let y ← gridCoord gl p.y
  let z ← gridCoord gl p.z
  pure (x + y * gr + z * gr * gr)

/-- loop `init` computing all ids; src/xyzset.ipp:28-32 -/
def cellIds (gr : Int) (xyz : List (Pt F)) : M (List Int) := xyz.mapM (cellId gr)

/-- `(id >> shift) & 0xFF` (arithmetic shift); src/xyzset.ipp:42,48 -/
def digit (shift : Nat) (id : Int) : Nat := ((id >>> shift) % 256).toNat

/-- counting loop; src/xyzset.ipp:40-43 -/
def countDigits (shift : Nat) (l : List (Int × α)) : M (List Nat) :=
  l.foldlM (fun count e => do
    let c ← rd count (digit shift e.1)
    wr count (digit shift e.1) (c + 1)) (List.replicate 256 0)

/-- prefix sums; src/xyzset.ipp:44-46 -/
def prefixSums (count : List Nat) : M (List Nat) :=
  (List.range 255).foldlM (fun count i => do
    let a ← rd count (i + 1)
    let b ← rd count i
    wr count (i + 1) (a + b)) count

/-- one step of the placement loop; `--count[idx]` below zero would wrap and index
out of bounds; src/xyzset.ipp:48-51 -/
def placeStep (shift : Nat) (e : Int × α) (st : List Nat × List (Int × α)) :
    M (List Nat × List (Int × α)) := do
  let idx := digit shift e.1
  let c ← rd st.1 idx
  if c = 0 then .error .oob
  else do
    let count ← wr st.1 idx (c - 1)
    let tmp ← wr st.2 (c - 1) e
    pure (count, tmp)

/-- one radix pass; `(id, xyzset)` are zipped, `tmp` is `(tmp_id, tmp_xyzset)` whose old
contents are overwritten; src/xyzset.ipp:39-55 -/
def radixPass (shift : Nat) (l tmp : List (Int × α)) : M (List (Int × α)) := do
  let count ← countDigits shift l
  let count ← prefixSums count
  let st ← l.reverse.foldlM (fun st e => placeStep shift e st) (count, tmp)
  pure st.2

/-- all passes `shift = 0, 8, ..`; `tmp` keeps the copy of the previous pass, which is
equal to the current array (std::copy); src/xyzset.ipp:35-55 -/
def radixPasses : (npasses : Nat) → (shift : Nat) → List (Int × α) → List (Int × α) →
    M (List (Int × α))
  | 0, _, l, _ => pure l
  | n + 1, shift, l, tmp => do
    let l' ← radixPass shift l tmp
    radixPasses n (shift + 8) l' l'

/-- `offset` histogram; src/xyzset.ipp:58-61 -/
def offsetCount (gr : Int) (ids : List Int) : M (List Int) :=
  ids.foldlM (fun off id => do
    let c ← rdI off (id + 1)
    wrI off (id + 1) (c + 1)) (List.replicate (gr * gr * gr + 1).toNat 0)

/-- running sum over `offset`; src/xyzset.ipp:62-66 -/
def offsetScan : Int → List Int → List Int
  | _, [] => []
  | acc, o :: os => (acc + o) :: offsetScan (acc + o) os

/-- offset table; src/xyzset.ipp:57-67 -/
def offsetTable (gr : Int) (ids : List Int) : M (List Int) := do
  let off ← offsetCount gr ids
  let off := offsetScan 0 off
  wr off (off.length - 1) (ids.length : Int)

/-- result of `xyzset::sort`: the permuted points, ids, offsets -/
structure Sorted (F : Type) where
  xyz : List (Pt F)
  id : List Int
  offset : List Int
  deriving DecidableEq, Repr

/-- `xyzset::sort<T1,T2>` with `sizeof(T1) = nb`; src/xyzset.ipp:16-70.
A negative `resize` argument is reported as out of bounds (it throws in C++). -/
def xyzSort [Inhabited F] (nb : Nat) (gr : Int) (xyz : List (Pt F)) : M (Sorted F) := do
  let ids ← cellIds gr xyz
  let tmp := List.replicate ids.length ((0 : Int), (⟨default, default, default⟩ : Pt F))
  let l ← radixPasses nb 0 (ids.zip xyz) tmp
  let ids := l.map (·.1)
  let off ← offsetTable gr ids
  pure { xyz := l.map (·.2), id := ids, offset := off }

/-- `validate_xyzset`; src/xyzset.ipp:72-83 -/
def validateXyzset (xyz : List (Pt F)) : Bool :=
  xyz.all fun p =>
    !(le (ofInt 1) p.x || le p.x (ofInt 0)) &&
    !(le (ofInt 1) p.y || le p.y (ofInt 0)) &&
    !(le (ofInt 1) p.z || le p.z (ofInt 0))

/-- `validate_id`; src/xyzset.ipp:85-94 -/
def validateId : List Int → Bool
  | a :: b :: l => if b < a then false else validateId (b :: l)
  | _ => true

/-- `validate_offset`; src/xyzset.ipp:96-101 -/
def validateOffset (_ : List Int) : Bool := true

end Votess
