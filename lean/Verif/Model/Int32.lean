import Verif.Model.Driver
/-!
# 32-bit `int` arithmetic of sizes and indices

The rest of the model computes sizes and positions with unbounded integers and keeps the
work buffers as lists of rows.  Here the expressions are written as in the C++ text with
`Ti = int`: every operation on `int` is checked and a result outside the range of `int` is
undefined behaviour.
-/
namespace Votess

/-- result of an `int` operation -/
def i32 (v : Int) : M Int := if -2 ^ 31 ≤ v ∧ v < 2 ^ 31 then .ok v else .error .overflow

/-- `a + b` -/
def add32 (a b : Int) : M Int := i32 (a + b)

/-- `a - b` -/
def sub32 (a b : Int) : M Int := i32 (a - b)

/-- `a * b` -/
def mul32 (a b : Int) : M Int := i32 (a * b)

/-- conversion of a `size_t` to `int` (modulo `2^32`) -/
def toInt32 (v : Nat) : Int := ((v : Int) + 2 ^ 31) % 2 ^ 32 - 2 ^ 31

/-! ### sizes -/

/-- `subsize * k`; src/votess.ipp:408-410,529-531,579-581,231-232,235 -/
def len32Heap (subsize k : Int) : M Int := mul32 subsize k

/-- `subsize * p_maxsize * 4`; src/votess.ipp:413,534,583,236 -/
def len32P (subsize pm : Int) : M Int := do
  let x ← mul32 subsize pm
  mul32 x 4

/-- `subsize * t_maxsize * 3`; src/votess.ipp:414,535,584,237 -/
def len32T (subsize tm : Int) : M Int := do
  let x ← mul32 subsize tm
  mul32 x 3

/-- `subsize * p_maxsize`; src/votess.ipp:415,536,585 -/
def len32dR (subsize pm : Int) : M Int := mul32 subsize pm

/-- lengths of `heap_id`, `heap_pq`, `dknn`; of `P`; of `T`; of `dR`; src/votess.ipp:408-415,
529-536,579-585 -/
def alloc32 (subsize k pm tm : Int) : M (Int × Int × Int × Int) := do
  let h ← len32Heap subsize k
  let p ← len32P subsize pm
  let t ← len32T subsize tm
  let d ← len32dR subsize pm
  pure (h, p, t, d)

/-- `chunksize`; src/votess.ipp:387-388 -/
def chunk32 (useChunking : Bool) (chunksize refsize : Int) : M Int :=
  if useChunking then pure chunksize else add32 refsize 1

/-- `run * chunksize`; src/votess.ipp:426,245 -/
def start32 (run chunksize : Int) : M Int := mul32 run chunksize

/-- everything `__cpu__tesellate` computes before its first task; src/votess.ipp:380-415 -/
def cpuSizes32 (useChunking : Bool) (chunksize k pm tm : Int) (n : Nat) :
    M (Int × Int × Int × Int) := do
  let refsize := toInt32 n
  let cs ← chunk32 useChunking chunksize refsize
  let subsize := if 0 < cs ∧ cs < refsize then cs else refsize
  alloc32 subsize k pm tm

/-! ### positions -/

/-- `4 * p_maxsize * i + 4 * j + c`; src/cc.ipp:52-55,85-98,143-146 -/
def idx32P (pm i j c : Int) : M Int := do
  let x ← mul32 4 pm
  let x ← mul32 x i
  let y ← mul32 4 j
  let x ← add32 x y
  add32 x c

/-- `3 * t_maxsize * i + 3 * j + c`; src/cc.ipp:59-61,81-83,125-130,180-182,209-211 -/
def idx32T (tm i j c : Int) : M Int := do
  let x ← mul32 3 tm
  let x ← mul32 x i
  let y ← mul32 3 j
  let x ← add32 x y
  add32 x c

/-- `k * i + j`; src/cc.ipp:66,147,209-222, src/knn.ipp:53 -/
def idx32K (k i j : Int) : M Int := do
  let x ← mul32 k i
  add32 x j

/-- `p_maxsize * i`, to which the boundary code adds `j`; src/cc.ipp:150, src/cc.ipp boundary -/
def idx32dR (pm i j : Int) : M Int := do
  let x ← mul32 pm i
  add32 x j

/-- `4 * refsize * j + refsize * c + i`; src/cc.ipp:502-505,535-548,593-596 (device layout) -/
def idx32Pg (refsize i j c : Int) : M Int := do
  let x ← mul32 4 refsize
  let x ← mul32 x j
  let y ← mul32 refsize c
  let x ← add32 x y
  add32 x i

/-! ### grid -/

/-- `gr * gr * gr`; src/xyzset.ipp:22 -/
def idmax32 (gr : Int) : M Int := do
  let x ← mul32 gr gr
  mul32 x gr

/-- number of entries of `offset`: `idmax + 1`; src/xyzset.ipp:58 -/
def offsetLen32 (gr : Int) : M Int := do
  let x ← idmax32 gr
  add32 x 1

/-- cell number of a point, the three `static_cast`s given; src/xyzset.ipp:29-31 -/
def id32 (gr fx fy fz : Int) : M Int := do
  let y ← mul32 fy gr
  let x ← add32 fx y
  let z ← mul32 fz gr
  let z ← mul32 z gr
  add32 x z

/-- `gr * gr * z + gr * y + x`; src/knn.ipp:86 -/
def cid32 (gr x y z : Int) : M Int := do
  let g ← mul32 gr gr
  let a ← mul32 g z
  let b ← mul32 gr y
  let a ← add32 a b
  add32 a x

/-- number of passes of `for (int i = size - 1; i >= 0; i--)`; src/xyzset.ipp:47.  `size` is a
`size_t`, `size - 1` wraps at 0 and is converted to `int`. -/
def sortLoop32 (size : Nat) : Nat := (toInt32 ((size + (2 ^ 64 - 1)) % 2 ^ 64) + 1).toNat

/-! ### the result -/

/-- the `_offs` of `tmpnn_getdnn`: row lengths are counted, then added up in `Ti`;
src/votess.ipp:141-160.  The counting of one row is not checked by itself: the sum, of which it
is a part, is. -/
def offs32 (tmpnn : List (List Int)) : M (List Int) := do
  let rows := tmpnn.map (fun r => r.takeWhile (fun v => v ≠ kUndefined))
  let st ← rows.foldlM (fun (st : List Int × Int) r => do
    let v ← add32 st.2 r.length
    pure (st.1 ++ [v], v)) ([0], 0)
  pure st.1

/-! ### recompute -/

/-- `k = (k * 2) > (refsize - 1) ? refsize - 1 : k * 2`; src/votess.ipp:564 -/
def nextK32 (k refsize : Int) : M Int := do
  let d ← mul32 k 2
  let r ← sub32 refsize 1
  pure (if r < d then r else d)

/-- `x *= update ? 2 : 1`; src/votess.ipp:565-566 -/
def dbl32 (update : Bool) (x : Int) : M Int := mul32 x (if update then 2 else 1)

end Votess
