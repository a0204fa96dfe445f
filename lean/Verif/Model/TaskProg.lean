import Verif.Model.Prog
import Verif.Model.Driver
/-!
# One task as a program of single memory accesses

The same functions as in `Verif.Model.Heap`, `Knn`, `Boundary` and `CC`, written as trees of
reads and writes.  Locations are relative to the task: entry `m` of the row of the buffer
that belongs to the task (`4 * j + c` for coefficient `c` of plane `j`, `3 * j + c` for entry `c`
of triangle `j`, `3 * q + c` for coordinate `c` of point `q`); `cpuLay` and `gpuLay` turn them
into positions in the shared buffers.  A location that the C++ text reads several times in a row
through a reference (`const Tu& t0 = T[...]`) is read once here.
-/
namespace Votess

open FP

namespace Prog

variable {F D E : Type} [FP F D]

/-! ## heap -/

/-- `heap::swap`; src/heap.ipp:13-22 (CPU), 148-162 (GPU) -/
def heapSwap (a b : Nat) : Prog F E Unit := do
  let x ← gInt .hid a
  let y ← gInt .hid b
  wrt .hid a (.int y)
  wrt .hid b (.int x)
  let u ← gPri .hpq a
  let v ← gPri .hpq b
  wrt .hpq a (.pri v)
  wrt .hpq b (.pri u)

/-- choice of `largest`; src/heap.ipp:32-40 (CPU), 175-185 (GPU) -/
def heapLargest (lt : E → E → Bool) (s i : Nat) : Prog F E Nat := do
  let left := 2 * i + 1
  let right := 2 * i + 2
  let largest ←
    if left < s then do
      let a ← gPri .hpq left
      let b ← gPri .hpq i
      pure (if lt b a then left else i)
    else pure i
  if right < s then do
    let a ← gPri .hpq right
    let b ← gPri .hpq largest
    pure (if lt b a then right else largest)
  else pure largest

/-- loop of `heap::maxheapify`; src/heap.ipp:31-47 (CPU), 174-192 (GPU) -/
def maxheapifyLoop (lt : E → E → Bool) (s : Nat) : Nat → Nat → Prog F E Unit
  | 0, _ => err .diverge
  | fuel + 1, i => do
    let largest ← heapLargest lt s i
    if i ≠ largest then do
      heapSwap i largest
      maxheapifyLoop lt s fuel largest
    else pure ()

/-- `heap::maxheapify`; src/heap.ipp:24-48 (CPU), 166-216 (GPU) -/
def maxheapify (lt : E → E → Bool) (s i : Nat) : Prog F E Unit := maxheapifyLoop lt s (s + 1) i

/-- first loop of `heap::sort`; src/heap.ipp:59-61 (CPU), 225-227 (GPU) -/
def heapBuild (lt : E → E → Bool) (k : Nat) : Nat → Prog F E Unit
  | 0 => pure ()
  | n + 1 => do
    maxheapify lt k n
    heapBuild lt k n

/-- second loop of `heap::sort`; src/heap.ipp:62-65 (CPU), 228-231 (GPU) -/
def heapDrain (lt : E → E → Bool) : Nat → Prog F E Unit
  | 0 => pure ()
  | n + 1 => do
    heapSwap 0 n
    maxheapify lt n 0
    heapDrain lt n

/-- `heap::sort`; src/heap.ipp:52-66 (CPU), 218-232 (GPU) -/
def heapSort (lt : E → E → Bool) (k : Nat) : Prog F E Unit := do
  heapBuild lt k (k / 2)
  heapDrain lt k

/-! ## neighbour search -/

/-- the three coordinates of a point -/
def point (b : Buf) (i : Int) : Prog F E (Pt F) :=
  if 0 ≤ i then do
    let x ← gFlt b (3 * i.toNat + 0)
    let y ← gFlt b (3 * i.toNat + 1)
    let z ← gFlt b (3 * i.toNat + 2)
    pure ⟨x, y, z⟩
  else err .oob

/-- candidate `p`; src/knn.ipp:94-111 -/
def knnPoint (index : Int) (q : Pt F) (k : Nat) (p : Int) : Prog F D Unit := do
  if p = index then pure ()
  else do
    let pt ← point .xyz p
    let pq := getDistance pt q
    let top ← gPri .hpq 0
    if dlt F (toD pq) top then do
      wrt .hid 0 (.int p)
      wrt .hpq 0 (.pri (toD pq))
      maxheapify (dlt F) k 0
    else pure ()

/-- points of a grid cell; src/knn.ipp:88-112.  `cand` handles one candidate. -/
def knnCell (cand : Int → Prog F E Unit) (cid : Int) : Prog F E Unit := do
  let offs0 ← gIntI .goff cid
  let offs1 ← gIntI .goff (cid + 1)
  forI offs0 offs1 cand

/-- one shell; src/knn.ipp:78-114 -/
def knnShell (cand : Int → Prog F E Unit) (gr px py pz r : Int) : Prog F E Unit :=
  (shellCells gr px py pz r).foldlM (fun _ c =>
    knnCell cand (gr * gr * c.2.2 + gr * c.2.1 + c.1)) ()

/-- loop over `r`; src/knn.ipp:69-121.  `stop top x` is `heap_pq[h0] < x`. -/
def knnLoop (cand : Int → Prog F E Unit) (stop : E → F → Bool) (gr px py pz : Int) (gl min : F) :
    Nat → Prog F E Unit
  | 0 => pure ()
  | n + 1 => do
    let r : Int := gr - (n + 1)
    knnShell cand gr px py pz r
    let top ← gPri .hpq 0
    if stop top (square (add (mul gl (ofInt r)) min)) then pure ()
    else knnLoop cand stop gr px py pz gl min n

/-- `knni::compute` (CPU); src/knn.ipp:22-127 -/
def knnCompute (index : Int) (k : Nat) (gr : Int) : Prog F D Unit := do
  let q ← point .ref index
  let gl : F := recip gr
  let c ← gIntI .gid index
  if gr = 0 then err .divZero
  else do
    let px := c.tmod gr
    let py := (c.tdiv gr).tmod gr
    let pz := c.tdiv (gr * gr)
    let min := min3 (wallDist gl q.x) (wallDist gl q.y) (wallDist gl q.z)
    knnLoop (knnPoint index q k) (fun top x => dlt F top (toD x)) gr px py pz gl min gr.toNat
    heapSort (dlt F) k

/-! ## boundary -/

/-- a triangle -/
def tri (j : Nat) : Prog F E Tri := do
  let a ← gU8 .T (3 * j + 0)
  let b ← gU8 .T (3 * j + 1)
  let c ← gU8 .T (3 * j + 2)
  pure ⟨a, b, c⟩

/-- write a triangle -/
def putTri (j : Nat) (t : Tri) : Prog F E Unit := do
  wrt .T (3 * j + 0) (.u8 t.a)
  wrt .T (3 * j + 1) (.u8 t.b)
  wrt .T (3 * j + 2) (.u8 t.c)

/-- exchange one entry of two triangles; `utils::swap`, src/utils.ipp -/
def swapEntry (i j : Nat) : Prog F E Unit := do
  let x ← gU8 .T i
  let y ← gU8 .T j
  wrt .T i (.u8 y)
  wrt .T j (.u8 x)

/-- exchange two triangles, entry by entry; src/cc.ipp:124-129 -/
def swapTri (i j : Nat) : Prog F E Unit := do
  swapEntry (3 * i + 0) (3 * j + 0)
  swapEntry (3 * i + 1) (3 * j + 1)
  swapEntry (3 * i + 2) (3 * j + 2)

/-- cycle of the first triangle, result `head`; src/boundary.ipp:108-114 (CPU), 246-252 (GPU) -/
def bInit (t : Tri) : Prog F E Nat := do
  wrt .dR t.a (.u8 t.b)
  wrt .dR t.b (.u8 t.c)
  wrt .dR t.c (.u8 t.a)
  pure t.c

/-- traversal of the cycle; src/boundary.ipp:129-145 (CPU), 267-283 (GPU) -/
def bWalk (cw : Nat → Nat) (first te0 te1 rsize : Nat) :
    Nat → Nat → Nat → Bool → Prog F E (Option Bool)
  | 0, _, _, _ => err .diverge
  | fuel + 1, edge, counter, hit => do
    let nxt ← gU8 .dR edge
    let hit := hit || (edge == te1 && nxt == te0)
    if edge = first then pure (some hit)
    else if counter > rsize then pure none
    else bWalk cw first te0 te1 rsize fuel nxt (cw (counter + 1)) hit

/-- one edge of the triangle; src/boundary.ipp:122-146 (CPU), 260-284 (GPU) -/
def bEdge (cw : Nat → Nat) (first te0 te1 rsize : Nat) : Prog F E (Option Bool) := do
  let edge ← gU8 .dR first
  bWalk cw first te0 te1 rsize (rsize + 3) edge 0 false

/-- inner loop of the duplicate check; src/boundary.ipp:199-203 (CPU), 338-342 (GPU) -/
def bDupInner (drsize ei : Nat) : Nat → Nat → Prog F E Bool
  | 0, _ => err .diverge
  | fuel + 1, ej =>
    if ej < drsize then do
      let vj ← gU8 .dR ej
      if vj = bUndefined then bDupInner drsize ei fuel ((ej + 1) % 256)
      else do
        let vi ← gU8 .dR ei
        if vi = vj then pure true
        else bDupInner drsize ei fuel ((ej + 1) % 256)
    else pure false

/-- outer loop of the duplicate check; src/boundary.ipp:195-220 (CPU), 333-359 (GPU) -/
def bDup (drsize : Nat) : Nat → Nat → Prog F E Bool
  | 0, _ => err .diverge
  | fuel + 1, ei =>
    if ei < drsize then do
      let vi ← gU8 .dR ei
      if vi = bUndefined then bDup drsize fuel ((ei + 1) % 256)
      else do
        let f ← bDupInner drsize ei 257 ((ei + 1) % 256)
        if f then pure true
        else bDup drsize fuel ((ei + 1) % 256)
    else pure false

/-- outcome of one iteration of the loop over `j`: local variables `head`, `j`, `swap_j` -/
inductive BNext
  | ret (s : BStatus) (head : Nat)
  | next (head j swapj : Nat)

/-- `swap_j -= 1; swap(R[j], R[swap_j])`; `off` is `t_size`; src/boundary.ipp:156-161,210-214
(CPU), 293-297,349-353 (GPU) -/
def bReject (off j swapj : Nat) : Prog F E Nat := do
  if swapj = 0 then err .oob
  else do
    swapTri (off + j) (off + (swapj - 1))
    pure (swapj - 1)

/-- body of the loop over `j`; src/boundary.ipp:117-222 (CPU), 255-361 (GPU) -/
def bBody (cw : Nat → Nat) (drsize rsize off head j swapj : Nat) : Prog F E BNext := do
  let first := head
  let t ← tri (off + j)
  let o0 ← bEdge cw first (t.get 0) (t.get 1) rsize
  match o0 with
  | none => pure (.ret .unreachable head)
  | some s0 => do
  let o1 ← bEdge cw first (t.get 1) (t.get 2) rsize
  match o1 with
  | none => pure (.ret .unreachable head)
  | some s1 => do
  let o2 ← bEdge cw first (t.get 2) (t.get 3) rsize
  match o2 with
  | none => pure (.ret .unreachable head)
  | some s2 => do
  if j = swapj then pure (.ret .unreachable head)
  else do
  let byte := vbyte s0 s1 s2
  let ns := nsharedEdges byte
  if ns = 0 then do
    let swapj ← bReject off j swapj
    pure (.next head j swapj)
  else do
  let k := sharedPosition byte
  let e0 := t.get (k + 0)
  let e1 := t.get (k + 1)
  let e2 := t.get (k + 2)
  let e3 := t.get (k + 3)
  let old0 ← gU8 .dR e0
  let old1 ← gU8 .dR e1
  let old2 ← gU8 .dR e2
  let old00 ← gU8 .dR old0
  let head ←
    if ns = 1 then do
      wrt .dR e1 (.u8 e2)
      wrt .dR e2 (.u8 e3)
      pure e2
    else if ns = 2 then do
      let h ← gU8 .dR e0
      wrt .dR h (.u8 bUndefined)
      wrt .dR e0 (.u8 e1)
      pure e0
    else pure head
  let dup ← bDup drsize 257 0
  if dup then do
    wrt .dR e0 (.u8 old0)
    wrt .dR e1 (.u8 old1)
    wrt .dR e2 (.u8 old2)
    wrt .dR old0 (.u8 old00)
    let swapj ← bReject off j swapj
    pure (.next head j swapj)
  else pure (.next head (j + 1) (cw rsize))

/-- loop over `j`; src/boundary.ipp:117-224 (CPU), 255-363 (GPU) -/
def bLoop (cw : Nat → Nat) (drsize rsize off : Nat) :
    Nat → Nat → Nat → Nat → Prog F E (BStatus × Nat)
  | 0, _, _, _ => err .diverge
  | fuel + 1, head, j, swapj =>
    if j < rsize then do
      let s ← bBody cw drsize rsize off head j swapj
      match s with
      | .ret b head => pure (b, head)
      | .next head j swapj => bLoop cw drsize rsize off fuel head j swapj
    else pure (.success, head)

/-- `boundary::compute` on the `rsize` triangles after the first `off`; status and `head`;
src/boundary.ipp:96-225 (CPU), 235-364 (GPU) -/
def bCompute (cw : Nat → Nat) (drsize rsize off : Nat) : Prog F E (BStatus × Nat) := do
  let t ← tri (off + 0)
  let head ← bInit t
  bLoop cw drsize rsize off (bFuel rsize) head 1 (cw rsize)

/-! ## cell -/

/-- a plane -/
def plane (j : Nat) : Prog F E (Plane F) := do
  let a ← gFlt .P (4 * j + 0)
  let b ← gFlt .P (4 * j + 1)
  let c ← gFlt .P (4 * j + 2)
  let d ← gFlt .P (4 * j + 3)
  pure ⟨a, b, c, d⟩

/-- write a plane; src/cc.ipp:144-147 -/
def putPlane (j : Nat) (p : Plane F) : Prog F E Unit := do
  wrt .P (4 * j + 0) (.flt p.a)
  wrt .P (4 * j + 1) (.flt p.b)
  wrt .P (4 * j + 2) (.flt p.c)
  wrt .P (4 * j + 3) (.flt p.d)

/-- writes the initial planes; src/cc.ipp:51-56 (CPU), 501-506 (GPU) -/
def putPlanes (i : Nat) : List (Plane F) → Prog F E Unit
  | [] => pure ()
  | v :: vs => do
    putPlane i v
    putPlanes (i + 1) vs

/-- writes the initial triangles; src/cc.ipp:58-62 (CPU), 508-512 (GPU) -/
def putTris (i : Nat) : List Tri → Prog F E Unit
  | [] => pure ()
  | v :: vs => do
    putTri i v
    putTris (i + 1) vs

/-- vertex of a triangle; src/cc.ipp:81-106 (CPU), 531-556 (GPU) -/
def triVertex (t : Tri) : Prog F E (Vertex F) := do
  let p0 ← plane t.a
  let p1 ← plane t.b
  let p2 ← plane t.c
  pure (intersect p0 p1 p2)

/-- loop moving cut triangles behind `t_size`; result `t_size`, `r_size`, `sradius`;
src/cc.ipp:79-134 (CPU), 529-584 (GPU) -/
def cutLoop (b : Plane F) (p : Pt F) : Nat → Nat → Nat → Nat → F → Prog F E (Nat × Nat × F)
  | 0, _, _, _, _ => err .diverge
  | fuel + 1, ti, tsize, rsize, sr =>
    if ti < tsize then do
      let t ← tri ti
      let v ← triVertex t
      let dp := dot v.x v.y v.z v.w b.a b.b b.c b.d
      let sr := srUpdate p v.x v.y v.z sr
      if lt (ofInt 0) dp then do
        swapTri ti (tsize - 1)
        cutLoop b p fuel ti (tsize - 1) (rsize + 1) sr
      else cutLoop b p fuel (ti + 1) tsize rsize sr
    else pure (tsize, rsize, sr)

/-- new triangles, `none` on overflow; src/cc.ipp:168-187 (CPU), 618-637 (GPU) -/
def emitLoop (tm first newp : Nat) : Nat → Nat → Nat → Prog F E (Option Nat)
  | 0, _, _ => err .diverge
  | fuel + 1, head, tsize =>
    if tm ≤ tsize then pure none
    else do
      let nxt ← gU8 .dR head
      putTri tsize ⟨head, nxt, newp % 256⟩
      if nxt = first then pure (some (tsize + 1))
      else emitLoop tm first newp fuel nxt (tsize + 1)

/-- `state.set_true(f)` on `states[index]` -/
def stTrue (f : Status) : Prog F E Unit := do
  let s ← gSt .state 0
  wrt .state 0 (.st (s.setTrue f))

/-- `if (state.get(f)) state.set_false(f)` -/
def stClear (f : Status) : Prog F E Unit := do
  let s ← gSt .state 0
  if s.get f then do
    let s ← gSt .state 0
    wrt .state 0 (.st (s.setFalse f))
  else pure ()

/-- end of an iteration, `true` for `break`; src/cc.ipp:193-202 (CPU), 643-652 (GPU) -/
def ccFinish (p q : Pt F) (sr : F) : Prog F E Bool := do
  stClear .error_occurred
  stClear .error_nonvalid_neighbor
  if srReached p q sr then do
    stTrue .security_radius_reached
    pure true
  else pure false

/-- clipping; `none` for an early `return`, otherwise the new `t_size`;
src/cc.ipp:136-187 (CPU), 586-637 (GPU) -/
def ccClip (cw : Nat → Nat) (a : CCArgs) (nb : Nat) (b : Plane F) (psize tsize rsize : Nat) :
    Prog F E (Option Nat) := do
  if a.pm ≤ psize then do
    stTrue .error_p_overflow
    pure none
  else do
    putPlane psize b
    wrt .dknn nb (.int (psize : Int))
    forN a.pm fun j => wrt .dR j (.u8 bUndefined)
    let (bst, head) ← bCompute cw a.pm rsize tsize
    match bst with
    | .unreachable => do
      stTrue .error_infinite_boundary
      stTrue .error_occurred
      pure none
    | .success => do
      let e ← emitLoop a.tm head psize (a.tm + 1) head tsize
      match e with
      | none => do
        stTrue .error_t_overflow
        pure none
      | some tsize => pure (some tsize)

/-- how an iteration over a neighbour ends, with `p_size`, `t_size` -/
inductive CNext
  | ret
  | brk (psize tsize : Nat)
  | next (psize tsize : Nat)

/-- `break` or next iteration -/
def CNext.of (psize tsize : Nat) (stop : Bool) : CNext :=
  if stop then .brk psize tsize else .next psize tsize

/-- one neighbour; src/cc.ipp:64-204 (CPU), 514-654 (GPU) -/
def ccStep (cw : Nat → Nat) (a : CCArgs) (p : Pt F) (nb psize tsize : Nat) :
    Prog F E CNext := do
  let qi ← gInt .hid nb
  let q ← point .xyz qi
  let b := bisect q p
  let (tsize, rsize, sr) ← cutLoop b p (2 * tsize + 1) 0 tsize 0 (ofInt 0)
  if 0 < rsize then do
    let r ← ccClip cw a nb b psize tsize rsize
    match r with
    | none => pure .ret
    | some tsize => do
      let stop ← ccFinish p q sr
      pure (CNext.of (psize + 1) tsize stop)
  else do
    stTrue .error_nonvalid_neighbor
    let stop ← ccFinish p q sr
    pure (CNext.of psize tsize stop)

/-- loop over the neighbours; final `t_size`, `none` after an early `return`;
src/cc.ipp:64-204 (CPU), 514-654 (GPU) -/
def ccLoop (cw : Nat → Nat) (a : CCArgs) (p : Pt F) :
    Nat → Nat → Nat → Prog F E (Option Nat)
  | 0, _, tsize => pure (some tsize)
  | n + 1, psize, tsize => do
    let r ← ccStep cw a p (a.k - (n + 1)) psize tsize
    match r with
    | .ret => pure none
    | .brk _ tsize => pure (some tsize)
    | .next psize tsize => ccLoop cw a p n psize tsize

/-- is plane `d` used; `brk` is the early exit of the GPU variant, `n` triangles remain;
src/cc.ipp:207-212 (CPU), 657-669 (GPU) -/
def planeUsed (brk : Bool) (tsize : Nat) (d : Int) : Nat → Bool → Prog F E Bool
  | 0, f => pure f
  | n + 1, f => do
    let t ← tri (tsize - (n + 1))
    let f := f || decide ((t.a : Int) = d) || decide ((t.b : Int) = d) || decide ((t.c : Int) = d)
    if brk && f then pure f
    else planeUsed brk tsize d n f

/-- marks neighbours without a face; src/cc.ipp:206-213 (CPU), 656-670 (GPU) -/
def markUnused (brk : Bool) (k tsize : Nat) : Prog F E Unit :=
  forN k fun di => do
    let d ← gInt .dknn di
    let u ← planeUsed brk tsize d tsize false
    if u then pure () else wrt .hid di (.int kUndefined)

/-- compaction; src/cc.ipp:215-223 (CPU), 672-680 (GPU) -/
def compact (k : Nat) : Prog F E Unit := do
  let c ← (List.range k).foldlM (fun (c : Nat) di => do
    let v ← gInt .hid di
    if v = kUndefined then pure c
    else do
      wrt .hid c (.int v)
      pure (c + 1)) 0
  forN (k - c) fun j => wrt .hid (c + j) (.int kUndefined)

/-- `cci::compute`; src/cc.ipp:1-225 (CPU), 454-682 (GPU) -/
def ccCompute (cw : Nat → Nat) (brk : Bool) (a : CCArgs) (index : Int) : Prog F E Unit := do
  if !a.fits then err .narrow
  else do
    let p ← point .ref index
    putPlanes 0 pInit
    putTris 0 tInit
    let r ← ccLoop cw a p a.k 6 8
    match r with
    | none => pure ()
    | some tsize => do
      markUnused brk a.k tsize
      compact a.k

end Prog

/-! ## CPU tasks and threads -/

/-- position in the shared buffers of the entries of task `i` for point `index`:
`heap_id[k*i+m]`, `heap_pq[k*i+m]`, `dknn[k*i+m]`, `P[4*p_maxsize*i+m]`, `T[3*t_maxsize*i+m]`,
`dR[p_maxsize*i+m]`, `states[index]`; src/knn.ipp:48, src/heap.ipp:13-66, src/cc.ipp:51-223.
`refset` is the same vector as `xyzset`; src/votess.ipp:700-713 -/
def cpuLay (a : CCArgs) (i index : Nat) : Loc → Loc
  | (.hid, m) => (.hid, a.k * i + m)
  | (.hpq, m) => (.hpq, a.k * i + m)
  | (.dknn, m) => (.dknn, a.k * i + m)
  | (.P, m) => (.P, 4 * a.pm * i + m)
  | (.T, m) => (.T, 3 * a.tm * i + m)
  | (.dR, m) => (.dR, a.pm * i + m)
  | (.state, _) => (.state, index)
  | (.ref, m) => (.xyz, m)
  | l => l

variable {F D : Type} [FP F D]

/-- one task: `knni::compute(idx, indices[idx], …)`, `cci::compute(idx, indices[idx], …)`;
src/votess.ipp:446-462,600-616 -/
def cpuTaskProg (gr : Int) (a : CCArgs) (idx : Nat) : Prog F D Unit := do
  let index ← Prog.gInt .ind idx
  (Prog.knnCompute index a.k gr).relabel (cpuLay a idx index.toNat)
  let index ← Prog.gInt .ind idx
  (Prog.ccCompute id false a index).relabel (cpuLay a idx index.toNat)

/-- the body of one thread; src/votess.ipp:446-463,600-617 -/
def cpuThreadProg (gr : Int) (a : CCArgs) (rows : List Nat) : Prog F D Unit :=
  rows.foldlM (fun _ idx => cpuTaskProg gr a idx) ()

/-- the threads of one run; src/votess.ipp:437-466,592-620 -/
def cpuThreads (gr : Int) (a : CCArgs) (nth threadsize subsize : Nat) : List (Prog F D Unit) :=
  (List.range nth).map fun i => cpuThreadProg gr a (threadRows nth threadsize subsize i)

/-! ## the shared memory as a whole -/

/-- entry `c` of a triangle -/
def Tri.ent (t : Tri) : Nat → Nat
  | 0 => t.a
  | 1 => t.b
  | _ => t.c

/-- coefficient `c` of a plane -/
def Plane.ent {F : Type} (t : Plane F) : Nat → F
  | 0 => t.a
  | 1 => t.b
  | 2 => t.c
  | _ => t.d

/-- coordinate `c` of a point -/
def Pt.ent {F : Type} (t : Pt F) : Nat → F
  | 0 => t.x
  | 1 => t.y
  | _ => t.z

/-- the shared buffers of a run as one memory: entry `x` of a buffer with rows of `w` entries is
entry `x % w` of row `x / w`; src/votess.ipp:406-415,579-585 -/
def cpuMem (a : CCArgs) (S : Sorted F) (indices : List Int) (b : Bufs F D) (states : List State) :
    Mem F D
  | (.hid, x) => b.heap[x / a.k]?.bind fun r => r[x % a.k]?.map fun e => .int e.1
  | (.hpq, x) => b.heap[x / a.k]?.bind fun r => r[x % a.k]?.map fun e => .pri e.2
  | (.dknn, x) => b.dknn[x / a.k]?.bind fun r => r[x % a.k]?.map fun e => .int e
  | (.P, x) => b.P[x / (4 * a.pm)]?.bind fun r =>
      r[x % (4 * a.pm) / 4]?.map fun e => .flt (e.ent (x % (4 * a.pm) % 4))
  | (.T, x) => b.T[x / (3 * a.tm)]?.bind fun r =>
      r[x % (3 * a.tm) / 3]?.map fun e => .u8 (e.ent (x % (3 * a.tm) % 3))
  | (.dR, x) => b.dR[x / a.pm]?.bind fun r => r[x % a.pm]?.map fun e => .u8 e
  | (.state, x) => states[x]?.map .st
  | (.xyz, x) => S.xyz[x / 3]?.map fun e => .flt (e.ent (x % 3))
  | (.ref, _) => none
  | (.gid, x) => S.id[x]?.map .int
  | (.goff, x) => S.offset[x]?.map .int
  | (.ind, x) => indices[x]?.map .int

end Votess
