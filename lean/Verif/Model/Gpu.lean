import Verif.Model.TaskProg
/-!
# GPU kernel — `src/votess.ipp:172-358` and the device variants it calls

One work item of `__sycl__tessellate` as a program of single accesses.  Its heap operations and
its cell computation are textually those of the CPU variants apart from the memory layout, the
width of some counters (`cw`) and an early exit (`brk`), so `Verif.Model.TaskProg` is reused for
them; the neighbour search is written branch-free in the source and is modelled separately.

* Work items interleave single accesses.  The kernel contains no barrier.
* The priorities are of type `Tf` here (`Mem F F`) and the heap starts with `FP_INFINITY` (128).
* Uninitialised device memory (`bP`, `bT`, `bstates`, local memory) holds arbitrary values: the
  parameter `g` below.
* Local memory of different work groups is laid out one after the other.
* `sycl::nd_range` with a global size that is no multiple of the local size is not launched.
* The device calls are taken to succeed (no out-of-memory or asynchronous errors).
-/
namespace Votess

open FP

variable {F D : Type} [FP F D]

/-- conversion to `uint16_t` -/
def u16 (x : Int) : Int := x % 65536

/-- conversion to `uint8_t` -/
def u8 (x : Int) : Int := x % 256

/-- `!cond * a + cond * b` on `Ti`; src/knn.ipp:300 -/
def selI (cond : Bool) (a b : Int) : Int :=
  (if cond then 0 else 1) * a + (if cond then 1 else 0) * b

/-- `!cond * a + cond * b` on `Tf`; src/knn.ipp:301 -/
def selF (cond : Bool) (a b : F) : F := add (mul (ofBool !cond) a) (mul (ofBool cond) b)

namespace Prog

/-- candidate `p`; `cond * k` is the heap size; src/knn.ipp:286-302 -/
def gpuKnnPoint (index : Int) (q : Pt F) (k : Nat) (p : Int) : Prog F F Unit := do
  if p = index then pure ()
  else do
    let pt ← point .xyz p
    let pq := getDistance pt q
    let top ← gPri .hpq 0
    let cond := lt pq top
    let id0 ← gInt .hid 0
    wrt .hid 0 (.int (selI cond id0 p))
    let pq0 ← gPri .hpq 0
    wrt .hpq 0 (.pri (selF cond pq0 pq))
    maxheapify lt (if cond then k else 0) 0

/-- `knni::compute` (device, with `hoffs`); src/knn.ipp:224-318.  The begin and end of the shell
loops are converted to `uint16_t` after `bmax`/`bmin`, which does not change them
(`0 ≤ bmax(px - r, 0) ≤ px < 65536` and `0 ≤ bmin(px + r, gr - 1) < 256`). -/
def gpuKnnCompute (index : Int) (k gr : Int) : Prog F F Unit := do
  let q ← point .ref index
  let k16 := (u16 k).toNat
  let gr8 := u8 gr
  let gl : F := recip gr
  let c ← gIntI .gid index
  if gr8 = 0 then err .divZero
  else do
    let px := u16 (c.tmod gr8)
    let py := u16 ((c.tdiv gr8).tmod gr8)
    let pz := u16 (c.tdiv (gr8 * gr8))
    let min := bmin3 (wallDist gl q.x) (wallDist gl q.y) (wallDist gl q.z)
    knnLoop (gpuKnnPoint index q k16) lt gr8 px py pz gl min gr8.toNat
    heapSort lt k16

end Prog

/-- position in the device buffers of the entries of work item `i` for point `index`: `n` is
`xyzsize`, `sub` is the `subsize` of the run, passed as `hoffs`, `koffs` and `refsize`
(src/votess.ipp:313-331).  `heap_id[sub*m+i]` (src/heap.ipp:148-232), `dknn[sub*m+i]`,
`P[4*sub*j+sub*c+i]`, `T[3*t_maxsize*i+m]`, `states[index]`,
`xyzset[n*c+q]`, `refset[sub*c+q]` where `refset` is `axyzset` (src/cc.ipp:454-682,
src/knn.ipp:244-246,292-294); `dR[p_maxsize*l_i+m]` in the local memory of the work group. -/
def gpuLay (a : CCArgs) (n sub nd i index : Nat) : Loc → Loc
  | (.hid, m) => (.hid, sub * m + i)
  | (.hpq, m) => (.hpq, sub * m + i)
  | (.dknn, m) => (.dknn, sub * m + i)
  | (.P, m) => (.P, 4 * sub * (m / 4) + sub * (m % 4) + i)
  | (.T, m) => (.T, 3 * a.tm * i + m)
  | (.dR, m) => (.dR, a.pm * nd * (i / nd) + (a.pm * (i % nd) + m))
  | (.state, _) => (.state, index)
  | (.xyz, m) => (.xyz, n * (m % 3) + m / 3)
  | (.ref, m) => (.xyz, sub * (m % 3) + m / 3)
  | l => l

/-- one work item; src/votess.ipp:310-331 -/
def gpuItem (gr : Int) (a : CCArgs) (n sub nd i : Nat) : Prog F F Unit := do
  let index ← Prog.gInt .ind i
  (Prog.gpuKnnCompute index a.k gr).relabel (gpuLay a n sub nd i index.toNat)
  let index ← Prog.gInt .ind i
  (Prog.ccCompute (· % 256) true a index).relabel (gpuLay a n sub nd i index.toNat)

/-- the work items of one launch; src/votess.ipp:306-334 -/
def gpuItems (gr : Int) (a : CCArgs) (n sub nd : Nat) : List (Prog F F Unit) :=
  (List.range sub).map (gpuItem gr a n sub nd)

/-- may `nd_range(subsize, ndsize)` be launched; src/votess.ipp:195-196,306-307 -/
def gpuLaunch (sub nd : Nat) : Bool := decide (0 < nd) && decide (sub % nd = 0)

/-- contents of device memory that the host does not initialise -/
structure Garbage (F : Type) where
  P : Nat → F
  T : Nat → Nat
  dR : Nat → Nat
  st : Nat → State

/-- the value if in range -/
def inRange {α : Type} (x n : Nat) (v : α) : Option α := if x < n then some v else none

/-- device memory when the kernel of a run starts, after the four fill kernels; `cap` is the
`subsize` the buffers were allocated for, `cstart` the first point of the run;
src/votess.ipp:209-214,223-275.  `xyzset` is stored coordinate by coordinate. -/
def gpuStart (a : CCArgs) (S : Sorted F) (cap sub cstart : Nat) (g : Garbage F) : Mem F F
  | (.hid, x) => inRange x (cap * a.k) (.int 0)
  | (.hpq, x) => inRange x (cap * a.k) (.pri (ofInt 128))
  | (.dknn, x) => inRange x (cap * a.k) (.int kUndefined)
  | (.P, x) => inRange x (cap * a.pm * 4) (.flt (g.P x))
  | (.T, x) => inRange x (cap * a.tm * 3) (.u8 (g.T x))
  | (.dR, x) => inRange x (sub * a.pm) (.u8 (g.dR x))
  | (.state, x) => inRange x S.xyz.length (.st (g.st x))
  | (.xyz, x) => if x < 3 * S.xyz.length then
      S.xyz[x % S.xyz.length]?.map fun p => .flt (p.ent (x / S.xyz.length)) else none
  | (.ref, _) => none
  | (.gid, x) => S.id[x]?.map .int
  | (.goff, x) => S.offset[x]?.map .int
  | (.ind, x) => inRange x cap (.int ((cstart + x : Nat) : Int))

/-- an integer of the device memory as the host sees it -/
def hostInt (m : Mem F F) (l : Loc) : Int :=
  match m l with
  | some (.int v) => v
  | _ => 0

/-- a status byte of the device memory as the host sees it -/
def hostSt (m : Mem F F) (l : Loc) : State :=
  match m l with
  | some (.st v) => v
  | _ => .init

/-- the rows of `knn` on the host, transposed from `bheap_id`; src/votess.ipp:345-351 -/
def gpuRows (k sub : Nat) (m : Mem F F) : List (List (Int × F)) :=
  (List.range sub).map fun si => (List.range k).map fun ki =>
    (hostInt m (.hid, sub * ki + si), ofInt 0)

/-- what the host does after the kernel of a run: `states`, then `tmpnn_fill`;
src/votess.ipp:338-353 -/
def gpuHost (k n cap sub : Nat) (m : Mem F F) (tmpnn : List (List Int)) :
    M (List (List Int) × List State) := do
  let indices := (List.range cap).map fun x => hostInt m (.ind, x)
  let states := (List.range n).map fun x => hostSt m (.state, x)
  let tmpnn ← tmpnnFill indices sub (gpuRows k sub m) tmpnn
  pure (tmpnn, states)

/-- One run: from the neighbour table of the host before it to table and status bytes after it,
for some contents of uninitialised memory and some order of the accesses of the work items;
src/votess.ipp:237-355 -/
def GpuRun (gr : Int) (a : CCArgs) (S : Sorted F) (nd cap nruns : Nat) (chunksize : Int) (run : Nat)
    (tmpnn : List (List Int)) (out : List (List Int) × List State) : Prop :=
  let cstart := chunkStart chunksize run
  let sub := chunkEnd S.xyz.length nruns chunksize run - cstart
  gpuLaunch sub nd = true ∧ ∃ g n t,
    Steps n ⟨gpuStart a S cap sub cstart g, gpuItems gr a S.xyz.length sub nd⟩ t ∧ t.Done ∧
      gpuHost a.k S.xyz.length cap sub t.mem tmpnn = .ok out

/-- the runs up to number `r` -/
inductive GpuRuns (gr : Int) (a : CCArgs) (S : Sorted F) (nd cap nruns : Nat) (chunksize : Int) :
    Nat → List (List Int) × List State → List (List Int) × List State → Prop
  | zero (s : List (List Int) × List State) : GpuRuns gr a S nd cap nruns chunksize 0 s s
  | succ {r : Nat} {s s1 s2 : List (List Int) × List State} :
      GpuRuns gr a S nd cap nruns chunksize r s s1 →
      GpuRun gr a S nd cap nruns chunksize r s1.1 s2 →
      GpuRuns gr a S nd cap nruns chunksize (r + 1) s s2

/-- `__gpu__tesellate`, as a relation between its arguments and results; `ndsize` is the
parameter `gpu_ndsize`; src/votess.ipp:172-358 -/
def GpuTesellate (ndsize : Int) (prm : Params) (S : Sorted F) (tmpnn : List (List Int))
    (states : List State) (out : List (List Int) × List State) : Prop :=
  let nd := if 0 < ndsize then ndsize.toNat else 1
  let refsize := S.xyz.length
  let chunksize : Int := if prm.useChunking then prm.chunksize else refsize + 1
  let nruns := chunkRuns refsize chunksize
  let cap := chunkRows refsize chunksize
  ∃ a, ccArgs prm.k prm.pm prm.tm = .ok a ∧
    GpuRuns prm.gr a S nd cap nruns chunksize nruns (tmpnn, states) out

/-- `tesellate<Ti,Tf>` with `device::gpu`, as a relation between arguments and observable results;
`found` is `device_found()`; src/votess.ipp:646-756 -/
def TesellateGpu [Inhabited F] (nb hw : Nat) (ndsize : Int) (found : Bool) (prm : Params)
    (xyz : List (Pt F)) (out : TessOut F) : Prop :=
  ∃ S tmpnn states tmpnn' states', xyzSort nb prm.gr xyz = .ok S ∧
    (if found = true then
      GpuTesellate ndsize prm S (List.replicate S.xyz.length [])
        (List.replicate S.xyz.length State.init) (tmpnn, states)
    else cpuTesellate hw prm S (List.replicate S.xyz.length [])
        (List.replicate S.xyz.length State.init) = .ok (tmpnn, states)) ∧
    (if prm.useRecompute = true then cpuRecompute hw prm S tmpnn states = .ok (tmpnn', states')
    else tmpnn' = tmpnn ∧ states' = states) ∧
    out = { xyz := S.xyz, dnn := getDnn tmpnn', report := report states',
            warnXyz := !validateXyzset S.xyz, warnId := !validateId S.id }

end Votess
