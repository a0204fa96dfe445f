import Verif.Model.CC
import Verif.Model.Knn
import Verif.Model.Dnn
/-!
# CPU tessellation driver — `src/votess.ipp`

The threads of one run are executed here one after the other, each its tasks in order.
`Verif.Model.TaskProg` has the same tasks access by access and `Verif.Props.Conc` shows that every
other schedule does the same.  Work buffers are lists of rows.
Integers are unbounded; see C51 for the sizes for which the `int` arithmetic is exact.
-/
namespace Votess

open FP

variable {F D : Type} [FP F D] [Inhabited F]

/-- the parameters of `tesellate` after conversion from `vtargs` (include/arguments.hpp) -/
structure Params where
  k : Int
  gr : Int
  pm : Int
  tm : Int
  nthreads : Nat
  chunksize : Int
  useChunking : Bool
  useRecompute : Bool
  deriving DecidableEq, Repr

/-- rows of the work buffers; src/votess.ipp:406-415 -/
structure Bufs (F D : Type) where
  heap : List (List (Int × D))
  dknn : List (List Int)
  P : List (List (Plane F))
  T : List (List Tri)
  dR : List (List Nat)

/-- freshly allocated (zeroed) buffers for `rows` tasks; src/votess.ipp:408-415,579-585 -/
def Bufs.alloc (rows k pm tm : Nat) : Bufs F D where
  heap := List.replicate rows (List.replicate k (0, dinf F))
  dknn := List.replicate rows (List.replicate k kUndefined)
  P := List.replicate rows (List.replicate pm ⟨ofInt 0, ofInt 0, ofInt 0, ofInt 0⟩)
  T := List.replicate rows (List.replicate tm ⟨0, 0, 0⟩)
  dR := List.replicate rows (List.replicate pm 0)

/-- the three `std::fill`s at the start of a run; src/votess.ipp:419-422 -/
def Bufs.refill (b : Bufs F D) : Bufs F D :=
  { b with
    heap := b.heap.map fun r => r.map fun _ => (0, dinf F)
    dknn := b.dknn.map fun r => r.map fun _ => kUndefined }

/-- one task: `knni::compute` then `cci::compute` for row `idx`;
src/votess.ipp:446-462,600-616 -/
def runTask (S : Sorted F) (gr : Int) (a : CCArgs) (indices : List Int) (idx : Nat)
    (st : Bufs F D × List State) : M (Bufs F D × List State) := do
  let index ← rd indices idx
  let row ← rd st.1.heap idx
  let row ← knnCompute S.xyz S.id S.offset index a.k gr row
  let state ← rdI st.2 index
  let P ← rd st.1.P idx
  let T ← rd st.1.T idx
  let dR ← rd st.1.dR idx
  let dknn ← rd st.1.dknn idx
  let o ← ccCompute a S.xyz index state P T dR (row.map (·.1)) dknn
  let heap ← wr st.1.heap idx (o.knn.zip (row.map (·.2)))
  let dknn ← wr st.1.dknn idx o.s.dknn
  let P ← wr st.1.P idx o.s.P
  let T ← wr st.1.T idx o.s.T
  let dR ← wr st.1.dR idx o.s.dR
  let states ← wrI st.2 index o.s.state
  pure ({ heap := heap, dknn := dknn, P := P, T := T, dR := dR }, states)

/-- rows handled by thread `i`; src/votess.ipp:440-445,595-599 -/
def threadRows (nth threadsize subsize i : Nat) : List Nat :=
  let tstart := i * threadsize
  let tend := if i ≠ nth - 1 then tstart + threadsize else subsize
  (List.range (tend - tstart)).map (tstart + ·)

/-- all rows handled by all threads, thread by thread; src/votess.ipp:437-467,592-621 -/
def allRows (nth threadsize subsize : Nat) : List Nat :=
  (List.range nth).flatMap (threadRows nth threadsize subsize)

/-- row copied by `tmpnn_fill`; src/votess.ipp:112-130 -/
def tmpnnRow (knn : List Int) : List Int := knn.takeWhile fun v => v ≠ kUndefined

/-- `tmpnn_fill`; src/votess.ipp:100-134 -/
def tmpnnFill (indices : List Int) (size : Nat) (heap : List (List (Int × D)))
    (tmpnn : List (List Int)) : M (List (List Int)) :=
  forN size (fun i tmpnn => do
    let index ← rd indices i
    let row ← rd heap i
    wrI tmpnn index (tmpnnRow (row.map (·.1)))) tmpnn

/-- variables living across runs of `__cpu__tesellate` -/
structure RunState (F D : Type) where
  bufs : Bufs F D
  states : List State
  indices : List Int
  tmpnn : List (List Int)
  subsize : Nat

/-- number of runs; src/votess.ipp:390-392 -/
def chunkRuns (refsize : Nat) (chunksize : Int) : Nat :=
  if 0 < chunksize && chunksize < refsize then refsize / chunksize.toNat + 1 else 1

/-- rows of the work buffers; src/votess.ipp:394-396 -/
def chunkRows (refsize : Nat) (chunksize : Int) : Nat :=
  if 0 < chunksize && chunksize < refsize then chunksize.toNat else refsize

/-- first point of a run; src/votess.ipp:426 -/
def chunkStart (chunksize : Int) (run : Nat) : Nat := ((run : Int) * chunksize).toNat

/-- end of a run; src/votess.ipp:427 -/
def chunkEnd (refsize nruns : Nat) (chunksize : Int) (run : Nat) : Nat :=
  if run = nruns - 1 then refsize else (chunkStart chunksize run + chunksize).toNat

/-- one run; src/votess.ipp:417-471.  `threadsize` uses the `subsize` of the previous run. -/
def cpuRun (S : Sorted F) (gr : Int) (a : CCArgs) (nth nruns : Nat) (chunksize : Int)
    (run : Nat) (r : RunState F D) : M (RunState F D) := do
  let bufs := r.bufs.refill
  if nth = 0 then .error .divZero
  else do
    let threadsize := r.subsize / nth
    let cstart := chunkStart chunksize run
    let cend := chunkEnd S.xyz.length nruns chunksize run
    let subsize := cend - cstart
    let indices ← forN subsize (fun i ind => wr ind i ((cstart + i : Nat) : Int)) r.indices
    let (bufs, states) ← (allRows nth threadsize subsize).foldlM
      (fun st idx => runTask S gr a indices idx st) (bufs, r.states)
    let tmpnn ← tmpnnFill indices subsize bufs.heap r.tmpnn
    pure { bufs := bufs, states := states, indices := indices, tmpnn := tmpnn,
           subsize := subsize }

/-- conversion of the buffer sizes; negative values throw in the vector constructors and
are reported as `narrow`; src/votess.ipp:402-404 -/
def ccArgs (k pm tm : Int) : M CCArgs :=
  if 0 ≤ k ∧ 0 ≤ pm ∧ 0 ≤ tm then .ok ⟨k.toNat, pm.toNat, tm.toNat⟩ else .error .narrow

/-- `__cpu__tesellate`; src/votess.ipp:364-473.  `hw` is
`std::thread::hardware_concurrency()`. -/
def cpuTesellate (hw : Nat) (prm : Params) (S : Sorted F) (tmpnn : List (List Int))
    (states : List State) : M (List (List Int) × List State) := do
  let refsize := S.xyz.length
  let nth := if prm.nthreads ≠ 0 then prm.nthreads else hw
  let chunksize : Int := if prm.useChunking then prm.chunksize else refsize + 1
  let nruns := chunkRuns refsize chunksize
  let subsize := chunkRows refsize chunksize
  let a ← ccArgs prm.k prm.pm prm.tm
  let r ← forN nruns (cpuRun S prm.gr a nth nruns chunksize)
    { bufs := Bufs.alloc subsize a.k a.pm a.tm, states := states,
      indices := List.replicate subsize 0, tmpnn := tmpnn, subsize := subsize }
  pure (r.tmpnn, r.states)

/-- first part of a round of recompute: keep the indices that are not done, note
overflows; src/votess.ipp:540-555 -/
def recFilter (indices : List Int) (states : List State) : M (List Int × Bool × Bool) :=
  indices.foldlM (fun (acc : List Int × Bool × Bool) index => do
    let s ← rdI states index
    pure (if s.get .security_radius_reached then acc.1 else acc.1 ++ [index],
          acc.2.1 || s.get .error_p_overflow, acc.2.2 || s.get .error_t_overflow)) ([], false, false)

/-- variables living across the rounds of `__cpu__recompute`; `indices` are the first `subsize`
entries; src/votess.ipp:511-528 -/
structure RecState where
  k : Int
  pm : Int
  tm : Int
  indices : List Int
  tmpnn : List (List Int)
  states : List State
  deriving DecidableEq, Repr

/-- how a round ends -/
inductive RecStep
  /-- `break` -/
  | done (r : RecState)
  /-- another round -/
  | next (r : RecState)
  deriving DecidableEq, Repr

/-- one round of the `while (1)` of `__cpu__recompute`; the buffers are cleared and resized;
src/votess.ipp:539-628 -/
def recRound (S : Sorted F) (gr : Int) (nth : Nat) (r : RecState) : M RecStep := do
  let (indices, updp, updt) ← recFilter r.indices r.states
  let states := r.states.map State.reset
  let subsize := indices.length
  if subsize = 0 then pure (.done { r with indices := indices, states := states })
  else do
    let refsize : Int := S.xyz.length
    let k := if refsize - 1 < r.k * 2 then refsize - 1 else r.k * 2
    let pm := if updp then r.pm * 2 else r.pm
    let tm := if updt then r.tm * 2 else r.tm
    let a ← ccArgs k pm tm
    if nth = 0 then .error .divZero
    else do
      let (bufs, states) ← (allRows nth (subsize / nth) subsize).foldlM
        (fun st idx => runTask S gr a indices idx st)
        ((Bufs.alloc subsize a.k a.pm a.tm : Bufs F D), states)
      let tmpnn ← tmpnnFill indices subsize bufs.heap r.tmpnn
      let r := { k := k, pm := pm, tm := tm, indices := indices, tmpnn := tmpnn, states := states }
      if refsize - 1 ≤ k then pure (.done r) else pure (.next r)

/-- the `while (1)` of `__cpu__recompute`; src/votess.ipp:538-629 -/
def recLoop (S : Sorted F) (gr : Int) (nth : Nat) : Nat → RecState → M RecState
  | 0, _ => .error .diverge
  | fuel + 1, r => do
    let o ← recRound S gr nth r
    match o with
    | .done r => pure r
    | .next r => recLoop S gr nth fuel r

/-- `__cpu__recompute`; src/votess.ipp:488-631.  `refsize + 2` rounds are enough because
`k` doubles (C35). -/
def cpuRecompute (hw : Nat) (prm : Params) (S : Sorted F) (tmpnn : List (List Int))
    (states : List State) : M (List (List Int) × List State) := do
  let nth := if prm.nthreads ≠ 0 then prm.nthreads else hw
  let indices := ((List.range S.xyz.length).filter fun i =>
    match states[i]? with
    | some s => !s.get .security_radius_reached
    | none => false).map fun i : Nat => (i : Int)
  let r ← recLoop S prm.gr nth (S.xyz.length + 2)
    { k := prm.k, pm := prm.pm, tm := prm.tm, indices := indices, tmpnn := tmpnn, states := states }
  pure (r.tmpnn, r.states)

/-- counters printed at the end; src/votess.ipp:727-743 -/
structure Report where
  srNotReached : Nat
  infBoundary : Nat
  nvalidVertices : Nat
  nvalidNeighbor : Nat
  pOverflow : Nat
  tOverflow : Nat
  error : Nat
  deriving DecidableEq, Repr

/-- the counting loop; src/votess.ipp:735-743 -/
def report (states : List State) : Report where
  srNotReached := states.countP fun s => !s.get .security_radius_reached
  infBoundary := states.countP fun s => s.get .error_infinite_boundary
  nvalidVertices := states.countP fun s => s.get .error_nonvalid_vertices
  nvalidNeighbor := states.countP fun s => s.get .error_nonvalid_neighbor
  pOverflow := states.countP fun s => s.get .error_p_overflow
  tOverflow := states.countP fun s => s.get .error_t_overflow
  error := states.countP fun s => s.get .error_occurred

/-- everything observable from one call of `tesellate` -/
structure TessOut (F : Type) where
  /-- the caller's point vector after the call -/
  xyz : List (Pt F)
  dnn : Dnn
  report : Report
  /-- `oops1`, `oops2` on stderr -/
  warnXyz : Bool
  warnId : Bool
  deriving DecidableEq, Repr

/-- `tesellate<Ti,Tf>` on the CPU device, `sizeof(Ti) = nb`; src/votess.ipp:646-756 -/
def tesellateCpu (nb hw : Nat) (prm : Params) (xyz : List (Pt F)) : M (TessOut F) := do
  let S ← xyzSort nb prm.gr xyz
  let refsize := S.xyz.length
  let tmpnn := List.replicate refsize []
  let states := List.replicate refsize State.init
  let (tmpnn, states) ← cpuTesellate hw prm S tmpnn states
  let (tmpnn, states) ←
    if prm.useRecompute then cpuRecompute hw prm S tmpnn states else pure (tmpnn, states)
  pure { xyz := S.xyz, dnn := getDnn tmpnn, report := report states,
         warnXyz := !validateXyzset S.xyz, warnId := !validateId S.id }

end Votess
