import Verif.Model.Cli
import Verif.Model.Int32
/-!
# A CPU call with its `vtargs` objects and `int` sizes

`Verif.Model.Driver` hands the parameters around as numbers.  In the program they live in `vtargs`
objects, as text: `tesellate` and `__cpu__recompute` have their own copies (by-value parameters),
recompute writes the new `k`, `cc_p_maxsize` and `cc_t_maxsize` into its copy and the tasks read
them from there.  Here the objects are entries of a store, and sizes are computed in 32-bit `int`.
-/
namespace Votess

/-- the existing `vtargs` objects; an address is a position -/
abbrev Objs := List ArgMap

/-- computations with `vtargs` objects -/
abbrev CallM (α : Type) := Objs → Except Stop α × Objs

/-- return -/
def CallM.pure {α : Type} (a : α) : CallM α := fun o => (.ok a, o)

/-- sequence; an exception or undefined behaviour ends the computation -/
def CallM.bind {α β : Type} (x : CallM α) (f : α → CallM β) : CallM β := fun o =>
  match x o with
  | (.ok a, o) => f a o
  | (.error e, o) => (.error e, o)

instance : Monad CallM where
  pure := CallM.pure
  bind := CallM.bind

/-- a computation without objects -/
def CallM.lift {α : Type} (x : Except Stop α) : CallM α := fun o => (x, o)

/-- the object at an address -/
def objGet (a : Nat) : CallM ArgMap := fun o =>
  match o[a]? with
  | some m => (.ok m, o)
  | none => (.error (.ub .oob), o)

/-- `args[key] = value` on the object at an address -/
def objSet (a : Nat) (key : String) (v : Txt) : CallM Unit := fun o =>
  match o[a]? with
  | some m =>
    match m.assign key v with
    | .ok m => (.ok (), o.set a m)
    | .error e => (.error (.exn e), o)
  | none => (.error (.ub .oob), o)

/-- call of a function with a by-value `vtargs` parameter: a copy of the argument is made, and
destroyed when the function returns or throws -/
def byValue {α : Type} (arg : Nat) (f : Nat → CallM α) : CallM α := fun o =>
  match o[arg]? with
  | some m =>
    let r := f o.length (o ++ [m])
    (r.1, r.2.take o.length)
  | none => (.error (.ub .oob), o)

variable {F D : Type} [FP F D] [Inhabited F]

/-- one round of `__cpu__recompute` whose `args` is the object `obj`; src/votess.ipp:539-628 -/
def recRoundA (S : Sorted F) (nth obj : Nat) (r : RecState) : CallM RecStep := do
  let (indices, updp, updt) ← .lift (liftM (recFilter r.indices r.states))
  let states := r.states.map State.reset
  let subsize := indices.length
  if subsize = 0 then pure (.done { r with indices := indices, states := states })
  else do
    let refsize : Int := S.xyz.length
    let k ← .lift (liftM (nextK32 r.k refsize))
    let pm ← .lift (liftM (dbl32 updp r.pm))
    let tm ← .lift (liftM (dbl32 updt r.tm))
    objSet obj "k" (showInt k)
    objSet obj "cc_p_maxsize" (showInt pm)
    objSet obj "cc_t_maxsize" (showInt tm)
    let _ ← .lift (liftM (alloc32 subsize k pm tm))
    let al ← .lift (liftM (ccArgs k pm tm))
    let args ← objGet obj
    let gr ← .lift (liftE (args.int "knn_grid_resolution"))
    let ak ← .lift (liftE (args.int "k"))
    let apm ← .lift (liftE (args.int "cc_p_maxsize"))
    let atm ← .lift (liftE (args.int "cc_t_maxsize"))
    let a ← .lift (liftM (ccArgs ak apm atm))
    if nth = 0 then .lift (.error (.ub .divZero))
    else do
      let (bufs, states) ← .lift (liftM ((allRows nth (subsize / nth) subsize).foldlM
        (fun st idx => runTask S gr a indices idx st)
        ((Bufs.alloc subsize al.k al.pm al.tm : Bufs F D), states)))
      let args ← objGet obj
      let _ ← .lift (liftE (args.int "k"))
      let tmpnn ← .lift (liftM (tmpnnFill indices subsize bufs.heap r.tmpnn))
      let r := { k := k, pm := pm, tm := tm, indices := indices, tmpnn := tmpnn, states := states }
      if refsize - 1 ≤ k then pure (.done r) else pure (.next r)

/-- the `while (1)`; src/votess.ipp:538-629 -/
def recLoopA (S : Sorted F) (nth obj : Nat) : Nat → RecState → CallM RecState
  | 0, _ => .lift (.error (.ub .diverge))
  | fuel + 1, r => do
    let o ← recRoundA S nth obj r
    match o with
    | .done r => pure r
    | .next r => recLoopA S nth obj fuel r

/-- `__cpu__recompute`, its by-value `args` being the object `obj`; the buffers allocated before the
loop have sizes from the first `k`; src/votess.ipp:488-631 -/
def cpuRecomputeA (hw : Nat) (S : Sorted F) (tmpnn : List (List Int)) (states : List State)
    (obj : Nat) : CallM (List (List Int) × List State) := do
  let args ← objGet obj
  let nt ← .lift (liftE args.nthreads)
  let nth := if nt ≠ 0 then nt else hw
  let indices := ((List.range S.xyz.length).filter fun i =>
    match states[i]? with
    | some s => !s.get .security_radius_reached
    | none => false).map fun i : Nat => (i : Int)
  let k ← .lift (liftE (args.int "k"))
  let pm ← .lift (liftE (args.int "cc_p_maxsize"))
  let tm ← .lift (liftE (args.int "cc_t_maxsize"))
  let _ ← .lift (liftM (alloc32 indices.length k pm tm))
  let r ← recLoopA S nth obj (S.xyz.length + 2)
    { k := k, pm := pm, tm := tm, indices := indices, tmpnn := tmpnn, states := states }
  pure (r.tmpnn, r.states)

/-- body of `tesellate` on the CPU, its by-value `args` being the object `obj`.  The conversions of
the parameters are done together at the start, in the program each is done where it is needed;
src/votess.ipp:646-756 -/
def tesellateBody (nb hw : Nat) (xyz : List (Pt F)) (obj : Nat) : CallM (TessOut F) := do
  let args ← objGet obj
  let prm ← .lift (liftE args.params)
  let S ← .lift (liftM (xyzSort nb prm.gr xyz))
  let refsize := S.xyz.length
  let _ ← .lift (liftM (cpuSizes32 prm.useChunking prm.chunksize prm.k prm.pm prm.tm refsize))
  let (tmpnn, states) ← .lift (liftM (cpuTesellate hw prm S (List.replicate refsize [])
    (List.replicate refsize State.init)))
  let (tmpnn, states) ←
    if prm.useRecompute then byValue obj (cpuRecomputeA hw S tmpnn states) else pure (tmpnn, states)
  pure { xyz := S.xyz, dnn := getDnn tmpnn, report := report states,
         warnXyz := !validateXyzset S.xyz, warnId := !validateId S.id }

/-- `tesellate(xyz, args)` for the caller's object `caller`; src/votess.ipp:646-652 -/
def tesellateArgs (nb hw : Nat) (xyz : List (Pt F)) (caller : Nat) : CallM (TessOut F) :=
  byValue caller (tesellateBody nb hw xyz)

end Votess
