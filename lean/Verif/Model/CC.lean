import Verif.Model.Boundary
import Verif.Model.Planes
import Verif.Model.Status
/-!
# Convex cell by half-space clipping — `src/cc.ipp` (CPU variant, lines 1-225)

Buffers are the rows owned by the task: `P` (`p_maxsize` planes), `T` (`t_maxsize`
triangles), `dR` (`p_maxsize` entries), `knn`, `dknn` (`k` entries).  They are parameters
of the model because they still hold data of earlier tasks.
Parameter ranges (see `CCArgs.ok`): conversions to `unsigned short` and `short` must be exact.
-/
namespace Votess

open FP

variable {F D : Type} [FP F D]

/-- `p_init`; src/cc.ipp:21-25 -/
def pInit : List (Plane F) :=
  [⟨ofInt 1, ofInt 0, ofInt 0, ofInt 0⟩, ⟨ofInt (-1), ofInt 0, ofInt 0, ofInt 1⟩,
   ⟨ofInt 0, ofInt 1, ofInt 0, ofInt 0⟩, ⟨ofInt 0, ofInt (-1), ofInt 0, ofInt 1⟩,
   ⟨ofInt 0, ofInt 0, ofInt 1, ofInt 0⟩, ⟨ofInt 0, ofInt 0, ofInt (-1), ofInt 1⟩]

/-- `t_init`; src/cc.ipp:26-29 -/
def tInit : List Tri :=
  [⟨2,5,0⟩, ⟨5,3,0⟩, ⟨1,5,2⟩, ⟨5,1,3⟩, ⟨4,2,0⟩, ⟨4,0,3⟩, ⟨2,4,1⟩, ⟨4,3,1⟩]

/-- `struct args::cc`; include/arguments.hpp:64-70 -/
structure CCArgs where
  k : Nat
  pm : Nat
  tm : Nat
  deriving DecidableEq, Repr

/-- the values survive the conversions to `unsigned short` (`k`, `p_maxsize`, `t_maxsize`)
and `short` (`t_index`); src/cc.ipp:34-36,79 -/
def CCArgs.fits (a : CCArgs) : Bool := a.k < 65536 && a.pm < 65536 && a.tm < 32768

/-- writes a list to the start of a buffer; src/cc.ipp:51-62 -/
def wrAll {α : Type} (a : List α) (i : Nat) : List α → M (List α)
  | [] => pure a
  | v :: vs => do
    let a ← wr a i v
    wrAll a (i + 1) vs

/-- `planes::intersect` of the three planes of a triangle; src/cc.ipp:81-106 -/
def triVertex (P : List (Plane F)) (t : Tri) : M (Vertex F) := do
  let p0 ← rd P t.a
  let p1 ← rd P t.b
  let p2 ← rd P t.c
  pure (intersect p0 p1 p2)

/-- loop moving the triangles cut by `b` behind `t_size`; src/cc.ipp:79-134.
State: `t_index`, `T`, `t_size`, `r_size`, `sradius`. -/
def cutLoop (P : List (Plane F)) (b : Plane F) (p : Pt F) :
    Nat → Nat → List Tri → Nat → Nat → F → M (List Tri × Nat × Nat × F)
  | 0, _, _, _, _, _ => .error .diverge
  | fuel + 1, ti, T, tsize, rsize, sr =>
    if ti < tsize then do
      let t ← rd T ti
      let v ← triVertex P t
      let dp := dot v.x v.y v.z v.w b.a b.b b.c b.d
      let sr := srUpdate p v.x v.y v.z sr
      if lt (ofInt 0) dp then do
        let T ← swp T ti (tsize - 1)
        cutLoop P b p fuel ti T (tsize - 1) (rsize + 1) sr
      else cutLoop P b p fuel (ti + 1) T tsize rsize sr
    else pure (T, tsize, rsize, sr)

/-- outcome of the loop writing the new triangles -/
inductive EmitOut
  | done (T : List Tri) (tsize : Nat)
  | overflow (T : List Tri)
  deriving DecidableEq, Repr

/-- one new triangle per boundary edge; src/cc.ipp:168-187.  The plane number is converted to
`Tu = uint8_t` when it is stored. -/
def emitLoop (dR : List Nat) (tm first newp : Nat) :
    Nat → Nat → List Tri → Nat → M EmitOut
  | 0, _, _, _ => .error .diverge
  | fuel + 1, head, T, tsize =>
    if tm ≤ tsize then pure (.overflow T)
    else do
      let nxt ← rd dR head
      let T ← wr T tsize ⟨head, nxt, newp % 256⟩
      if nxt = first then pure (.done T (tsize + 1))
      else emitLoop dR tm first newp fuel nxt T (tsize + 1)

/-- mutable variables of `cci::compute` -/
structure CCState (F : Type) where
  state : State
  P : List (Plane F)
  T : List Tri
  dR : List Nat
  dknn : List Int
  psize : Nat
  tsize : Nat
  deriving DecidableEq, Repr

/-- how one iteration over a neighbour ends -/
inductive CCStep (F : Type)
  /-- `return` -/
  | ret (s : CCState F)
  /-- `break` -/
  | brk (s : CCState F)
  /-- next iteration -/
  | next (s : CCState F)
  deriving DecidableEq, Repr

/-- end of an iteration: flags and the security radius test; src/cc.ipp:193-202 -/
def ccFinish (p q : Pt F) (sr : F) (s : CCState F) : CCStep F :=
  let st := s.state
  let st := if st.get .error_occurred then st.setFalse .error_occurred else st
  let st := if st.get .error_nonvalid_neighbor then st.setFalse .error_nonvalid_neighbor else st
  if srReached p q sr then .brk { s with state := st.setTrue .security_radius_reached }
  else .next { s with state := st }

/-- clipping by one neighbour that removes vertices; src/cc.ipp:136-187.
`T` and `tsize` are the results of `cutLoop`; `inl` is an early `return`. -/
def ccClip (a : CCArgs) (nb : Nat) (b : Plane F) (T : List Tri) (tsize rsize : Nat)
    (s : CCState F) : M (CCState F ⊕ CCState F) := do
  if a.pm ≤ s.psize then
    pure (.inl { s with T := T, tsize := tsize, state := s.state.setTrue .error_p_overflow })
  else do
    let P ← wr s.P s.psize b
    let dknn ← wr s.dknn nb (s.psize : Int)
    let dR ← forN a.pm (fun j dR => wr dR j bUndefined) s.dR
    let (bst, br) ← bCompute dR a.pm (T.drop tsize) rsize
    let T := T.take tsize ++ br.R
    let s := { s with P := P, dknn := dknn, psize := s.psize + 1, T := T, dR := br.cycle,
                      tsize := tsize }
    match bst with
    | .unreachable =>
      pure (.inl { s with state := (s.state.setTrue .error_infinite_boundary).setTrue
                                      .error_occurred })
    | .success => do
      let e ← emitLoop br.cycle a.tm br.head (s.psize - 1) (a.tm + 1) br.head T tsize
      match e with
      | .overflow T => pure (.inl { s with T := T, state := s.state.setTrue .error_t_overflow })
      | .done T tsize => pure (.inr { s with T := T, tsize := tsize })

/-- one iteration of the loop over the neighbours; src/cc.ipp:64-204 -/
def ccStep (a : CCArgs) (xyz : List (Pt F)) (knn : List Int) (p : Pt F) (nb : Nat)
    (s : CCState F) : M (CCStep F) := do
  let qi ← rd knn nb
  let q ← rdI xyz qi
  let b := bisect q p
  let (T, tsize, rsize, sr) ← cutLoop s.P b p (2 * s.tsize + 1) 0 s.T s.tsize 0 (ofInt 0)
  if 0 < rsize then do
    let r ← ccClip a nb b T tsize rsize s
    match r with
    | .inl s => pure (.ret s)
    | .inr s => pure (ccFinish p q sr s)
  else
    pure (ccFinish p q sr { s with T := T, tsize := tsize,
                                   state := s.state.setTrue .error_nonvalid_neighbor })

/-- the loop over the neighbours; the flag is `true` unless the function returned early;
`n` iterations remain, `nb = k - n`; src/cc.ipp:64-204 -/
def ccLoop (a : CCArgs) (xyz : List (Pt F)) (knn : List Int) (p : Pt F) :
    Nat → CCState F → M (Bool × CCState F)
  | 0, s => pure (true, s)
  | n + 1, s => do
    let r ← ccStep a xyz knn p (a.k - (n + 1)) s
    match r with
    | .ret s => pure (false, s)
    | .brk s => pure (true, s)
    | .next s => ccLoop a xyz knn p n s

/-- does plane number `d` occur in one of the first `tsize` triangles; src/cc.ipp:207-212 -/
def planeUsed (T : List Tri) (tsize : Nat) (d : Int) : M Bool :=
  forN tsize (fun ti f => do
    let t ← rd T ti
    pure (f || decide ((t.a : Int) = d) || decide ((t.b : Int) = d) || decide ((t.c : Int) = d)))
    false

/-- marks neighbours without a face; src/cc.ipp:206-213 -/
def markUnused (k : Nat) (T : List Tri) (tsize : Nat) (dknn knn : List Int) : M (List Int) :=
  forN k (fun di knn => do
    let d ← rd dknn di
    let u ← planeUsed T tsize d
    if u then pure knn else wr knn di kUndefined) knn

/-- in-place compaction; src/cc.ipp:215-223 -/
def compact (k : Nat) (knn : List Int) : M (List Int) := do
  let (knn, c) ← forN k (fun di (st : List Int × Nat) => do
    let v ← rd st.1 di
    if v = kUndefined then pure st
    else do
      let l ← wr st.1 st.2 v
      pure (l, st.2 + 1)) (knn, 0)
  forN (k - c) (fun j knn => wr knn (c + j) kUndefined) knn

/-- result of `cci::compute`: the written rows, plus the final local variables (ghost) -/
structure CCOut (F : Type) where
  knn : List Int
  s : CCState F
  deriving DecidableEq, Repr

/-- initial state: constants are written into the (stale) rows; src/cc.ipp:31-62 -/
def ccInit (st : State) (P : List (Plane F)) (T : List Tri) (dR : List Nat) (dknn : List Int) :
    M (CCState F) := do
  let P ← wrAll P 0 pInit
  let T ← wrAll T 0 tInit
  pure { state := st, P := P, T := T, dR := dR, dknn := dknn, psize := 6, tsize := 8 }

/-- `cci::compute` (CPU) for the point `index`; src/cc.ipp:1-225 -/
def ccCompute (a : CCArgs) (xyz : List (Pt F)) (index : Int) (st : State)
    (P : List (Plane F)) (T : List Tri) (dR : List Nat) (knn dknn : List Int) :
    M (CCOut F) := do
  if !a.fits then .error .narrow
  else do
    let p ← rdI xyz index
    let s ← ccInit st P T dR dknn
    let (fin, s) ← ccLoop a xyz knn p a.k s
    if fin then do
      let knn ← markUnused a.k s.T s.tsize s.dknn knn
      let knn ← compact a.k knn
      pure { knn := knn, s := s }
    else pure { knn := knn, s := s }

end Votess
