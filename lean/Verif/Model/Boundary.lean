import Verif.Model.Basic
/-!
# Boundary of a set of dual triangles — `src/boundary.ipp` (CPU variant, lines 96-225)

`cycle` is the row of `dR` owned by the task (`dr_size = p_maxsize` entries, starting
at `dr_offs`), `R` the `r_size` triangles starting at `r_offs`.  An access outside the
row is reported as `UB.oob` even if it would hit a neighbouring row.
Entries are `uint8_t`, so they are `< 256`.
-/
namespace Votess

/-- `boundary::bstatus::undefined`; include/boundary.hpp -/
def bUndefined : Nat := 255

/-- `boundary::bstatus` as returned by `compute` -/
inductive BStatus
  | success
  | unreachable
  deriving DecidableEq, Repr

/-- `(m + i) % 3`-th entry of a triangle -/
def Tri.get (t : Tri) (i : Nat) : Nat :=
  match i % 3 with
  | 0 => t.a
  | 1 => t.b
  | _ => t.c

/-- `vstatus::set_true(k)` for the three flags; src/boundary.ipp:19-22 -/
def vbyte (s0 s1 s2 : Bool) : Nat :=
  (if s0 then 1 else 0) + (if s1 then 2 else 0) + (if s2 then 4 else 0)

/-- `vstatus::get_nshared_edges`; src/boundary.ipp:35-48 -/
def nsharedEdges : Nat → Nat
  | 0 => 0
  | 1 => 1
  | 2 => 1
  | 3 => 2
  | 4 => 1
  | 5 => 2
  | 6 => 2
  | 7 => 3
  | _ => 0

/-- `vstatus::get_shared_position`; src/boundary.ipp:72-85 -/
def sharedPosition : Nat → Nat
  | 0 => 255
  | 1 => 0
  | 2 => 1
  | 3 => 2
  | 4 => 2
  | 5 => 1
  | 6 => 0
  | 7 => 255
  | _ => 255

/-- first loop: the cycle of the first triangle, and `head`; src/boundary.ipp:108-114 -/
def bInit (cycle : List Nat) (t : Tri) : M (List Nat × Nat) := do
  let cycle ← wr cycle t.a t.b
  let cycle ← wr cycle t.b t.c
  let cycle ← wr cycle t.c t.a
  pure (cycle, t.c)

/-- the `while (true)` traversal looking for the edge `(te1, te0)`; `none` is
`return bstatus::unreachable`; `cw` is the conversion done when `counter` is stored
(identity for `Ti`); src/boundary.ipp:129-145 -/
def bWalk (cw : Nat → Nat) (cycle : List Nat) (first te0 te1 rsize : Nat) :
    Nat → Nat → Nat → Bool → M (Option Bool)
  | 0, _, _, _ => .error .diverge
  | fuel + 1, edge, counter, hit => do
    let nxt ← rd cycle edge
    let hit := hit || (edge == te1 && nxt == te0)
    if edge = first then pure (some hit)
    else if counter > rsize then pure none
    else bWalk cw cycle first te0 te1 rsize fuel nxt (cw (counter + 1)) hit

/-- one value of `k` of the loop over the edges of triangle `j`; src/boundary.ipp:122-146.
Afterwards `head == first`. -/
def bEdge (cw : Nat → Nat) (cycle : List Nat) (first te0 te1 rsize : Nat) : M (Option Bool) := do
  let edge ← rd cycle first
  bWalk cw cycle first te0 te1 rsize (rsize + 3) edge 0 false

/-- inner loop of the duplicate check, `edge_j` is a `uint8_t` and wraps;
`true` when an equal entry is found; src/boundary.ipp:199-203 -/
def bDupInner (cycle : List Nat) (drsize ei : Nat) : Nat → Nat → M Bool
  | 0, _ => .error .diverge
  | fuel + 1, ej =>
    if ej < drsize then do
      let vj ← rd cycle ej
      if vj = bUndefined then bDupInner cycle drsize ei fuel ((ej + 1) % 256)
      else do
        let vi ← rd cycle ei
        if vi = vj then pure true
        else bDupInner cycle drsize ei fuel ((ej + 1) % 256)
    else pure false

/-- outer loop of the duplicate check, `edge_i` is a `uint8_t` and wraps;
src/boundary.ipp:195-220 -/
def bDup (cycle : List Nat) (drsize : Nat) : Nat → Nat → M Bool
  | 0, _ => .error .diverge
  | fuel + 1, ei =>
    if ei < drsize then do
      let vi ← rd cycle ei
      if vi = bUndefined then bDup cycle drsize fuel ((ei + 1) % 256)
      else do
        let f ← bDupInner cycle drsize ei 257 ((ei + 1) % 256)
        if f then pure true
        else bDup cycle drsize fuel ((ei + 1) % 256)
    else pure false

/-- local state of the loop over `j` -/
structure BState where
  cycle : List Nat
  head : Nat
  R : List Tri
  j : Nat
  swapj : Nat
  deriving DecidableEq, Repr

/-- outcome of one iteration -/
inductive BStep
  | ret (s : BStatus) (st : BState)
  | next (st : BState)
  deriving DecidableEq, Repr

/-- `swap_j -= 1; swap(R[j], R[swap_j]); j -= 1` followed by the `j++` of the loop;
src/boundary.ipp:156-161,210-214.  `sw` is the conversion done when `swap_j` is stored. -/
def bReject (st : BState) : M BState := do
  if st.swapj = 0 then .error .oob
  else do
    let R ← swp st.R st.j (st.swapj - 1)
    pure { st with R := R, swapj := st.swapj - 1 }

/-- body of the loop over `j`; src/boundary.ipp:117-222.  `cw` converts values stored in
`swap_j` and `counter` (identity for the CPU variant where both are `Ti`). -/
def bBody (cw : Nat → Nat) (drsize rsize : Nat) (st : BState) : M BStep := do
  let first := st.head
  let t ← rd st.R st.j
  let o0 ← bEdge cw st.cycle first (t.get 0) (t.get 1) rsize
  match o0 with
  | none => pure (.ret .unreachable st)
  | some s0 => do
  let o1 ← bEdge cw st.cycle first (t.get 1) (t.get 2) rsize
  match o1 with
  | none => pure (.ret .unreachable st)
  | some s1 => do
  let o2 ← bEdge cw st.cycle first (t.get 2) (t.get 3) rsize
  match o2 with
  | none => pure (.ret .unreachable st)
  | some s2 => do
  if st.j = st.swapj then pure (.ret .unreachable st)
  else do
  let byte := vbyte s0 s1 s2
  let ns := nsharedEdges byte
  if ns = 0 then do
    let st ← bReject st
    pure (.next st)
  else do
  let k := sharedPosition byte
  let e0 := t.get (k + 0)
  let e1 := t.get (k + 1)
  let e2 := t.get (k + 2)
  let e3 := t.get (k + 3)
  let old0 ← rd st.cycle e0
  let old1 ← rd st.cycle e1
  let old2 ← rd st.cycle e2
  let old00 ← rd st.cycle old0
  let (cycle, head) ←
    if ns = 1 then do
      let c ← wr st.cycle e1 e2
      let c ← wr c e2 e3
      pure (c, e2)
    else if ns = 2 then do
      let h ← rd st.cycle e0
      let c ← wr st.cycle h bUndefined
      let c ← wr c e0 e1
      pure (c, e0)
    else pure (st.cycle, st.head)
  let dup ← bDup cycle drsize 257 0
  if dup then do
    let c ← wr cycle e0 old0
    let c ← wr c e1 old1
    let c ← wr c e2 old2
    let c ← wr c old0 old00
    let st ← bReject { st with cycle := c, head := head }
    pure (.next st)
  else
    pure (.next { st with cycle := cycle, head := head, j := st.j + 1, swapj := cw rsize })

/-- loop over `j`; src/boundary.ipp:117-224 -/
def bLoop (cw : Nat → Nat) (drsize rsize : Nat) : Nat → BState → M (BStatus × BState)
  | 0, _ => .error .diverge
  | fuel + 1, st =>
    if st.j < rsize then do
      let s ← bBody cw drsize rsize st
      match s with
      | .ret b st => pure (b, st)
      | .next st => bLoop cw drsize rsize fuel st
    else pure (.success, st)

/-- enough iterations for the loop over `j`: at most `rsize + 1` rejections between two
successes -/
def bFuel (rsize : Nat) : Nat := (rsize + 2) * (rsize + 2)

/-- `boundary::compute` (CPU); src/boundary.ipp:96-225 -/
def bCompute (cycle : List Nat) (drsize : Nat) (R : List Tri) (rsize : Nat) :
    M (BStatus × BState) := do
  let t ← rd R 0
  let (cycle, head) ← bInit cycle t
  bLoop id drsize rsize (bFuel rsize)
    { cycle := cycle, head := head, R := R, j := 1, swapj := rsize }

end Votess
