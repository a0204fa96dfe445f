import Verif.Model.Basic
import Verif.Model.Status
/-!
# Result container — `src/dnn.ipp`, and its construction in `src/votess.ipp`
-/
namespace Votess

/-- `class dnn<Ti>`; src/dnn.ipp:9-30 -/
structure Dnn where
  list : List Int
  offs : List Int
  deriving DecidableEq, Repr

/-- `dnn::size()`; `size_t` arithmetic, so an empty `offs` gives `2^64 - 1`;
src/dnn.ipp:77-80 -/
def Dnn.size (d : Dnn) : Nat := (d.offs.length + 2 ^ 64 - 1) % 2 ^ 64

/-- `proxy::operator[]` of `dnn[i]`; src/dnn.ipp:154-157 -/
def Dnn.at (d : Dnn) (i j : Nat) : M Int := do
  let o ← rd d.offs i
  rdI d.list (o + j)

/-- assignment through `proxy::operator[]` (it returns a reference): `dnn[i][j] = v`;
src/dnn.ipp:154-157 -/
def Dnn.assign (d : Dnn) (i j : Nat) (v : Int) : M Dnn := do
  let o ← rd d.offs i
  let l ← wrI d.list (o + j) v
  pure { d with list := l }

/-- `proxy::size()` of `dnn[i]`; src/dnn.ipp:159-163.  The result is a `size_t`. -/
def Dnn.rowSize (d : Dnn) (i : Nat) : M Nat := do
  if i = d.offs.length - 1 then do
    let o ← rd d.offs i
    pure (((d.list.length : Int) - o) % 2 ^ 64).toNat
  else do
    let b ← rd d.offs (i + 1)
    let a ← rd d.offs i
    pure ((b - a) % 2 ^ 64).toNat

/-- output of one element in `print`/`savetxt`: `pre` is written when a row boundary is
recognised, `item` for each element.  State: `index`, `counter`, output so far (as
tokens); src/dnn.ipp:93-103,118-127 -/
inductive Tok
  /-- row separator (`"}\n  {"` or `"\n"`) -/
  | sep
  /-- an element followed by its separator (`", "` or `" "`) -/
  | item (v : Int)
  deriving DecidableEq, Repr

/-- the loop shared by `print` and `savetxt`; src/dnn.ipp:93-103,118-127 -/
def Dnn.tokLoop (offs : List Int) : List Int → Int → Nat → M (List Tok)
  | [], _, _ => pure []
  | v :: vs, index, counter => do
    let o ← rd offs counter
    if index = o then do
      let counter := if counter < offs.length - 1 then counter + 1 else counter
      let rest ← Dnn.tokLoop offs vs (index + 1) counter
      pure (.sep :: .item v :: rest)
    else do
      let rest ← Dnn.tokLoop offs vs (index + 1) counter
      pure (.item v :: rest)

/-- tokens written by `print` (between the outer braces) and `savetxt` -/
def Dnn.tokens (d : Dnn) : M (List Tok) := Dnn.tokLoop d.offs d.list 0 1

/-- `tmpnn_getdnn`: rows are cut at the first undefined entry, lengths are accumulated;
src/votess.ipp:136-166 -/
def getDnn (tmpnn : List (List Int)) : Dnn :=
  let rows := tmpnn.map (fun r => r.takeWhile (fun v => v ≠ kUndefined))
  { list := rows.flatten
    offs := (rows.foldl (fun (st : List Int × Int) r =>
      (st.1 ++ [st.2 + r.length], st.2 + r.length)) ([0], 0)).1 }

end Votess
