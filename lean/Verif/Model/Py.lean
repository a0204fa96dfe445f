import Verif.Model.FloatText
import Verif.Model.Double
import Verif.Model.Dnn
import Verif.Model.Driver
/-!
# Python module — `src/pybind11/pyvotess.cpp`

The conversions of pybind11 between Python and C++ objects are taken as documented: a list of
points is copied into a new `std::vector`, `std::invalid_argument` becomes a Python exception,
`__getitem__` receives the index as `int`.  Python's `for` over an object that has `__getitem__`
but no `__iter__` asks for items 0, 1, 2, … until `IndexError` is raised.
-/
namespace Votess

/-- conversion of a `double` to `float`, rounding to nearest even -/
def narrow : F64 → F32
  | .fin q => Fl.round b32 q
  | .pinf => .pinf
  | .ninf => .ninf
  | .nan => .nan

/-! ### `vtargs.__setitem__` -/

/-- a Python value -/
inductive PyVal
  | int (i : Int)
  | bool (b : Bool)
  /-- a Python `float` is a `double` -/
  | float (v : F64)
  | str (t : Txt)
  /-- `None`, a list, a numpy integer, … -/
  | other
  deriving DecidableEq

/-- exceptions that reach Python -/
inductive PyErr
  /-- `std::invalid_argument` -/
  | invalidArgument
  /-- `pybind11::cast_error` -/
  | castError
  deriving DecidableEq, Repr

/-- assignment with its exception passed on -/
def pyAssign (m : ArgMap) (key : String) (t : Txt) : Except PyErr ArgMap :=
  match m.assign key t with
  | .ok m => .ok m
  | .error .invalidArgument => .error .invalidArgument

/-- `args[key] = value`; a Python `bool` is an `int`, so the first test succeeds for it;
a `float` is converted to the C++ `float` first; src/pybind11/pyvotess.cpp:34-48 -/
def pySet (m : ArgMap) (key : String) (v : PyVal) : Except PyErr ArgMap :=
  match v with
  | .int i => if -2 ^ 31 ≤ i ∧ i < 2 ^ 31 then pyAssign m key (showInt i) else .error .castError
  | .bool b => pyAssign m key (showInt (if b then 1 else 0))
  | .float v => pyAssign m key (showFl (narrow v))
  | .str t => pyAssign m key t
  | .other => .error .invalidArgument

/-! ### the result in Python -/

/-- conversion of an `int` to `size_t` -/
def toSize (i : Int) : Nat := (i % 2 ^ 64).toNat

/-- `d[i][j]`: both indices are converted to `size_t`, the sum wraps, nothing is checked;
src/pybind11/pyvotess.cpp:54-58,65-68, src/dnn.ipp:148-157 -/
def pyAt (d : Dnn) (i j : Int) : M Int := do
  let o ← rd d.offs (toSize i)
  rd d.list ((toSize o + toSize j) % 2 ^ 64)

/-- `for x in d[i]` from item `j`: the items seen so far are `acc`.  There is no `IndexError`, the
loop can end only by undefined behaviour (or after `fuel` items). -/
def pyFor (d : Dnn) (i : Int) : Nat → Nat → List Int → M (List Int)
  | 0, _, acc => .ok acc
  | fuel + 1, j, acc => do
    let x ← pyAt d i j
    pyFor d i fuel (j + 1) (acc ++ [x])

/-- `tesellate(xyz, args, device)` when the CPU code is used: the list is copied, the sorted copy is
dropped; returns the caller's list after the call and the result;
src/pybind11/pyvotess.cpp:76-89 -/
def pyTesellate {F D : Type} [FP F D] [Inhabited F] (hw : Nat) (prm : Params) (xyz : List (Pt F)) :
    M (List (Pt F) × Dnn) := do
  let copy := xyz
  let out ← tesellateCpu 4 hw prm copy
  pure (xyz, out.dnn)

end Votess
