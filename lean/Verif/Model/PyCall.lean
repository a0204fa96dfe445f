import Verif.Model.Py
import Verif.Model.Gpu
import Verif.Model.Fma
import Verif.Model.Double
/-!
# Calls from Python — `src/pybind11/pyvotess.cpp`

Python's numbers are `double`s, the module stores the coordinates as `float`s (`std::array<float, 3>`).
-/
namespace Votess

/-- a decimal numeral in a Python program: the nearest `double` -/
def pyLit (p : Pt ℚ) : Pt F64 := ⟨Fl.round b64 p.x, Fl.round b64 p.y, Fl.round b64 p.z⟩

/-- a Python point in the new `std::vector<std::array<float, 3>>`; pybind11's conversion to `float` takes the
value as a `double` and converts that; src/pybind11/pyvotess.cpp:76 -/
def pyStore (ch : Choice b32) (p : Pt F64) : Pt (Fm ch) :=
  ⟨.lit (narrow p.x), .lit (narrow p.y), .lit (narrow p.z)⟩

/-- `votess::device`; include/votess.hpp:11 -/
inductive Device
  | cpu
  | gpu
  deriving DecidableEq, Repr

/-- `args[key] = value` for a list of keys and values -/
def pySets (m : ArgMap) : List (String × PyVal) → Except PyErr ArgMap
  | [] => .ok m
  | (key, v) :: rest => do
    let m ← pySet m key v
    pySets m rest

/-- `d` is a possible result of `tesellate(xyzset, args, device)`, as a relation because of the GPU.  `found`
tells whether the machine has a GPU, `ch` is the compiler's choice of fused multiply-adds.  A `gpu_ndsize`
that cannot be read counts only if it is read;
src/pybind11/pyvotess.cpp:74-86, src/votess.ipp:646-756 -/
def PyResult (ch : Choice b32) (hw : Nat) (found : Bool) (dev : Device) (m : ArgMap) (xyzset : List (Pt F64))
    (d : Dnn) : Prop :=
  ∃ (prm : Params) (out : TessOut (Fm ch)), m.params = .ok prm ∧ d = out.dnn ∧
    match dev with
    | .cpu => tesellateCpu 4 hw prm (xyzset.map (pyStore ch)) = .ok out
    | .gpu => ∃ ndsize : Int, (found = true → m.int "gpu_ndsize" = .ok ndsize) ∧
        TesellateGpu 4 hw ndsize found prm (xyzset.map (pyStore ch)) out

/-- `d[i].size()`; src/pybind11/pyvotess.cpp:57,63-66 -/
def pySize (d : Dnn) (i : Int) : M Nat := d.rowSize (toSize i)

end Votess
