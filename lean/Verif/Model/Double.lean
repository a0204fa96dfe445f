import Verif.Model.Ieee
/-!
# Double precision coordinates

`votess::tesellate<int, double>`: the templates accept any floating point type (include/votess.hpp,
README.md:104-107).  With `Tf = double` some expressions are nevertheless evaluated in `float`:

* `1.0f / gr` (src/xyzset.ipp:21, src/knn.ipp:51, src/xyzset.ipp:109);
* in the search on the CPU this quotient is declared `auto`, so that `gl / 2` and `gl * r` (src/knn.ipp:51,59,117)
  are `float` operations, too.

A value therefore carries its C++ type, and an operation is done in the type that the usual arithmetic
conversions give: `float` if one operand is `float` and the other `float` or an integer, `double` otherwise.
An integer that meets another integer is a constant stored in a variable of type `Tf` (the bounding planes, the
initial radius), so the operation is one of `double`.

In the search on the GPU the quotient is declared `Tf` (src/knn.ipp:251), and all operations after it are
those of `double`: there the arithmetic is `Fl b64`.
-/
namespace Votess

/-- `double`, all operations in this type -/
abbrev F64 := Fl b64

/-- a value with its type -/
inductive Dbl
  | flt (x : F32)
  | int (n : Int)
  | dbl (x : F64)
  deriving DecidableEq

namespace Dbl

/-- conversion of `float` to `double` (exact) -/
def widen : F32 → F64
  | .fin a => .fin a
  | .pinf => .pinf
  | .ninf => .ninf
  | .nan => .nan

/-- the value as `double` -/
def v : Dbl → F64
  | .flt x => widen x
  | .int n => Fl.round b64 n
  | .dbl x => x

/-- usual arithmetic conversions -/
def bin (f : F32 → F32 → F32) (g : F64 → F64 → F64) : Dbl → Dbl → Dbl
  | .flt x, .flt y => .flt (f x y)
  | .flt x, .int n => .flt (f x (Fl.round b32 n))
  | .int n, .flt y => .flt (f (Fl.round b32 n) y)
  | a, b => .dbl (g a.v b.v)

/-- unary minus -/
def neg : Dbl → Dbl
  | .flt x => .flt (Fl.neg x)
  | a => .dbl (Fl.neg a.v)

end Dbl

/-- the arithmetic of the program for `Tf = double` (on the CPU) -/
instance dbl : FP Dbl (WithTop ℚ) where
  add := Dbl.bin Fl.add Fl.add
  sub := Dbl.bin Fl.sub Fl.sub
  mul := Dbl.bin Fl.mul Fl.mul
  div := Dbl.bin Fl.div Fl.div
  neg := Dbl.neg
  lt a b := Fl.lt a.v b.v
  le a b := Fl.lt a.v b.v || Fl.beq a.v b.v
  eq a b := Fl.beq a.v b.v
  ofInt := .int
  recip i := .flt (Fl.div (.fin 1) (Fl.round b32 i))
  floorInt a := Fl.floorInt a.v
  fmod := Dbl.bin Fl.fmod Fl.fmod
  dinf := none
  toD a := Fl.toTop a.v
  dlt := topLt

instance : Inhabited F64 := ⟨.fin 0⟩

instance : Inhabited Dbl := ⟨.dbl (.fin 0)⟩

end Votess
