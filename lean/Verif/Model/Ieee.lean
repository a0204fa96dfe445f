import Verif.Model.Exact
import Mathlib.Algebra.Order.Ring.Rat
import Mathlib.Data.Rat.Floor

/-!
# IEEE-754 binary arithmetic

The instance of the floating point interface that the program is compiled with:
`votess::tesellate<int, float>` (src/main.cpp:225,286,307, src/pybind11/pyvotess.cpp:79).
Every operation rounds its exact result to nearest, ties to even, with gradual underflow and
overflow to infinity, as in the default floating point environment.  The formats `b32z` and `b64z` are for
environments without gradual underflow.

Simplifications: zero has no sign (no operation of the program distinguishes the two zeros: the only
divisor that can vanish is tested before, src/planes.ipp:24-26); there is one NaN; expressions are
evaluated operation by operation in the type `float` (`FLT_EVAL_METHOD == 0`, no contraction to fused
multiply-add, no `-ffast-math`; a compiler whose default is less strict must be told so).  A finite
value is a rational number; that it is representable is a separate predicate (`IsFl`), all results of
operations have it.  Distances are compared with `<` only, on the left always a computed distance: a NaN
distance is treated as infinite, both are never smaller than anything.  On the right of `<` a NaN
would need a query point that is not finite, whose cell number is undefined already.  For
`double` coordinates some expressions stay `float` (`1.0f / gr`); see Model/Double.lean.
-/

namespace Votess

/-- a format: `p` bits of precision, `2^qmin` is the smallest positive value, values of magnitude
`2^emax` and above overflow -/
structure Fmt where
  p : Nat
  qmin : Int
  emax : Int
  /-- denormal results and operands are replaced by zero -/
  ftz : Bool

/-- `float` -/
def b32 : Fmt := ⟨24, -149, 128, false⟩

/-- `double` -/
def b64 : Fmt := ⟨53, -1074, 1024, false⟩

/-- `float` on a device that flushes denormal numbers to zero, as SYCL allows (no `denorm` in
`info::device::single_fp_config`), or on a CPU with the modes FTZ and DAZ, which `icpx` sets above `-O0`.
All denormal results are flushed, and stored coordinates that are denormal count as zero. -/
def b32z : Fmt := ⟨24, -149, 128, true⟩

/-- `double` with denormal numbers flushed to zero -/
def b64z : Fmt := ⟨53, -1074, 1024, true⟩

/-- `2^e` -/
def pow2 : Int → ℚ
  | .ofNat n => ((2 ^ n : Nat) : ℚ)
  | .negSucc n => mkRat 1 (2 ^ (n + 1))

/-- `⌊log2 x⌋` for `x > 0` -/
def ilog2 (x : ℚ) : Int :=
  let a := (Nat.log2 x.num.natAbs : Int) - (Nat.log2 x.den : Int)
  if pow2 a ≤ x then a else a - 1

/-- nearest integer, ties to even -/
def rne (x : ℚ) : Int :=
  let f := ⌊x⌋
  let d := x - f
  if d < 1 / 2 then f else if 1 / 2 < d then f + 1 else if f % 2 = 0 then f else f + 1

/-- exponent of the last bit of the rounded value -/
def quantum (f : Fmt) (x : ℚ) : Int := max (ilog2 |x| - (f.p - 1)) f.qmin

/-- rounding with unbounded exponent -/
def nearest (f : Fmt) (x : ℚ) : ℚ :=
  if x = 0 then 0 else rne (x / pow2 (quantum f x)) * pow2 (quantum f x)

/-- the smallest positive number that is not denormal -/
def Fmt.normal (f : Fmt) : ℚ := pow2 (f.qmin + (f.p - 1))

/-- denormal numbers become zero in a format that flushes them -/
def flush (f : Fmt) (x : ℚ) : ℚ := bif f.ftz && decide (|x| < f.normal) then 0 else x

/-- rounding with unbounded exponent, and flushing to zero -/
def rnd (f : Fmt) (x : ℚ) : ℚ := flush f (nearest f x)

/-- values of a format -/
inductive Fl (f : Fmt) where
  | fin (q : ℚ)
  | pinf
  | ninf
  | nan
  deriving DecidableEq

namespace Fl

variable {f : Fmt}

/-- rounding of an exact result -/
def round (f : Fmt) (x : ℚ) : Fl f :=
  let r := rnd f x
  if pow2 f.emax ≤ r then .pinf else if r ≤ - pow2 f.emax then .ninf else .fin r

/-- infinity with the sign of `x`, NaN for zero -/
def infOf (x : ℚ) : Fl f := if 0 < x then .pinf else if x < 0 then .ninf else .nan

def neg : Fl f → Fl f
  | .fin a => .fin (-a)
  | .pinf => .ninf
  | .ninf => .pinf
  | .nan => .nan

def add : Fl f → Fl f → Fl f
  | .fin a, .fin b => round f (a + b)
  | .nan, _ => .nan
  | _, .nan => .nan
  | .pinf, .ninf => .nan
  | .ninf, .pinf => .nan
  | .pinf, _ => .pinf
  | _, .pinf => .pinf
  | .ninf, _ => .ninf
  | _, .ninf => .ninf

def sub (a b : Fl f) : Fl f := add a (neg b)

def mul : Fl f → Fl f → Fl f
  | .fin a, .fin b => round f (a * b)
  | .nan, _ => .nan
  | _, .nan => .nan
  | .fin a, .pinf => infOf a
  | .pinf, .fin a => infOf a
  | .fin a, .ninf => infOf (-a)
  | .ninf, .fin a => infOf (-a)
  | .pinf, .pinf => .pinf
  | .ninf, .ninf => .pinf
  | .pinf, .ninf => .ninf
  | .ninf, .pinf => .ninf

/-- division; the sign of a zero divisor is taken to be positive (does not occur) -/
def div : Fl f → Fl f → Fl f
  | .fin a, .fin b => if b = 0 then infOf a else round f (a / b)
  | .nan, _ => .nan
  | _, .nan => .nan
  | .fin _, _ => .fin 0
  | .pinf, .fin b => if b < 0 then .ninf else .pinf
  | .ninf, .fin b => if b < 0 then .pinf else .ninf
  | _, _ => .nan

def lt : Fl f → Fl f → Bool
  | .fin a, .fin b => decide (a < b)
  | .nan, _ => false
  | _, .nan => false
  | .ninf, .ninf => false
  | .ninf, _ => true
  | _, .ninf => false
  | .pinf, _ => false
  | _, .pinf => true

/-- `a == b` -/
def beq : Fl f → Fl f → Bool
  | .fin a, .fin b => decide (a = b)
  | .pinf, .pinf => true
  | .ninf, .ninf => true
  | _, _ => false

/-- `static_cast<int>(std::floor(x))`: undefined unless the value fits in 32 bits -/
def floorInt : Fl f → Option Int
  | .fin a => if -2 ^ 31 ≤ ⌊a⌋ ∧ ⌊a⌋ < 2 ^ 31 then some ⌊a⌋ else none
  | _ => none

/-- `std::fmod` is exact -/
def fmod : Fl f → Fl f → Fl f
  | .fin a, .fin b => if b = 0 then .nan else .fin (flush f (a - truncK (a / b) * b))
  | .fin a, .pinf => .fin a
  | .fin a, .ninf => .fin a
  | _, _ => .nan

/-- priorities: a finite value or `⊤`.  A squared distance is never `-infinity`, and NaN may be
represented by `⊤` because it only occurs on the left of `<` (src/knn.ipp:104), where both give
`false`, and is then never stored. -/
def toTop : Fl f → WithTop ℚ
  | .fin a => some a
  | _ => none

end Fl

/-- the operations of a format, with `1.0f / gr` evaluated in `float` and then converted
(src/xyzset.ipp:20, src/knn.ipp:51) -/
instance ieee (f : Fmt) : FP (Fl f) (WithTop ℚ) where
  add := Fl.add
  sub := Fl.sub
  mul := Fl.mul
  div := Fl.div
  neg := Fl.neg
  lt := Fl.lt
  le a b := Fl.lt a b || Fl.beq a b
  eq := Fl.beq
  ofInt i := Fl.round f i
  recip i := match Fl.div (.fin 1) (Fl.round b32 i) with
    | .fin a => .fin a
    | .pinf => .pinf
    | .ninf => .ninf
    | .nan => .nan
  floorInt := Fl.floorInt
  fmod := Fl.fmod
  dinf := none
  toD := Fl.toTop
  dlt := topLt

/-- coordinate type of all callers -/
abbrev F32 := Fl b32

/-- a value of the format: an integer of at most `p` bits times a power of two -/
def IsFl (f : Fmt) (x : ℚ) : Prop := ∃ m e : Int, |m| < 2 ^ f.p ∧ f.qmin ≤ e ∧ x = m * pow2 e

end Votess
