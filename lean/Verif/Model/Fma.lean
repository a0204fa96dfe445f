import Verif.Model.Ieee
/-!
# Fused multiply-add and inexact division

A compiler may contract `a * b + c` to one operation with a single rounding (`-ffp-contract=fast` of GCC,
`on` of Clang, code for GPUs; cmake/compiler_settings.cmake:18-66 does not forbid it).
Which of the two products in `a * b + c * d` is kept exact, and where nothing is contracted, is up to the
compiler.

A value remembers the expression it was computed by.  When the operands of an addition or subtraction are
products, a function of the two expressions decides which of the products is not rounded.  Different places
of the program compute different expressions, so the decision can depend on the place; it can depend on the
operands, too.  A selection `!c * a + c * b` (src/utils.ipp:14-36, src/sradius.ipp:13, src/knn.ipp:301) counts as the
expression selected.  Products that are compared, multiplied, divided, converted or used as a distance
are rounded.  Comparisons, `fmod`, `floor` and conversions are those of the format `f`
(`float`, or `double` on a GPU).

Division need not be correctly rounded on a GPU: OpenCL and SYCL allow an error of 2.5 units in the last place for
`float`.  This concerns `1.0f / triple_product` (src/planes.ipp:22); it may have any value within that error.
Quotients with a stored value or constant as divisor are correctly rounded: `x / gl` is computed on the host
(src/xyzset.ipp:29-31), `gl / 2` and `(...) / 2` are exact or rounded halves.  Assumed: so is `1.0f / gr`
(`FP.recip`).
-/
namespace Votess

/-- which operand of an addition is an exact product -/
inductive Fuse
  | no
  | left
  | right
  deriving DecidableEq, Repr

/-- expressions -/
inductive Tree (f : Fmt)
  | leaf (x : Fl f)
  | neg (a : Tree f)
  | add (a b : Tree f)
  | sub (a b : Tree f)
  | mul (a b : Tree f)
  | div (a b : Tree f)
  | fmod (a b : Tree f)

/-- the expression of a sum; a selection is the operand with the factor one -/
def Tree.plus {f : Fmt} (s t : Tree f) : Tree f :=
  match s, t with
  | .mul (.leaf (.fin x)) a, .mul (.leaf (.fin y)) b =>
    if x = 1 ∧ y = 0 then a else if x = 0 ∧ y = 1 then b else .add s t
  | _, _ => .add s t

/-- what compiler and device decide: which products are fused, and the quotients, by their expressions; 2.5 units
in the last place of `q` are at most `5 * 2^-p * |q|` -/
structure Choice (f : Fmt) where
  fuse : Tree f → Tree f → Fuse
  quot : Tree f → Tree f → ℚ → ℚ
  near : ∀ a b q, pow2 (-80) ≤ |q| → |q| ≤ pow2 80 → |quot a b q - q| ≤ 5 * pow2 (-(f.p : Int)) * |q|

/-- correctly rounded quotients -/
def Choice.exact {f : Fmt} (fuse : Tree f → Tree f → Fuse) : Choice f :=
  ⟨fuse, fun _ _ q => q, fun _ _ q _ _ => by
    rw [sub_self, abs_zero]
    refine mul_nonneg (mul_nonneg (by norm_num) ?_) (abs_nonneg q)
    cases h : (-(f.p : Int)) with
    | ofNat n => exact Nat.cast_nonneg _
    | negSucc n => exact Rat.mkRat_nonneg (by norm_num) _⟩

/-- a value: rounded, exact if it is a product, and its expression -/
structure Fm {f : Fmt} (ch : Choice f) where
  v : Fl f
  ex : Option ℚ
  tree : Tree f

namespace Fm

variable {f : Fmt} {ch : Choice f}

/-- a stored value -/
def lit (x : Fl f) : Fm ch := ⟨x, none, .leaf x⟩

instance : Inhabited (Fm ch) := ⟨lit (.fin 0)⟩

/-- an exact product and a rounded value added with one rounding -/
def fuse (q : ℚ) : Fl f → Fl f
  | .fin b => Fl.round f (q + b)
  | b => b

/-- addition of `a` and `b` when `c` is fused -/
def sum (c : Fuse) (a b : Fl f) (qa qb : Option ℚ) : Fl f :=
  match c, qa, qb with
  | .left, some q, _ => fuse q b
  | .right, _, some q => fuse q a
  | _, _, _ => Fl.add a b

def neg (a : Fm ch) : Fm ch := ⟨Fl.neg a.v, a.ex.map (- ·), .neg a.tree⟩

def add (a b : Fm ch) : Fm ch := ⟨sum (ch.fuse a.tree b.tree) a.v b.v a.ex b.ex, none, a.tree.plus b.tree⟩

def sub (a b : Fm ch) : Fm ch :=
  ⟨sum (ch.fuse a.tree b.tree) a.v (Fl.neg b.v) a.ex (b.ex.map (- ·)), none, .sub a.tree b.tree⟩

def mul (a b : Fm ch) : Fm ch :=
  ⟨Fl.mul a.v b.v, match a.v, b.v with | .fin x, .fin y => some (x * y) | _, _ => none, .mul a.tree b.tree⟩

/-- the quotient of `a` and `b`, with any rounding allowed unless the divisor is stored -/
def quotient (a b : Fm ch) : Fl f :=
  match b.tree, a.v, b.v with
  | .leaf _, x, y => Fl.div x y
  | _, .fin x, .fin y => if y = 0 then Fl.infOf x else Fl.round f (ch.quot a.tree b.tree (x / y))
  | _, x, y => Fl.div x y

def div (a b : Fm ch) : Fm ch := ⟨quotient a b, none, .div a.tree b.tree⟩

end Fm

/-- arithmetic in which products may be fused with additions and quotients are approximate -/
instance fma {f : Fmt} (ch : Choice f) : FP (Fm ch) (WithTop ℚ) where
  add := Fm.add
  sub := Fm.sub
  mul := Fm.mul
  div := Fm.div
  neg := Fm.neg
  lt a b := Fl.lt a.v b.v
  le a b := Fl.lt a.v b.v || Fl.beq a.v b.v
  eq a b := Fl.beq a.v b.v
  ofInt i := .lit (FP.ofInt i)
  recip i := .lit (FP.recip i)
  floorInt a := Fl.floorInt a.v
  fmod a b := ⟨Fl.fmod a.v b.v, none, .fmod a.tree b.tree⟩
  dinf := none
  toD a := Fl.toTop a.v
  dlt := topLt

end Votess
