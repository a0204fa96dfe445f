import Verif.Model.Basic
import Mathlib.Algebra.Order.Floor.Ring
import Mathlib.Algebra.Order.Field.Basic
import Mathlib.Order.WithBot

/-!
# Exact arithmetic

The instance of the floating point interface in which every operation is exact:
any linearly ordered field with floor.  Priorities are the field plus `⊤` for
`+infinity`.  This is a simplification of IEEE-754 (no rounding); see DESIGN.md.
-/

namespace Votess

variable {K : Type} [Field K] [LinearOrder K] [FloorRing K]

/-- truncation towards zero -/
def truncK (t : K) : Int := if 0 ≤ t then ⌊t⌋ else ⌈t⌉

/-- strict order on `WithTop K` as a Boolean -/
def topLt : WithTop K → WithTop K → Bool
  | some a, some b => decide (a < b)
  | some _, none => true
  | none, _ => false

instance exactFP : FP K (WithTop K) where
  add a b := a + b
  sub a b := a - b
  mul a b := a * b
  div a b := a / b
  neg a := -a
  lt a b := decide (a < b)
  le a b := decide (a ≤ b)
  eq a b := decide (a = b)
  ofInt i := (i : K)
  recip i := 1 / (i : K)
  floorInt x := some ⌊x⌋
  fmod x y := x - truncK (x / y) * y
  dinf := none
  toD x := some x
  dlt := topLt

end Votess
