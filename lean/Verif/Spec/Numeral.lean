import Mathlib.Algebra.Order.Field.Rat
import Mathlib.Data.Rat.Defs
/-!
# Decimal numerals

What a text like `-12.5e-3` means: sign, digits, optional fraction, optional exponent; every digit
counts with the power of ten of its place.
-/
namespace Votess

/-- only digits -/
def AllDigits (t : List Char) : Prop := ∀ c ∈ t, '0' ≤ c ∧ c ≤ '9'

/-- value of a digit -/
def digitOf (c : Char) : ℚ := ((c.toNat - '0'.toNat : Nat) : ℚ)

/-- value of digits before the point -/
def wholeVal : List Char → ℚ
  | [] => 0
  | c :: cs => digitOf c * 10 ^ cs.length + wholeVal cs

/-- value of digits after the point -/
def fracVal : List Char → ℚ
  | [] => 0
  | c :: cs => (digitOf c + fracVal cs) / 10

/-- an optional sign -/
def SignIs (t : List Char) (σ : ℚ) : Prop := (t = [] ∧ σ = 1) ∨ (t = ['+'] ∧ σ = 1) ∨ (t = ['-'] ∧ σ = -1)

/-- an optional exponent -/
def ExpIs (t : List Char) (e : Int) : Prop :=
  (t = [] ∧ e = 0) ∨ ∃ c s ds σ, (c = 'e' ∨ c = 'E') ∧ SignIs s σ ∧ AllDigits ds ∧ ds ≠ [] ∧
    t = c :: (s ++ ds) ∧ (e : ℚ) = σ * wholeVal ds

/-- The text `t` is a decimal numeral with value `q`: a sign, digits `ds`, a point with digits `fs` or
neither, an exponent; `ds` and `fs` are not both empty. -/
def Numeral (t : List Char) (q : ℚ) : Prop :=
  ∃ s ds pt fs x σ e, t = s ++ ds ++ pt ++ fs ++ x ∧ SignIs s σ ∧ AllDigits ds ∧ AllDigits fs ∧
    (pt = ['.'] ∨ (pt = [] ∧ fs = [])) ∧ (ds ≠ [] ∨ fs ≠ []) ∧ ExpIs x e ∧
    q = σ * (wholeVal ds + fracVal fs) * 10 ^ e

end Votess
