import Verif.Model.Args
import Verif.Model.Ieee
import Mathlib.Data.Int.Log
/-!
# Floating point numbers as text — `oss << v` in `include/arguments.hpp`

`operator<<` of a `float` or `double` with the default flags and precision 6 in the "C" locale, that is `printf`
with `%.6g`: the value is rounded to six significant decimal digits (to nearest, ties to even), written with a
decimal point if its exponent is from -4 to 5 and in scientific notation otherwise, without trailing zeros.  Zero has no
sign here.
-/
namespace Votess

/-- the six digits and the exponent of `x > 0`, before a carry is taken into account -/
def sixRaw (x : ℚ) : Nat × Int :=
  let e := Int.log 10 x
  ((rne (x * 10 ^ (5 - e))).toNat, e)

/-- `x > 0` is about `m * 10^(e - 5)` with `m` of six digits -/
def six (x : ℚ) : Nat × Int :=
  let r := sixRaw x
  if r.1 = 10 ^ 6 then (10 ^ 5, r.2 + 1) else r

/-- `w` digits -/
def padded (w n : Nat) : Txt := List.replicate (w - (showNat n).length) '0' ++ showNat n

/-- without trailing zeros -/
def stripZeros (s : Txt) : Txt := (s.reverse.dropWhile (· = '0')).reverse

/-- `m / 10^w` as decimal fraction -/
def decimalText (w m : Nat) : Txt :=
  let frac := stripZeros (padded w (m % 10 ^ w))
  showNat (m / 10 ^ w) ++ if frac = [] then [] else '.' :: frac

/-- `oss << x` for `x > 0` -/
def showPos (x : ℚ) : Txt :=
  let (m, e) := six x
  if -4 ≤ e ∧ e < 6 then decimalText (5 - e).toNat m
  else decimalText 5 m ++ 'e' :: (if e < 0 then '-' else '+') :: padded 2 e.natAbs

/-- `oss << x` for a finite `x`; include/arguments.hpp:80-85 -/
def showRat (x : ℚ) : Txt := if x = 0 then ['0'] else if x < 0 then '-' :: showPos (-x) else showPos x

/-- `oss << v`; include/arguments.hpp:80-85 -/
def showFl {f : Fmt} : Fl f → Txt
  | .fin x => showRat x
  | .pinf => "inf".toList
  | .ninf => "-inf".toList
  | .nan => "nan".toList

end Votess
