import Verif.Model.Cli
import Verif.Model.Ieee
/-!
# Text in and out — decimal numbers and the printed result

`iss >> x` for a `float` `x` as implemented by libstdc++ in the "C" locale: `num_get` collects the
longest text that has the form of a decimal number, `strtof` converts all of it and rounds to nearest
even.  Words such as `inf`, `nan` and `0x10` are not collected.  The value stored when the extraction
fails is not modelled, `main` does not use it (src/main.cpp:209-212).
-/
namespace Votess

/-- a decimal digit -/
def isDigitC (c : Char) : Bool := (digitVal c).isSome

/-- value of a row of digits -/
def digitsNat (ds : Txt) : Nat := ds.foldl (fun a c => a * 10 + (digitVal c).getD 0) 0

/-- an optional sign: is it a minus, and the rest (libstdc++, `num_get::_M_extract_float`) -/
def scanSign : Txt → Bool × Txt
  | '-' :: s => (true, s)
  | '+' :: s => (false, s)
  | s => (false, s)

/-- the digits after an optional decimal point (libstdc++, `num_get::_M_extract_float`) -/
def scanFrac : Txt → Txt × Txt
  | '.' :: s => (s.takeWhile isDigitC, s.dropWhile isDigitC)
  | s => ([], s)

/-- an optional exponent; `e` without digits after it is collected too, and then the conversion fails
(libstdc++, `num_get::_M_extract_float`, `__convert_to_v`) -/
def scanExp : Txt → Option (Int × Txt)
  | [] => some (0, [])
  | c :: s =>
    if c = 'e' ∨ c = 'E' then
      let (neg, s) := scanSign s
      let ds := s.takeWhile isDigitC
      if ds = [] then none
      else some (if neg then -(digitsNat ds : Int) else digitsNat ds, s.dropWhile isDigitC)
    else some (0, c :: s)

/-- the decimal number at the beginning of a text, after white space, and the rest of the text;
src/main.cpp:209 (libstdc++, `num_get::_M_extract_float`) -/
def scanDec (s : Txt) : Option (ℚ × Txt) :=
  let (neg, s) := scanSign (s.dropWhile isSpaceC)
  let a := s.takeWhile isDigitC
  let (b, s) := scanFrac (s.dropWhile isDigitC)
  if a = [] ∧ b = [] then none
  else
    match scanExp s with
    | none => none
    | some (e, r) => some ((if neg then -1 else 1) * digitsNat (a ++ b) * 10 ^ (e - b.length), r)

/-- `iss >> x` for a `float` `x`: the number rounded to nearest; too large numbers fail;
src/main.cpp:209 (libstdc++, `__convert_to_v`) -/
def scanF32 (s : Txt) : Option (F32 × Txt) :=
  match scanDec s with
  | none => none
  | some (q, r) =>
    match Fl.round b32 q with
    | .fin v => some (.fin v, r)
    | _ => none

/-- what `print` writes for a token; `std::setw(1)` has no effect; src/dnn.ipp:98,101 -/
def printTok : Tok → Txt
  | .sep => "}\n  {".toList
  | .item v => showInt v ++ ", ".toList

/-- the text `print` writes; src/dnn.ipp:85-88,92,104 -/
def printText : Option (List Tok) → Txt
  | none => "{}\n".toList
  | some ts => "{\n  {".toList ++ ts.flatMap printTok ++ "}\n}\n".toList

/-- what `savetxt` writes for a token; src/dnn.ipp:123,125 -/
def saveTok : Tok → Txt
  | .sep => "\n".toList
  | .item v => showInt v ++ " ".toList

/-- the contents of the file `savetxt` writes; src/dnn.ipp:116-129 -/
def saveText (d : Dnn) : M Txt := do
  let ts ← d.tokens
  pure (ts.flatMap saveTok ++ "\n".toList)

end Votess
