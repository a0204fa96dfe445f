import Verif.Model.Driver
/-!
# Parameters — `include/arguments.hpp`

A parameter value is the text held by `vtargref::str`.  `operator<<` / `operator>>` of
`int`, `unsigned`, `size_t` and `bool` in the "C" locale are modelled by the decimal
printer and parsers below (skip white space, optional sign, digits, range check).
The text of floating point numbers is in Model/FloatText; text can be stored as it is.
-/
namespace Votess

/-- text -/
abbrev Txt := List Char

/-- decimal digit of `d < 10` -/
def digitChar (d : Nat) : Char := Char.ofNat (48 + d)

/-- digits of `n`, most significant first; `fuel > n` is enough -/
def natDigitsAux : Nat → Nat → Txt
  | 0, _ => []
  | fuel + 1, n =>
    if n < 10 then [digitChar n] else natDigitsAux fuel (n / 10) ++ [digitChar (n % 10)]

/-- `oss << n` for an unsigned value -/
def showNat (n : Nat) : Txt := natDigitsAux (n + 1) n

/-- `oss << i` for a signed value -/
def showInt (i : Int) : Txt := if i < 0 then '-' :: showNat i.natAbs else showNat i.natAbs

/-- `oss << b` without `boolalpha` -/
def showBool (b : Bool) : Txt := if b then ['1'] else ['0']

/-- `std::isspace` in the "C" locale -/
def isSpaceC (c : Char) : Bool :=
  c = ' ' || c = '\t' || c = '\n' || c = Char.ofNat 11 || c = Char.ofNat 12 || c = '\r'

/-- value of a decimal digit -/
def digitVal (c : Char) : Option Nat :=
  if 48 ≤ c.toNat ∧ c.toNat ≤ 57 then some (c.toNat - 48) else none

/-- reads digits, stops at the first other character; `some` once one digit was read -/
def readDigits : Txt → Option Nat → Option Nat
  | [], acc => acc
  | c :: cs, acc =>
    match digitVal c with
    | some d => readDigits cs (some (acc.getD 0 * 10 + d))
    | none => acc

/-- sign and magnitude of the number at the start of a text, as extracted by
`std::num_get`: skip white space, optional sign, digits -/
def readSigned (s : Txt) : Option (Bool × Nat) :=
  match s.dropWhile isSpaceC with
  | '-' :: cs => (readDigits cs none).map fun n => (true, n)
  | '+' :: cs => (readDigits cs none).map fun n => (false, n)
  | cs => (readDigits cs none).map fun n => (false, n)

/-- `iss >> v` for `int` (32 bit); `none` is failure -/
def readInt (s : Txt) : Option Int :=
  match readSigned s with
  | none => none
  | some (neg, n) =>
    let v : Int := if neg then -(n : Int) else n
    if -2 ^ 31 ≤ v ∧ v < 2 ^ 31 then some v else none

/-- `iss >> v` for an unsigned type of `bits` bits; a minus sign negates modulo `2^bits` -/
def readUnsigned (bits : Nat) (s : Txt) : Option Nat :=
  match readSigned s with
  | none => none
  | some (neg, n) =>
    if n < 2 ^ bits then some (if neg then (2 ^ bits - n) % 2 ^ bits else n) else none

/-- `iss >> v` for `bool` without `boolalpha` (extracts a 64-bit `long`; only 0 and 1 succeed) -/
def readBool (s : Txt) : Option Bool :=
  match readSigned s with
  | none => none
  | some (_, 0) => some false
  | some (false, 1) => some true
  | some _ => none

/-- C++ exceptions -/
inductive Exn
  /-- `std::invalid_argument` -/
  | invalidArgument
  deriving DecidableEq, Repr

/-- `unordered_map<string, vtargref>` with its (fixed) set of keys -/
abbrev ArgMap := List (String × Txt)

/-- value stored under a key -/
def ArgMap.find (m : ArgMap) (key : String) : Option Txt := (List.lookup key m)

/-- replace the value of an existing key -/
def ArgMap.put (m : ArgMap) (key : String) (v : Txt) : ArgMap :=
  m.map fun e => if e.1 = key then (e.1, v) else e

/-- `vtargs::init` with the default macros; include/arguments.hpp:8-42,122-140 -/
def ArgMap.init : ArgMap :=
  [("k", showInt 64), ("cpu_nthreads", showInt 0), ("gpu_ndsize", showInt 1),
   ("chunksize", showInt 8196), ("use_chunking", showBool false),
   ("use_recompute", showBool false), ("knn_grid_resolution", showInt 16),
   ("cc_p_maxsize", showInt 32), ("cc_t_maxsize", showInt 32),
   ("dev_suppress_stdout", showBool true)]

/-- `vtargs::operator[] const` followed by reading the text; include/arguments.hpp:158-166 -/
def ArgMap.get (m : ArgMap) (key : String) : Except Exn Txt :=
  match m.find key with
  | some v => .ok v
  | none => .error .invalidArgument

/-- `vtargs[key] = v` (`operator[]` then `vtargref::operator=`); include/arguments.hpp:100-104,148-156 -/
def ArgMap.assign (m : ArgMap) (key : String) (v : Txt) : Except Exn ArgMap :=
  match m.find key with
  | some _ => .ok (m.put key v)
  | none => .error .invalidArgument

/-- `from_str<T>`; include/arguments.hpp:87-96 -/
def conv {α : Type} (r : Option α) : Except Exn α :=
  match r with
  | some v => .ok v
  | none => .error .invalidArgument

/-- `args[key].get<int>()`; include/arguments.hpp:106-114 -/
def ArgMap.int (m : ArgMap) (key : String) : Except Exn Int := do
  let s ← m.get key
  conv (readInt s)

/-- `args[key].get<bool>()`; include/arguments.hpp:106-114 -/
def ArgMap.bool (m : ArgMap) (key : String) : Except Exn Bool := do
  let s ← m.get key
  conv (readBool s)

/-- number of threads as read by the driver: `get<size_t>() != 0`, then conversion to
`unsigned`; 0 means `hardware_concurrency()`; src/votess.ipp:383-385 -/
def ArgMap.nthreads (m : ArgMap) : Except Exn Nat := do
  let s ← m.get "cpu_nthreads"
  let v ← conv (readUnsigned 64 s)
  if v ≠ 0 then conv (readUnsigned 32 s) else pure 0

/-- everything `tesellate` on the CPU reads from its `vtargs` parameter.  `chunksize` is
converted only if chunking is enabled (0 here otherwise); src/votess.ipp:188-207,383-404,
507-527,656,720, include/arguments.hpp:168-184 -/
def ArgMap.params (m : ArgMap) : Except Exn Params := do
  let _ ← m.bool "dev_suppress_stdout"
  let gr ← m.int "knn_grid_resolution"
  let nth ← m.nthreads
  let uc ← m.bool "use_chunking"
  let cs ← if uc then m.int "chunksize" else pure 0
  let k ← m.int "k"
  let pm ← m.int "cc_p_maxsize"
  let tm ← m.int "cc_t_maxsize"
  let ur ← m.bool "use_recompute"
  pure { k := k, gr := gr, pm := pm, tm := tm, nthreads := nth, chunksize := cs,
         useChunking := uc, useRecompute := ur }

end Votess
