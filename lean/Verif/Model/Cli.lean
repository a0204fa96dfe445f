import Verif.Model.Args
import Verif.Model.Dnn
import Verif.Model.Driver
/-!
# Command line program — `src/main.cpp`

`getopt_long` belongs to the C library; its documented behaviour (permuting mode, the
optional-argument and `W;` extensions are not used by the program) is modelled as one scan
over the arguments after `argv[0]`.  The environment variable `POSIXLY_CORRECT` is assumed
to be unset.  Text is a list of characters; the embedded NUL byte does not occur in it.
The extraction of a `float` from a text (`operator>>`) is a parameter (`scanF32` in
`Model/Text` is the one of libstdc++), and so is the file system.
-/
namespace Votess

/-! ### `getopt_long` -/

/-- one value returned by `getopt_long` together with `optarg`; src/main.cpp:108-109 -/
inductive Opt
  /-- option without argument -/
  | flag (c : Char)
  /-- option with `optarg` -/
  | value (c : Char) (arg : Txt)
  /-- `'?'` -/
  | bad
  deriving DecidableEq, Repr

/-- the short options; src/main.cpp:109 -/
def optString : Txt := "vhi:x:k:g:t:d:c:urp:m:".toList

/-- `long_options`: name, has a required argument, value; src/main.cpp:90-105 -/
def longOpts : List (Txt × Bool × Char) :=
  [("version".toList, false, 'v'), ("help".toList, false, 'h'), ("infile".toList, true, 'i'),
   ("use-device".toList, true, 'x'), ("k-init".toList, true, 'k'),
   ("grid-resolution".toList, true, 'g'), ("cpu-nthreads".toList, true, 't'),
   ("gpu-ndsize".toList, true, 'd'), ("chunksize".toList, true, 'c'),
   ("use-chunking".toList, false, 'u'), ("use-recompute".toList, false, 'r'),
   ("p-maxsize".toList, true, 'p'), ("t-maxsize".toList, true, 'm')]

/-- look a character up in an option string: `some b`, `b` iff it takes an argument
(C library, `getopt`) -/
def shortSpec : Txt → Char → Option Bool
  | [], _ => none
  | a :: rest, c => if a = c ∧ c ≠ ':' then some (rest.head? = some ':') else shortSpec rest c

/-- look a long name up: an exact match, otherwise the only option it is a prefix of
(C library, `getopt_long`) -/
def longSpec (name : Txt) : Option (Bool × Char) :=
  match longOpts.find? (fun e => e.1 = name) with
  | some e => some e.2
  | none =>
    match longOpts.filter (fun e => name.isPrefixOf e.1) with
    | [e] => some e.2
    | _ => none

/-- an argument `-abc`: options without argument one after the other; an option with
argument takes the rest of the text, or else the following command line argument.
Returns the options and the arguments left (C library, `getopt`) -/
def cluster : Txt → List Txt → List Opt × List Txt
  | [], rest => ([], rest)
  | c :: s, rest =>
    match shortSpec optString c with
    | none => (.bad :: (cluster s rest).1, (cluster s rest).2)
    | some false => (.flag c :: (cluster s rest).1, (cluster s rest).2)
    | some true =>
      match s, rest with
      | d :: s, _ => ([.value c (d :: s)], rest)
      | [], a :: rest => ([.value c a], rest)
      | [], [] => ([.bad], [])

/-- an argument `--name` or `--name=value`; an argument must be given to an option that
needs one and to no other (C library, `getopt_long`) -/
def longArg (s : Txt) (rest : List Txt) : Opt × List Txt :=
  let name := s.takeWhile (fun c => c ≠ '=')
  match longSpec name, s.dropWhile (fun c => c ≠ '=') with
  | none, _ => (.bad, rest)
  | some (true, c), _ :: v => (.value c v, rest)
  | some (false, _), _ :: _ => (.bad, rest)
  | some (false, c), [] => (.flag c, rest)
  | some (true, c), [] =>
    match rest with
    | a :: rest => (.value c a, rest)
    | [] => (.bad, [])

/-- the scan over the arguments: `--` ends it, an argument that does not start with `-`
and the argument `-` are skipped (C library, `getopt_long` in permuting mode).
`fuel` at least the number of arguments. -/
def getoptAux : Nat → List Txt → List Opt
  | 0, _ => []
  | _ + 1, [] => []
  | fuel + 1, a :: rest =>
    match a with
    | ['-', '-'] => []
    | '-' :: '-' :: s => (longArg s rest).1 :: getoptAux fuel (longArg s rest).2
    | '-' :: c :: s => (cluster (c :: s) rest).1 ++ getoptAux fuel (cluster (c :: s) rest).2
    | _ => getoptAux fuel rest

/-- all results of the calls of `getopt_long`; src/main.cpp:108-109 -/
def getopt (argv : List Txt) : List Opt := getoptAux argv.length argv

/-! ### `parse_args` -/

/-- how a run can stop without returning -/
inductive Stop
  /-- undefined behaviour -/
  | ub (e : UB)
  /-- uncaught C++ exception -/
  | exn (e : Exn)
  deriving DecidableEq, Repr

/-- undefined behaviour in a run -/
def liftM {α : Type} (m : M α) : Except Stop α :=
  match m with
  | .ok a => .ok a
  | .error e => .error (.ub e)

/-- an exception in a run -/
def liftE {α : Type} (m : Except Exn α) : Except Stop α :=
  match m with
  | .ok a => .ok a
  | .error e => .error (.exn e)

/-- `std::atoi`: white space, sign, digits; no digits give 0; a value outside the range of
`int` is undefined behaviour -/
def atoi (s : Txt) : M Int :=
  match readSigned s with
  | none => pure 0
  | some (neg, n) =>
    let v : Int := if neg then -(n : Int) else n
    if -2 ^ 31 ≤ v ∧ v < 2 ^ 31 then pure v else .error .overflow

/-- messages on standard output and error, in the order written -/
inductive Msg
  /-- print_help; src/main.cpp:35-54 -/
  | help
  /-- src/main.cpp:125-127 -/
  | unknownDevice
  /-- src/main.cpp:167 -/
  | unknownOption
  /-- src/main.cpp:189-190 -/
  | noInput
  /-- src/main.cpp:200 -/
  | cannotOpen
  /-- src/main.cpp:210 -/
  | badFormat
  deriving DecidableEq, Repr

/-- local variables of `parse_args` that are returned, and the messages written.  The other
locals (`k_init`, …) are only copies; src/main.cpp:76-88 -/
structure Cli where
  infile : Txt
  args : ArgMap
  gpu : Bool
  msgs : List Msg
  deriving DecidableEq, Repr

/-- initial values; src/main.cpp:76-78 -/
def Cli.init : Cli := ⟨[], ArgMap.init, true, []⟩

/-- the parameter set by an option with a number; src/main.cpp:130-149,158-165 -/
def optKey (c : Char) : Option String :=
  if c = 'k' then some "k"
  else if c = 'g' then some "knn_grid_resolution"
  else if c = 't' then some "cpu_nthreads"
  else if c = 'd' then some "gpu_ndsize"
  else if c = 'c' then some "chunksize"
  else if c = 'p' then some "cc_p_maxsize"
  else if c = 'm' then some "cc_t_maxsize"
  else none

/-- `vtargs[key] = text` -/
def Cli.put (s : Cli) (key : String) (v : Txt) : Except Stop Cli := do
  let m ← liftE (s.args.assign key v)
  pure { s with args := m }

/-- the `switch`; src/main.cpp:111-172.  `-v` prints nothing (lines 30-33). -/
def Cli.step (s : Cli) (o : Opt) : Except Stop Cli :=
  match o with
  | .bad => pure { s with msgs := s.msgs ++ [.unknownOption] }
  | .flag c =>
    if c = 'h' then pure { s with msgs := s.msgs ++ [.help] }
    else if c = 'u' then s.put "use_chunking" (showBool true)
    else if c = 'r' then s.put "use_recompute" (showBool true)
    else pure s
  | .value c a =>
    if c = 'i' then pure { s with infile := a }
    else if c = 'x' then
      if a = "cpu".toList then pure { s with gpu := false }
      else if a = "gpu".toList then pure { s with gpu := true }
      else pure { s with msgs := s.msgs ++ [.unknownDevice] }
    else
      match optKey c with
      | some key => do
        let v ← liftM (atoi a)
        s.put key (showInt v)
      | none => pure s

/-- `parse_args` on the arguments after `argv[0]`; src/main.cpp:70-177 -/
def parseArgs (argv : List Txt) : Except Stop Cli := (getopt argv).foldlM Cli.step Cli.init

/-! ### `main` -/

/-- the lines that successive `std::getline` calls deliver; src/main.cpp:204 -/
def linesOf : Txt → List Txt
  | [] => []
  | c :: cs =>
    if c = '\n' then [] :: linesOf cs
    else
      match linesOf cs with
      | [] => [[c]]
      | l :: ls => (c :: l) :: ls

/-- `iss >> point[0] >> point[1] >> point[2]` with `num` for one extraction (value and rest
of the text, `none` if it fails); what follows on the line is ignored; src/main.cpp:206-209 -/
def readPoint {F : Type} (num : Txt → Option (F × Txt)) (line : Txt) : Option (Pt F) := do
  let (x, r) ← num line
  let (y, r) ← num r
  let (z, _) ← num r
  pure ⟨x, y, z⟩

/-- the loop over the lines; `none` is the error exit; src/main.cpp:204-216 -/
def readPoints {F : Type} (num : Txt → Option (F × Txt)) : List Txt → Option (List (Pt F))
  | [] => some []
  | l :: ls => do
    let p ← readPoint num l
    let ps ← readPoints num ls
    pure (p :: ps)

/-- output of `dnn.print()`; `none` is the text `{}`; src/dnn.ipp:82-106 -/
def Dnn.print (d : Dnn) : M (Option (List Tok)) :=
  if d.list = [] then pure none
  else do
    let t ← d.tokens
    pure (some t)

/-- what a run of the program does: exit status, messages, and the printed result if there
is one.  Not part of this: the report of `tesellate` itself, see `Model/Stdout.lean`. -/
structure CliOut where
  status : Nat
  msgs : List Msg
  printed : Option (Option (List Tok))
  deriving DecidableEq, Repr

/-- `if (vtargs["k"].get<int>() == 0) …`; the text of a `size_t` is stored; src/main.cpp:218-223 -/
def fixK (m : ArgMap) (n : Nat) : Except Exn ArgMap := do
  let k ← m.int "k"
  if k = 0 then m.assign "k" (showNat (if n < 64 then n else 64)) else pure m

/-- `main` on the arguments after `argv[0]` (`argc == 0` does not happen).  `openFile` is the file
system.  The device is not handed on: line 225 uses the default argument `cpu`
(include/votess.hpp:16-20).  src/main.cpp:179-230 -/
def cliMain {F D : Type} [FP F D] [Inhabited F] (nb hw : Nat) (openFile : Txt → Option Txt)
    (num : Txt → Option (F × Txt)) (argv : List Txt) : Except Stop CliOut := do
  let s ← parseArgs argv
  if s.infile = [] then pure ⟨1, s.msgs ++ [.noInput], none⟩
  else
    match openFile s.infile with
    | none => pure ⟨1, s.msgs ++ [.cannotOpen], none⟩
    | some txt =>
      match readPoints num (linesOf txt) with
      | none => pure ⟨1, s.msgs ++ [.badFormat], none⟩
      | some pts => do
        let m ← liftE (fixK s.args pts.length)
        let prm ← liftE m.params
        let out ← liftM (tesellateCpu nb hw prm pts)
        let t ← liftM out.dnn.print
        pure ⟨0, s.msgs, some t⟩

end Votess
