import Verif.Model.Cli
/-!
# Standard output — `suppress::stdout` and the reports of `tesellate`

`std::cout` is modelled by the stream buffer it points to.  A buffer is that of the program
(`real`) or that of the string stream inside one `suppress::stdout` object.  Formatting of
numbers is left out: a line carries its values.
-/
namespace Votess

/-- a stream buffer; `tmp n` belongs to the `n`-th `suppress::stdout` object; src/votess.ipp:33-34 -/
inductive Sink
  | real
  | tmp (n : Nat)
  deriving DecidableEq, Repr

/-- a line written to `std::cout` -/
inductive Line
  /-- src/votess.ipp:398 -/
  | nthread (n : Nat)
  /-- src/votess.ipp:399 -/
  | chunksize (c : Int)
  /-- src/votess.ipp:400 -/
  | nruns (n : Nat)
  /-- the lines `[fail] …`; src/votess.ipp:745-752 -/
  | fail (r : Report)
  /-- a line written by the calling program -/
  | user (t : Txt)
  deriving DecidableEq, Repr

/-- `std::cout` and what has been written to the program's own buffer -/
structure Io where
  /-- `std::cout.rdbuf()` -/
  cout : Sink
  /-- the existing `suppress::stdout` objects -/
  live : List Nat
  /-- number of objects created so far -/
  next : Nat
  /-- lines that reached the program's own buffer -/
  out : List Line
  deriving DecidableEq, Repr

/-- `std::cout << line`; writing to a destroyed buffer is undefined -/
def Io.write (io : Io) (l : Line) : M Io :=
  match io.cout with
  | .real => pure { io with out := io.out ++ [l] }
  | .tmp n => if n ∈ io.live then pure io else .error .oob

/-- constructor of `suppress::stdout`: keeps the current buffer (returned here, with the
number of the object) and installs its own; src/votess.ipp:26-28 -/
def Io.suppress (io : Io) : (Nat × Sink) × Io :=
  ((io.next, io.cout), { io with cout := .tmp io.next, live := io.next :: io.live, next := io.next + 1 })

/-- destructor of `suppress::stdout`: puts the kept buffer back, then the members are
destroyed; src/votess.ipp:29-31 -/
def Io.restore (io : Io) (obj : Nat × Sink) : Io :=
  { io with cout := obj.2, live := io.live.filter (· ≠ obj.1) }

/-- what the rest of a call does: lines written, then a value or an early end -/
abbrev Body (α : Type) := List Line × Except Stop α

/-- write a line -/
def Body.line (l : Line) : Body Unit := ([l], .ok ())

/-- no output -/
def Body.lift {α : Type} (m : Except Stop α) : Body α := ([], m)

/-- one after the other; the second part does not run if the first ends early -/
def Body.bind {α β : Type} (m : Body α) (f : α → Body β) : Body β :=
  match m.2 with
  | .ok a => (m.1 ++ (f a).1, (f a).2)
  | .error e => (m.1, .error e)

/-- `tesellate` around its body: the suppressor is created if asked for, and destroyed when
the body returns or throws (stack unwinding); reading the parameter may throw before that;
src/votess.ipp:655-658.  A run with undefined behaviour has no result. -/
def withSuppress {α : Type} (sup : Except Exn Bool) (b : Body α) (io : Io) :
    M (Io × Except Exn α) :=
  match sup with
  | .error e => pure (io, .error e)
  | .ok sup => do
    let (obj, io) := if sup then ((some io.suppress.1), io.suppress.2) else (none, io)
    let io ← b.1.foldlM Io.write io
    let io := match obj with
      | some o => io.restore o
      | none => io
    match b.2 with
    | .ok a => pure (io, .ok a)
    | .error (.exn e) => pure (io, .error e)
    | .error (.ub e) => .error e

/-- a call on the CPU with its conversions and its lines in program order; src/votess.ipp:646-756 with
380-403 (`args.get_xyzset()` reads the grid resolution, `refsize + 1` is the chunk size without
chunking).  Recompute writes nothing.  `use_recompute` is converted here before and in the program
after the computation (line 720); the same lines have been written at both places. -/
def cpuBody {F D : Type} [FP F D] [Inhabited F] (nb hw : Nat) (m : ArgMap) (xyz : List (Pt F)) :
    Body (TessOut F) :=
  .bind (.lift (liftE (m.int "knn_grid_resolution"))) fun _ =>
  .bind (.lift (liftM (do let gr := (m.int "knn_grid_resolution").toOption.getD 0; let _ ← xyzSort nb gr xyz; pure ()))) fun _ =>
  .bind (.lift (liftE m.nthreads)) fun nt =>
  .bind (.lift (liftE (m.bool "use_chunking"))) fun uc =>
  .bind (.lift (liftE (if uc then m.int "chunksize" else pure (xyz.length + 1)))) fun cs =>
  .bind (.line (.nthread (if nt ≠ 0 then nt else hw))) fun _ =>
  .bind (.line (.chunksize cs)) fun _ =>
  .bind (.line (.nruns (chunkRuns xyz.length cs))) fun _ =>
  .bind (.lift (liftE m.params)) fun prm =>
  .bind (.lift (liftM (tesellateCpu nb hw prm xyz))) fun out =>
  .bind (.line (.fail out.report)) fun _ =>
  .lift (.ok out)

/-- `tesellate` with its effect on `std::cout` -/
def tesellateIo {F D : Type} [FP F D] [Inhabited F] (nb hw : Nat) (m : ArgMap) (xyz : List (Pt F))
    (io : Io) : M (Io × Except Exn (TessOut F)) :=
  withSuppress (m.bool "dev_suppress_stdout") (cpuBody nb hw m xyz) io

end Votess
