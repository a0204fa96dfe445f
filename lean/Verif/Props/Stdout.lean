import Verif.Model.Stdout
import Verif.Proofs.Basic
/-!
# C52 — standard output is always restored
-/
namespace Votess

/-- `std::cout` points to an existing buffer -/
def Io.OK (io : Io) : Prop :=
  (∀ n, io.cout = .tmp n → n ∈ io.live) ∧ (∀ n ∈ io.live, n < io.next)

/-- lines that a call shows -/
def shown (sup : Except Exn Bool) (lines : List Line) : List Line :=
  match sup with
  | .ok false => lines
  | _ => []

theorem write_ok {io : Io} (h : io.OK) (l : Line) :
    io.write l = .ok { io with out := io.out ++ (if io.cout = .real then [l] else []) } := by
  unfold Io.write
  cases hc : io.cout with
  | real => simp only [if_true]; rfl
  | tmp n =>
    simp only [h.1 n hc, if_true]
    simp only [reduceCtorEq, if_false, List.append_nil]
    rw [← hc]
    rfl

theorem writes_ok {io : Io} (h : io.OK) (ls : List Line) :
    ls.foldlM Io.write io = .ok { io with out := io.out ++ (if io.cout = .real then ls else []) } := by
  induction ls generalizing io with
  | nil => simp [pure, Except.pure]
  | cons l ls ih =>
    rw [List.foldlM_cons, write_ok h, bind_ok, ih (by exact h)]
    by_cases hc : io.cout = .real
    · simp [hc]
    · simp [hc]

theorem suppress_ok {io : Io} (h : io.OK) : io.suppress.2.OK := by
  refine ⟨?_, ?_⟩
  · intro n hn
    simp only [Io.suppress, Sink.tmp.injEq] at hn ⊢
    simp [hn]
  · intro n hn
    simp only [Io.suppress, List.mem_cons] at hn ⊢
    rcases hn with rfl | hn
    · omega
    · have := h.2 n hn; omega

/-- C52: one call never writes to a destroyed buffer, and however it ends — returning or throwing,
suppressed or not, from any place — `std::cout` afterwards points to the same buffer as before, the
caller's buffers are untouched, and what became visible are the lines of the call if suppression is
off, and nothing if it is on. -/
theorem C52_restored {α : Type} {io : Io} (h : io.OK) (sup : Except Exn Bool) (b : Body α)
    (hub : ∀ e, b.2 ≠ .error (.ub e)) :
    ∃ io' r, withSuppress sup b io = .ok (io', r) ∧ io'.cout = io.cout ∧ io'.live = io.live ∧ io'.OK ∧
      io'.out = io.out ++ (if io.cout = .real then shown sup b.1 else []) := by
  have hend : ∀ j : Io, ∃ r, (match b.2 with
      | .ok a => pure (j, .ok a)
      | .error (.exn e) => pure (j, .error e)
      | .error (.ub e) => .error e : M (Io × Except Exn α)) = .ok (j, r) := by
    intro j
    cases hb : b.2 with
    | ok a => exact ⟨_, rfl⟩
    | error e =>
      cases e with
      | exn e => exact ⟨_, rfl⟩
      | ub e => exact absurd hb (hub e)
  cases sup with
  | error e => exact ⟨io, .error e, rfl, rfl, rfl, h, by simp [shown]⟩
  | ok sup =>
    cases sup with
    | false =>
      obtain ⟨r, hr⟩ := hend { io with out := io.out ++ (if io.cout = .real then b.1 else []) }
      refine ⟨{ io with out := io.out ++ (if io.cout = .real then b.1 else []) }, r, ?_, rfl, rfl, h, rfl⟩
      unfold withSuppress
      simp only [Bool.false_eq_true, if_false, writes_ok h, bind_ok]
      exact hr
    | true =>
      have hs := suppress_ok h
      have hc : io.suppress.2.cout ≠ .real := by simp [Io.suppress]
      have hlive : (io.suppress.2.restore io.suppress.1).live = io.live := by
        change (io.next :: io.live).filter (fun n => decide (n ≠ io.next)) = io.live
        rw [List.filter_cons, if_neg (by simp)]
        apply List.filter_eq_self.mpr
        intro n hn
        have := h.2 n hn
        simp; omega
      obtain ⟨r, hr⟩ := hend (io.suppress.2.restore io.suppress.1)
      refine ⟨io.suppress.2.restore io.suppress.1, r, ?_, rfl, hlive, ?_, ?_⟩
      · unfold withSuppress
        simp only [if_true, writes_ok hs, bind_ok, hc, if_false, List.append_nil]
        exact hr
      · refine ⟨?_, ?_⟩
        · intro n hn; rw [hlive]; exact h.1 n hn
        · intro n hn
          rw [hlive] at hn
          have := h.2 n hn
          simp only [Io.suppress, Io.restore]; omega
      · simp [Io.suppress, Io.restore, shown]

/-! ### A whole program -/

/-- what a program does with its standard output: print something itself, or make a call -/
inductive Act (α : Type)
  | print (t : Txt)
  | call (sup : Except Exn Bool) (b : Body α)

/-- run of such a program -/
def runActs {α : Type} : List (Act α) → Io → M Io
  | [], io => pure io
  | .print t :: as, io => do let io ← io.write (.user t); runActs as io
  | .call sup b :: as, io => do let r ← withSuppress sup b io; runActs as r.1

/-- what the program should show -/
def actLines {α : Type} : List (Act α) → List Line
  | [] => []
  | .print t :: as => .user t :: actLines as
  | .call sup b :: as => shown sup b.1 ++ actLines as

/-- C52: a program that calls any number of times, one call after the other, shows its own prints and
the lines of unsuppressed calls, in order, and ends with its own buffer. -/
theorem C52_program {α : Type} {io : Io} (h : io.OK) (hr : io.cout = .real) (as : List (Act α))
    (hub : ∀ sup b e, Act.call sup b ∈ as → b.2 ≠ .error (.ub e)) :
    ∃ io', runActs as io = .ok io' ∧ io'.cout = .real ∧ io'.out = io.out ++ actLines as := by
  induction as generalizing io with
  | nil => exact ⟨io, rfl, hr, by simp [actLines]⟩
  | cons a as ih =>
    cases a with
    | print t =>
      obtain ⟨io', e1, e2, e3⟩ := ih (io := { io with out := io.out ++ [.user t] }) h hr
        (fun s b e hb => hub s b e (List.mem_cons_of_mem _ hb))
      refine ⟨io', ?_, e2, ?_⟩
      · rw [runActs, write_ok h, bind_ok, if_pos hr]
        exact e1
      · rw [e3]; simp [actLines]
    | call sup b =>
      obtain ⟨j, r, h1, h2, -, h4, h5⟩ := C52_restored h sup b (fun e => hub sup b e (by simp))
      obtain ⟨io', e1, e2, e3⟩ := ih (io := j) h4 (by rw [h2, hr])
        (fun s b e hb => hub s b e (List.mem_cons_of_mem _ hb))
      refine ⟨io', ?_, e2, ?_⟩
      · simp only [runActs, h1, bind_ok]; exact e1
      · rw [e3, h5]; simp [actLines, hr]

/-! ### The lines of a call -/

section call
variable {F D : Type} [FP F D] [Inhabited F]

theorem int_gr {m : ArgMap} {prm : Params} (h : m.params = .ok prm) :
    m.int "knn_grid_resolution" = .ok prm.gr ∧ m.nthreads = .ok prm.nthreads ∧
    m.bool "use_chunking" = .ok prm.useChunking ∧
    (prm.useChunking = true → m.int "chunksize" = .ok prm.chunksize) := by
  unfold ArgMap.params at h
  simp only [bind, Except.bind, pure, Except.pure] at h
  cases h1 : m.bool "dev_suppress_stdout" with
  | error e => rw [h1] at h; cases h
  | ok s =>
  cases h2 : m.int "knn_grid_resolution" with
  | error e => rw [h1, h2] at h; cases h
  | ok gr =>
  cases h3 : m.nthreads with
  | error e => rw [h1, h2, h3] at h; cases h
  | ok nt =>
  cases h4 : m.bool "use_chunking" with
  | error e => rw [h1, h2, h3, h4] at h; cases h
  | ok uc =>
  rw [h1, h2, h3, h4] at h
  simp only at h
  cases uc with
  | false =>
    simp only [Bool.false_eq_true, if_false] at h
    cases h6 : m.int "k" with
    | error e => rw [h6] at h; cases h
    | ok k =>
    cases h7 : m.int "cc_p_maxsize" with
    | error e => rw [h6, h7] at h; cases h
    | ok pm =>
    cases h8 : m.int "cc_t_maxsize" with
    | error e => rw [h6, h7, h8] at h; cases h
    | ok tm =>
    cases h9 : m.bool "use_recompute" with
    | error e => rw [h6, h7, h8, h9] at h; cases h
    | ok ur =>
    rw [h6, h7, h8, h9] at h
    cases h
    exact ⟨rfl, rfl, rfl, fun h => by cases h⟩
  | true =>
    simp only [if_true] at h
    cases h5 : m.int "chunksize" with
    | error e => rw [h5] at h; cases h
    | ok cs =>
    cases h6 : m.int "k" with
    | error e => rw [h5, h6] at h; cases h
    | ok k =>
    cases h7 : m.int "cc_p_maxsize" with
    | error e => rw [h5, h6, h7] at h; cases h
    | ok pm =>
    cases h8 : m.int "cc_t_maxsize" with
    | error e => rw [h5, h6, h7, h8] at h; cases h
    | ok tm =>
    cases h9 : m.bool "use_recompute" with
    | error e => rw [h5, h6, h7, h8, h9] at h; cases h
    | ok ur =>
    rw [h5, h6, h7, h8, h9] at h
    cases h
    exact ⟨rfl, rfl, rfl, fun _ => rfl⟩

/-- the lines of a successful call: threads, chunk size and number of runs, and the report -/
def callLines (hw : Nat) (prm : Params) (n : Nat) (r : Report) : List Line :=
  let cs : Int := if prm.useChunking then prm.chunksize else n + 1
  [.nthread (if prm.nthreads ≠ 0 then prm.nthreads else hw), .chunksize cs,
   .nruns (if 0 < cs ∧ cs < n then n / cs.toNat + 1 else 1), .fail r]

theorem cpuBody_ok {nb hw : Nat} {m : ArgMap} {xyz : List (Pt F)} {prm : Params} {out : TessOut F}
    (hp : m.params = .ok prm) (ho : tesellateCpu nb hw prm xyz = .ok out) :
    cpuBody nb hw m xyz = (callLines hw prm xyz.length out.report, .ok out) := by
  obtain ⟨h1, h2, h3, h4⟩ := int_gr hp
  have hs : ∃ S, xyzSort nb prm.gr xyz = .ok S := by
    unfold tesellateCpu at ho
    obtain ⟨S, hS, -⟩ := bind_eq_ok.mp ho
    exact ⟨S, hS⟩
  obtain ⟨S, hS⟩ := hs
  have hruns : ∀ cs : Int, chunkRuns xyz.length cs =
      (if 0 < cs ∧ cs < xyz.length then xyz.length / cs.toNat + 1 else 1) := by
    intro cs; unfold chunkRuns; simp
  unfold cpuBody callLines
  cases hu : prm.useChunking with
  | false =>
    simp [Body.bind, Body.lift, Body.line, liftE, liftM, h1, h2, h3, hu, hS, hp, ho, Except.toOption,
      hruns, pure, Except.pure, bind, Except.bind]
  | true =>
    simp [Body.bind, Body.lift, Body.line, liftE, liftM, h1, h2, h3, hu, hS, hp, ho, Except.toOption,
      hruns, pure, Except.pure, bind, Except.bind, h4 hu]

/-- C52: a successful call with suppression (the default) shows nothing, in particular not the report
about failed cells, and without suppression exactly its four pieces. -/
theorem C52_call {nb hw : Nat} {m : ArgMap} {xyz : List (Pt F)} {prm : Params} {out : TessOut F}
    {io : Io} (h : io.OK) (hr : io.cout = .real) (hp : m.params = .ok prm)
    (ho : tesellateCpu nb hw prm xyz = .ok out) {sup : Bool}
    (hs : m.bool "dev_suppress_stdout" = .ok sup) :
    ∃ io', tesellateIo nb hw m xyz io = .ok (io', .ok out) ∧ io'.cout = .real ∧
      io'.out = io.out ++ (if sup then [] else callLines hw prm xyz.length out.report) := by
  have hb := cpuBody_ok (nb := nb) (hw := hw) hp ho
  obtain ⟨io', r, h1, h2, -, -, h5⟩ := C52_restored h (.ok sup) (cpuBody nb hw m xyz)
    (by rw [hb]; intro e h; cases h)
  have hr' : r = .ok out := by
    unfold withSuppress at h1
    rw [hb] at h1
    simp only at h1
    obtain ⟨j, -, hj⟩ := bind_eq_ok.mp h1
    simp only [pure, Except.pure, Except.ok.injEq, Prod.mk.injEq] at hj
    exact hj.2.symm
  refine ⟨io', ?_, by rw [h2, hr], ?_⟩
  · unfold tesellateIo; rw [hs, h1, hr']
  · rw [h5, hb]
    cases sup <;> simp [shown, hr]

/-- C52: the default parameters suppress. -/
theorem C52_default : ArgMap.init.bool "dev_suppress_stdout" = .ok true := rfl

/-- C52: a call that throws while converting its parameters also restores `std::cout`. -/
theorem C52_throw {nb hw : Nat} {m : ArgMap} {xyz : List (Pt F)} {io io' : Io} {e : Exn} (h : io.OK)
    (hc : tesellateIo nb hw m xyz io = .ok (io', .error e)) : io'.cout = io.cout ∧ io'.OK := by
  unfold tesellateIo at hc
  by_cases hub : ∀ e, (cpuBody nb hw m xyz).2 ≠ .error (.ub e)
  · obtain ⟨j, r, h1, h2, -, h4, -⟩ := C52_restored h (m.bool "dev_suppress_stdout")
      (cpuBody nb hw m xyz) hub
    rw [h1] at hc
    cases hc
    exact ⟨h2, h4⟩
  · obtain ⟨u, hu⟩ := Classical.not_forall.mp hub
    have hu := Classical.not_not.mp hu
    unfold withSuppress at hc
    cases hs : m.bool "dev_suppress_stdout" with
    | error e' => rw [hs] at hc; cases hc; exact ⟨rfl, h⟩
    | ok s =>
      rw [hs] at hc
      simp only at hc
      obtain ⟨j, -, hj⟩ := bind_eq_ok.mp hc
      rw [hu] at hj
      cases hj

end call

/-! ### Overlapping calls -/

/-- C52 does not extend to calls running at the same time: if a second suppressed call starts during a
first one and ends after it, then what the second one writes after the end of the first becomes
visible, `std::cout` is left pointing to the destroyed buffer of the first, and the next thing
written to it is undefined — whatever the calls write. -/
theorem C52_overlap_dangling {io : Io} (h : io.OK) (hr : io.cout = .real) (ws1 ws2 ws3 : List Line) :
    ∃ io1 io2 io3, ws1.foldlM Io.write io.suppress.2 = .ok io1 ∧
      ws2.foldlM Io.write io1.suppress.2 = .ok io2 ∧
      ws3.foldlM Io.write (io2.restore io.suppress.1) = .ok io3 ∧
      (io3.restore io1.suppress.1).out = io.out ++ ws3 ∧
      (io3.restore io1.suppress.1).cout ≠ .real ∧
      ∀ l, (io3.restore io1.suppress.1).write l = .error .oob := by
  have h1 := suppress_ok h
  have e1 := writes_ok h1 ws1
  have hc1 : io.suppress.2.cout ≠ .real := by simp [Io.suppress]
  simp only [hc1, if_false, List.append_nil] at e1
  have h2 := suppress_ok h1
  have e2 := writes_ok h2 ws2
  have hc2 : io.suppress.2.suppress.2.cout ≠ .real := by simp [Io.suppress]
  simp only [hc2, if_false, List.append_nil] at e2
  have h3 : (io.suppress.2.suppress.2.restore io.suppress.1).OK := by
    refine ⟨?_, ?_⟩
    · intro n hn
      simp only [Io.suppress, Io.restore, hr] at hn
      cases hn
    · intro n hn
      simp only [Io.restore, List.mem_filter] at hn
      exact h2.2 n hn.1
  have e3 := writes_ok h3 ws3
  have hc3 : (io.suppress.2.suppress.2.restore io.suppress.1).cout = .real := by
    simp [Io.suppress, Io.restore, hr]
  simp only [hc3, if_true] at e3
  refine ⟨_, _, _, e1, e2, e3, ?_, ?_, ?_⟩
  · simp [Io.suppress, Io.restore]
  · simp [Io.suppress, Io.restore]
  · intro l
    have hn : io.next ∉ io.live := fun hm => by have := h.2 _ hm; omega
    simp [Io.write, Io.suppress, Io.restore]

/-! ### Concrete cases -/

/-- a program at its start -/
def io0 : Io := ⟨.real, [], 0, []⟩

example : io0.OK ∧ io0.cout = .real := ⟨⟨by simp [io0], by simp [io0]⟩, rfl⟩

/-- printing, a suppressed call that throws, an unsuppressed call, printing -/
example : (runActs [Act.print ['a'], .call (α := Nat) (.ok true) ([.nthread 1], .error (.exn .invalidArgument)),
    .call (.ok false) ([.nthread 2], .ok 5), .print ['b']] io0).map (fun io => (io.cout, io.out))
      = .ok (.real, [.user ['a'], .nthread 2, .user ['b']]) := by decide

end Votess
