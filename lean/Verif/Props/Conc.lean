import Verif.Proofs.ProgRun
import Verif.Props.TessExamples
/-!
# C34 — worker threads

The threads of a run share one memory (`cpuMem`) and interleave single accesses.  However they are
scheduled, they never access a location at the same time with one of them writing, never leave the
buffers, perform a fixed number of accesses and end in the memory that the driver model of
`Verif.Model.Driver` computes task by task.  No law of arithmetic is used.
-/
set_option linter.unusedSectionVars false

namespace Votess

open FP

variable {F D : Type} [FP F D]

/-- A parallel region: if no point occurs twice in `indices` and the tasks can be executed one after
the other, every schedule of the threads ends in the same memory, without races. -/
theorem C34_region {S : Sorted F} {gr : Int} {a : CCArgs} {indices : List Int} {rows : Nat}
    {nth ts sub : Nat} {b b' : Bufs F D} {states states' : List State} (hw : WF a rows b)
    (hn : indices.Nodup)
    (h : (allRows nth ts sub).foldlM (fun st idx => runTask S gr a indices idx st) (b, states)
      = .ok (b', states')) :
    ∃ total, Sys.Settles ⟨cpuMem a S indices b states, cpuThreads gr a nth ts sub⟩
      (cpuMem a S indices b' states') total :=
  (region_settles hw hn h).2

/-- every run of `__cpu__tesellate`, as reached by the driver -/
theorem C34_runs {S : Sorted F} {gr : Int} {a : CCArgs} {nth : Nat} {cs : Int}
    {tmpnn : List (List Int)} {states : List State} {run : Nat}
    (hrun : run < chunkRuns S.xyz.length cs) {r r' : RunState F D}
    (h : forN run (cpuRun S gr a nth (chunkRuns S.xyz.length cs) cs)
      (cpuStart a (chunkRows S.xyz.length cs) tmpnn states) = .ok r)
    (h' : cpuRun S gr a nth (chunkRuns S.xyz.length cs) cs run r = .ok r') :
    ∃ total, Sys.Settles ⟨cpuMem a S r'.indices r.bufs.refill r.states,
        cpuThreads gr a nth (r.subsize / nth) r'.subsize⟩
      (cpuMem a S r'.indices r'.bufs r'.states) total := by
  obtain ⟨c, hb, hc⟩ := between_all run (Nat.le_of_lt hrun) h
  obtain ⟨b1, b2, b3, b4⟩ := chunk_bounds (n := S.xyz.length) (cs := cs) hrun
  exact (between_step hb (hc hrun).symm rfl (by rw [hc hrun]; exact b1)
    (by rw [hc hrun]; exact b2) (by rw [hc hrun]; exact b3) h').2

theorem forN_prefix {σ : Type} {n : Nat} {f : Nat → σ → M σ} {s t : σ} (h : forN n f s = .ok t)
    {i : Nat} (hi : i < n) : ∃ u v, forN i f s = .ok u ∧ f i u = .ok v := by
  induction n generalizing t with
  | zero => omega
  | succ n ih =>
    rw [forN_succ, bind_eq_ok] at h
    obtain ⟨u, h1, h2⟩ := h
    by_cases e : i = n
    · subst e; exact ⟨u, t, h1, h2⟩
    · exact ih h1 (by omega)

/-- size of the chunks of a call; src/votess.ipp:383-389 -/
def csOf (prm : Params) (refsize : Nat) : Int :=
  if prm.useChunking then prm.chunksize else refsize + 1

/-- a whole call: every run it performs settles in the memory with which the call continues -/
theorem C34_call [Inhabited F] {nb hw : Nat} {prm : Params} {xyz : List (Pt F)} {out : TessOut F}
    (h : tesellateCpu nb hw prm xyz = .ok out) :
    ∃ (S : Sorted F) (a : CCArgs), xyzSort nb prm.gr xyz = .ok S ∧
      ccArgs prm.k prm.pm prm.tm = .ok a ∧
      ∀ run, run < chunkRuns S.xyz.length (csOf prm S.xyz.length) →
        ∃ (r r' : RunState F D) (total : Nat),
        forN run (cpuRun S prm.gr a (nthOf hw prm) (chunkRuns S.xyz.length (csOf prm S.xyz.length))
          (csOf prm S.xyz.length))
          (cpuStart a (chunkRows S.xyz.length (csOf prm S.xyz.length))
            (List.replicate S.xyz.length []) (List.replicate S.xyz.length State.init)) = .ok r ∧
        cpuRun S prm.gr a (nthOf hw prm) (chunkRuns S.xyz.length (csOf prm S.xyz.length))
          (csOf prm S.xyz.length) run r = .ok r' ∧
        Sys.Settles ⟨cpuMem a S r'.indices r.bufs.refill r.states,
            cpuThreads prm.gr a (nthOf hw prm) (r.subsize / nthOf hw prm) r'.subsize⟩
          (cpuMem a S r'.indices r'.bufs r'.states) total := by
  unfold tesellateCpu at h
  simp only [bind_eq_ok] at h
  obtain ⟨S, hS, ⟨tmpnn, states⟩, h1, _⟩ := h
  unfold cpuTesellate at h1
  simp only [bind_eq_ok] at h1
  obtain ⟨a, ha, r, h2, _⟩ := h1
  refine ⟨S, a, hS, ha, fun run hrun => ?_⟩
  obtain ⟨r, r', e1, e2⟩ := forN_prefix h2 hrun
  obtain ⟨total, e3⟩ := C34_runs hrun e1 e2
  exact ⟨r, r', total, e1, e2, e3⟩

/-! ## recompute -/

/-- rounds of recompute that follow `r0` -/
inductive RecReach (S : Sorted F) (gr : Int) (nth : Nat) (r0 : RecState) : RecState → Prop
  | refl : RecReach S gr nth r0 r0
  | step {r r' : RecState} : RecReach S gr nth r0 r → recRound S gr nth r = .ok (.next r') →
      RecReach S gr nth r0 r'

/-- the variables after a round -/
def RecStep.state : RecStep → RecState
  | .done r => r
  | .next r => r

theorem recFilter_sub (l : List Int) (states : List State) (acc res : List Int × Bool × Bool)
    (h : l.foldlM (fun (acc : List Int × Bool × Bool) index => do
      let s ← rdI states index
      pure (if s.get .security_radius_reached then acc.1 else acc.1 ++ [index],
          acc.2.1 || s.get .error_p_overflow, acc.2.2 || s.get .error_t_overflow)) acc = .ok res) :
    ∃ l', res.1 = acc.1 ++ l' ∧ l'.Sublist l := by
  induction l generalizing acc with
  | nil =>
    simp only [List.foldlM_nil, pure_eq_ok, Except.ok.injEq] at h
    exact ⟨[], by simp [h], List.Sublist.refl _⟩
  | cons x l ih =>
    simp only [List.foldlM_cons, bind_eq_ok, pure_eq_ok, Except.ok.injEq] at h
    obtain ⟨acc', ⟨s, _, rfl⟩, h⟩ := h
    obtain ⟨l', h1, h2⟩ := ih _ h
    simp only at h1
    split at h1
    · exact ⟨l', h1, h2.cons x⟩
    · exact ⟨x :: l', by simp [h1], h2.cons_cons x⟩

/-- one round of recompute -/
theorem C34_round {S : Sorted F} {gr : Int} {nth : Nat} {r : RecState} {o : RecStep}
    (hn : r.indices.Nodup) (h : recRound S gr nth r = .ok o) : o.state.indices.Nodup ∧
      (o.state.indices ≠ [] → ∃ (a : CCArgs) (b' : Bufs F D) (total : Nat),
        ccArgs o.state.k o.state.pm o.state.tm = .ok a ∧
        Sys.Settles ⟨cpuMem a S o.state.indices
              (Bufs.alloc o.state.indices.length a.k a.pm a.tm : Bufs F D) (r.states.map State.reset),
            cpuThreads gr a nth (o.state.indices.length / nth) o.state.indices.length⟩
          (cpuMem a S o.state.indices b' o.state.states) total ∧
        tmpnnFill o.state.indices o.state.indices.length b'.heap r.tmpnn = .ok o.state.tmpnn) := by
  unfold recRound at h
  rw [bind_eq_ok] at h
  obtain ⟨⟨indices, updp, updt⟩, hf, h⟩ := h
  obtain ⟨l', e1, e2⟩ := recFilter_sub _ _ _ _ hf
  simp only [List.nil_append] at e1
  subst e1
  have hnd : indices.Nodup := hn.sublist e2
  simp only at h
  by_cases h0 : indices.length = 0
  · rw [if_pos h0] at h
    cases h
    exact ⟨hnd, fun hne => absurd (List.eq_nil_of_length_eq_zero h0) hne⟩
  · rw [if_neg h0] at h
    rw [bind_eq_ok] at h
    obtain ⟨a, ha, h⟩ := h
    by_cases hz : nth = 0
    · rw [if_pos hz] at h; cases h
    rw [if_neg hz] at h
    simp only [bind_eq_ok] at h
    obtain ⟨⟨b', states'⟩, hfold, tmpnn, htmp, h⟩ := h
    obtain ⟨total, hset⟩ := C34_region (WF.alloc a indices.length) hnd hfold
    generalize (if ((S.xyz.length : Int) - 1 < r.k * 2) then (S.xyz.length : Int) - 1 else r.k * 2) = k
      at h ha
    by_cases hk : (S.xyz.length : Int) - 1 ≤ k
    · rw [if_pos hk] at h
      cases h
      exact ⟨hnd, fun _ => ⟨a, b', total, ha, hset, htmp⟩⟩
    · rw [if_neg hk] at h
      cases h
      exact ⟨hnd, fun _ => ⟨a, b', total, ha, hset, htmp⟩⟩

theorem RecReach.nodup {S : Sorted F} {gr : Int} {nth : Nat} {r0 r : RecState}
    (h : RecReach S gr nth r0 r) (hn : r0.indices.Nodup) : r.indices.Nodup := by
  induction h with
  | refl => exact hn
  | step _ h2 ih => exact (C34_round ih h2).1

/-- every round of `__cpu__recompute` -/
theorem C34_recompute {S : Sorted F} {gr : Int} {nth : Nat} {r0 r : RecState} {o : RecStep}
    (hi : ∃ l : List Nat, l.Nodup ∧ r0.indices = l.map fun i : Nat => (i : Int))
    (hr : RecReach S gr nth r0 r) (h : recRound S gr nth r = .ok o)
    (hne : o.state.indices ≠ []) : ∃ (a : CCArgs) (b' : Bufs F D) (total : Nat),
      ccArgs o.state.k o.state.pm o.state.tm = .ok a ∧
      Sys.Settles ⟨cpuMem a S o.state.indices
            (Bufs.alloc o.state.indices.length a.k a.pm a.tm : Bufs F D) (r.states.map State.reset),
          cpuThreads gr a nth (o.state.indices.length / nth) o.state.indices.length⟩
        (cpuMem a S o.state.indices b' o.state.states) total ∧
      tmpnnFill o.state.indices o.state.indices.length b'.heap r.tmpnn = .ok o.state.tmpnn := by
  obtain ⟨l, h1, h2⟩ := hi
  have hn : r0.indices.Nodup := by
    rw [h2]
    exact List.Pairwise.map _ (fun a b h h' => h (Int.ofNat_inj.mp h')) h1
  exact (C34_round (hr.nodup hn) h).2 hne

/-- the indices `__cpu__recompute` starts with are distinct -/
theorem C34_recompute_start (n : Nat) (f : Nat → Bool) :
    ∃ l : List Nat, l.Nodup ∧ ((List.range n).filter f).map (fun i : Nat => (i : Int))
      = l.map fun i : Nat => (i : Int) :=
  ⟨_, List.nodup_range.sublist List.filter_sublist, rfl⟩

/-! ## consequences -/

/-- two complete executions from the same state end in the same memory -/
theorem C34_deterministic {s t u : Sys F D} {m : Mem F D} {total i j : Nat}
    (h : s.Settles m total) (ht : Steps i s t) (hu : Steps j s u) (dt : t.Done) (du : u.Done) :
    t.mem = u.mem ∧ i = j := by
  obtain ⟨h1, h2⟩ := h.result i t ht dt
  obtain ⟨h3, h4⟩ := h.result j u hu du
  exact ⟨h1.trans h3.symm, h2.trans h4.symm⟩

/-- a complete execution exists -/
theorem C34_terminates {s : Sys F D} {m : Mem F D} {total : Nat} (h : s.Settles m total) :
    ∃ t, Steps total s t ∧ t.Done ∧ t.mem = m := by
  have snoc : ∀ {n : Nat} {a b c : Sys F D}, Steps n a b → Step b c → Steps (n + 1) a c := by
    intro n a b c hab
    induction hab with
    | refl s => exact fun hc => .step hc (.refl _)
    | step h1 _ ih => exact fun hc => .step h1 (ih hc)
  suffices hg : ∀ k i t, Steps i s t → total ≤ i + k → ∃ t', Steps total s t' ∧ t'.Done ∧ t'.mem = m from
    hg total 0 s (.refl s) (by omega)
  intro k
  induction k with
  | zero =>
    intro i t ht hi
    have hb := h.bounded i t ht
    have : i = total := by omega
    subst this
    rcases h.progress _ t ht with hd | ⟨u, hu⟩
    · exact ⟨t, ht, hd, (h.result _ t ht hd).1⟩
    · have := h.bounded _ u (snoc ht hu)
      omega
  | succ k ih =>
    intro i t ht hi
    rcases h.progress _ t ht with hd | ⟨u, hu⟩
    · obtain ⟨h1, h2⟩ := h.result _ t ht hd
      subst h2
      exact ⟨t, ht, hd, h1⟩
    · exact ih (i + 1) u (snoc ht hu) (by omega)

/-! ## a concrete call: 2 points, 3 threads, chunks of 1 point -/

example : ∃ out, tesellateCpu 4 1 exPrm' cellXyz = .ok out ∧ exPrm'.nthreads = 3 ∧
    exPrm'.useChunking = true := by
  obtain ⟨out, h, -⟩ := exRun'
  exact ⟨out, h, rfl, rfl⟩

example : ∃ (S : Sorted ℚ) (r r' : RunState ℚ (WithTop ℚ)) (total : Nat),
    xyzSort 4 exPrm'.gr cellXyz = .ok S ∧
    Sys.Settles ⟨cpuMem ⟨2, 7, 12⟩ S r'.indices r.bufs.refill r.states,
        cpuThreads exPrm'.gr ⟨2, 7, 12⟩ 3 (r.subsize / 3) r'.subsize⟩
      (cpuMem ⟨2, 7, 12⟩ S r'.indices r'.bufs r'.states) total := by
  obtain ⟨out, h, -⟩ := exRun'
  obtain ⟨S, a, h1, h2, h3⟩ := C34_call h
  cases h2
  obtain ⟨r, r', total, -, -, h4⟩ := h3 0 (by
    unfold chunkRuns
    split <;> exact Nat.succ_pos _)
  exact ⟨S, r, r', total, h1, h4⟩

end Votess
