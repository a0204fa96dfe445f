import Verif.Proofs.Recompute
import Verif.Proofs.KnnExact
import Verif.Props.Dnn
/-!
# C32, C33, C35–C39 — the CPU driver (any arithmetic)
-/
set_option linter.unusedSectionVars false
namespace Votess

open FP

variable {F D : Type} [FP F D]

/-! ### C32, C33: the index arithmetic -/

/-- C32: the runs cut `0 … n-1` into consecutive pieces, whatever the chunk size (also zero,
negative, larger than `n`, or a divisor of `n`, when the last piece is empty): every point
belongs to exactly one run, and every piece fits the work buffers. -/
theorem C32_chunks_partition (n : Nat) (cs : Int) :
    (∀ i, i < n → ∃ run, (run < chunkRuns n cs ∧ chunkStart cs run ≤ i ∧
        i < chunkEnd n (chunkRuns n cs) cs run) ∧
      ∀ run', (run' < chunkRuns n cs ∧ chunkStart cs run' ≤ i ∧
        i < chunkEnd n (chunkRuns n cs) cs run') → run' = run) ∧
    ∀ run, run < chunkRuns n cs → chunkStart cs run ≤ chunkEnd n (chunkRuns n cs) cs run ∧
      chunkEnd n (chunkRuns n cs) cs run ≤ n ∧
      chunkEnd n (chunkRuns n cs) cs run - chunkStart cs run ≤ chunkRows n cs := by
  by_cases hch : 0 < cs ∧ cs < (n : Int)
  · obtain ⟨m, rfl⟩ : ∃ m : Nat, cs = m := ⟨cs.toNat, by omega⟩
    have hm : 0 < m := by omega
    have e1 : chunkRuns n (m : Int) = n / m + 1 := by
      unfold chunkRuns; simp [hch.2]; omega
    have e2 : chunkRows n (m : Int) = m := by
      unfold chunkRows; simp; omega
    have e3 : ∀ run, chunkStart (m : Int) run = run * m := by
      intro run; unfold chunkStart; rw [← Int.natCast_mul]; rfl
    have hdiv : n / m * m ≤ n := Nat.div_mul_le_self _ _
    have hmod : n < n / m * m + m := Nat.lt_div_mul_add hm
    have e4 : ∀ run, chunkEnd n (n / m + 1) (m : Int) run = if run = n / m then n else run * m + m := by
      intro run; unfold chunkEnd; rw [e3, Nat.add_sub_cancel]; split <;> omega
    rw [e1, e2]
    have hle : ∀ run, run < n / m + 1 → run * m ≤ n / m * m :=
      fun run h => Nat.mul_le_mul_right _ (by omega)
    have hsucc : ∀ run, run < n / m → run * m + m ≤ n / m * m := by
      intro run h
      have : (run + 1) * m ≤ n / m * m := Nat.mul_le_mul_right _ h
      rwa [Nat.add_mul, Nat.one_mul] at this
    constructor
    · intro i hi
      have hdi : i / m * m ≤ i := Nat.div_mul_le_self _ _
      have hmi : i < i / m * m + m := Nat.lt_div_mul_add hm
      have hii : i / m ≤ n / m := Nat.div_le_div_right (by omega)
      refine ⟨i / m, ⟨by omega, by rw [e3]; exact hdi, ?_⟩, ?_⟩
      · rw [e4]; split <;> omega
      · rintro run ⟨h1, h2, h3⟩
        rw [e3] at h2; rw [e4] at h3
        have key : i < run * m + m := by
          split at h3
          · subst_vars; omega
          · exact h3
        have h4 : run ≤ i / m := (Nat.le_div_iff_mul_le hm).mpr h2
        have h5 : i / m < run + 1 := by
          rw [Nat.div_lt_iff_lt_mul hm, Nat.add_mul, Nat.one_mul]; exact key
        omega
    · intro run hrun
      have h1 := hle run hrun
      rw [e3, e4]
      split
      · subst_vars
        omega
      · have := hsucc run (by omega); omega
  · have e1 : chunkRuns n cs = 1 := by unfold chunkRuns; simp; omega
    have e2 : chunkRows n cs = n := by unfold chunkRows; simp; omega
    have e3 : chunkStart cs 0 = 0 := by simp [chunkStart]
    rw [e1, e2]
    have e4 : chunkEnd n 1 cs 0 = n := by simp [chunkEnd]
    constructor
    · intro i hi
      refine ⟨0, ⟨by omega, by omega, by omega⟩, fun run h => by omega⟩
    · intro run hrun
      obtain rfl : run = 0 := by omega
      omega

/-- C33: the rows of the threads are disjoint, cover the chunk, and stay inside buffers of `rows`
rows, although `threadsize` comes from the previous chunk's size `old`. -/
theorem C33_thread_ranges (nth old sub rows : Nat) (hn : 1 ≤ nth) (h1 : old ≤ rows)
    (h2 : sub ≤ rows) :
    (∀ i j x, i < nth → j < nth → i ≠ j → x ∈ threadRows nth (old / nth) sub i →
      x ∉ threadRows nth (old / nth) sub j) ∧
    (∀ x, x < sub → ∃ i, i < nth ∧ x ∈ threadRows nth (old / nth) sub i) ∧
    ∀ i x, i < nth → x ∈ threadRows nth (old / nth) sub i → x < rows := by
  refine ⟨?_, ?_, ?_⟩
  · intro i j x hi hj hij hx hx'
    rcases Nat.lt_or_gt_of_ne hij with h | h
    · exact threadRows_disjoint h hj hx hx'
    · exact threadRows_disjoint h hi hx' hx
  · intro x hx
    have := allRows_cover (ts := old / nth) hn hx
    unfold allRows at this
    obtain ⟨i, h3, h4⟩ := List.mem_flatMap.mp this
    exact ⟨i, List.mem_range.mp h3, h4⟩
  · intro i x hi hx
    exact allRows_lt (nth := nth) h1 h2 (List.mem_flatMap.mpr ⟨i, List.mem_range.mpr hi, hx⟩)

/-- a stale size: the chunk before had 10 points, this one has 3, there are 4 threads -/
example : (List.range 4).map (threadRows 4 (10 / 4) 3) = [[0, 1], [2, 3], [4, 5], []] := by decide

/-! ### whole calls -/

/-- parameters and points for which the driver is defined -/
structure JobOK (nb hw : Nat) (prm : Params) (xyz : List (Pt F)) : Prop where
  gr : 1 ≤ prm.gr
  ids : ∀ p ∈ xyz, ∀ c, cellId prm.gr p = .ok c →
    0 ≤ c ∧ c < prm.gr * prm.gr * prm.gr ∧ c < 256 ^ nb
  k1 : 1 ≤ prm.k
  k : prm.k < 65536
  pm6 : 6 ≤ prm.pm
  pm255 : prm.pm ≤ 255
  tm8 : 8 ≤ prm.tm
  tm : prm.tm < 32768
  threads : prm.nthreads ≠ 0 ∨ 1 ≤ hw

/-- the sizes as natural numbers -/
def Params.args (prm : Params) : CCArgs := ⟨prm.k.toNat, prm.pm.toNat, prm.tm.toNat⟩

/-- row `i` of the result, as seen through `dnn[i].size()` and `dnn[i][j]`, is `r` -/
def RowIs (d : Dnn) (i : Nat) (r : List Int) : Prop :=
  d.rowSize i = .ok r.length ∧ ∀ j v, r[j]? = some v → d.at i j = .ok v

section jobs
variable [Inhabited F] {nb hw : Nat} {prm : Params} {xyz : List (Pt F)} {S : Sorted F}

theorem JobOK.ccArgs (h : JobOK nb hw prm xyz) : ccArgs prm.k prm.pm prm.tm = .ok prm.args := by
  have h1 := h.k1; have h2 := h.pm6; have h3 := h.tm8
  unfold Votess.ccArgs Params.args
  rw [if_pos ⟨by omega, by omega, by omega⟩]

theorem JobOK.size (h : JobOK nb hw prm xyz) : SizeOK prm.args := by
  have h1 := h.k1; have h2 := h.pm6; have h3 := h.tm8; have h4 := h.k; have h5 := h.pm255
  have h6 := h.tm
  refine ⟨?_, ?_, ?_, ?_, ?_, ?_⟩ <;> simp only [Params.args] <;> omega

theorem JobOK.nth (h : JobOK nb hw prm xyz) : 1 ≤ nthOf hw prm := by
  unfold nthOf
  rcases h.threads with h | h
  · rw [if_pos h]; omega
  · split <;> omega

theorem JobOK.grid (h : JobOK nb hw prm xyz) (hs : xyzSort nb prm.gr xyz = .ok S) :
    GridOK prm.gr S.xyz.length S.id S.offset :=
  gridOK_of_sort nb prm.gr xyz S h.gr hs h.ids

theorem JobOK.ready (h : JobOK nb hw prm xyz) (hs : xyzSort nb prm.gr xyz = .ok S) :
    Ready S prm.gr prm.args := ready_of_grid (h.grid hs) h.size

/-- the first pass -/
theorem JobOK.first (h : JobOK nb hw prm xyz) (hs : xyzSort nb prm.gr xyz = .ok S) :
    cpuTesellate hw prm S (List.replicate S.xyz.length []) (List.replicate S.xyz.length State.init)
      = .ok ((List.range S.xyz.length).map (rowOf S prm.gr prm.args),
             (List.range S.xyz.length).map (stateOf S prm.gr prm.args)) :=
  cpuTesellate_spec h.ccArgs (h.ready hs) hw h.nth (by simp) (good_init S prm.gr prm.args)

/-- the output made of the final rows and states -/
def mkOut (S : Sorted F) (t : List (List Int)) (s : List State) : TessOut F where
  xyz := S.xyz
  dnn := getDnn t
  report := report s
  warnXyz := !validateXyzset S.xyz
  warnId := !validateId S.id

theorem JobOK.plain (h : JobOK nb hw prm xyz) (hs : xyzSort nb prm.gr xyz = .ok S)
    (hr : prm.useRecompute = false) : tesellateCpu nb hw prm xyz
      = .ok (mkOut S ((List.range S.xyz.length).map (rowOf S prm.gr prm.args))
          ((List.range S.xyz.length).map (stateOf S prm.gr prm.args))) := by
  unfold tesellateCpu
  simp only [hs, bind_ok]
  rw [h.first hs]
  simp only [bind_ok, hr, Bool.false_eq_true, if_false, pure_eq_ok]
  rfl

theorem JobOK.recomputed (h : JobOK nb hw prm xyz) (hs : xyzSort nb prm.gr xyz = .ok S)
    (hr : prm.useRecompute = true) {t' : List (List Int)} {s' : List State}
    (he : cpuRecompute hw prm S ((List.range S.xyz.length).map (rowOf S prm.gr prm.args))
        ((List.range S.xyz.length).map (stateOf S prm.gr prm.args)) = .ok (t', s')) :
    tesellateCpu nb hw prm xyz = .ok (mkOut S t' s') := by
  unfold tesellateCpu
  simp only [hs, bind_ok]
  rw [h.first hs]
  simp only [bind_ok, hr, if_true]
  rw [he]
  rfl

theorem rowOf_noSentinel (S : Sorted F) (gr : Int) (a : CCArgs) (i : Nat) :
    ∀ v ∈ rowOf S gr a i, v ≠ kUndefined := by
  intro v hv
  unfold rowOf at hv
  have := List.all_eq_true.mp (List.all_takeWhile (p := fun v => decide (v ≠ kUndefined))
    (l := (soloOf S gr a i).1)) v hv
  simpa using this

theorem rowIs_getDnn {rows : List (List Int)} (h : NoSentinel rows) {i : Nat} {r : List Int}
    (hr : rows[i]? = some r) (hl : r.length < 2 ^ 64) : RowIs (getDnn rows) i r := by
  obtain ⟨hi, rfl⟩ := List.getElem?_eq_some_iff.mp hr
  refine ⟨C40_row_size rows h i hi hl, fun j v hv => ?_⟩
  obtain ⟨hj, rfl⟩ := List.getElem?_eq_some_iff.mp hv
  exact C40_at rows h i j hi hj

theorem takeWhile_length_le' {α : Type} (p : α → Bool) (l : List α) :
    (l.takeWhile p).length ≤ l.length := (List.takeWhile_sublist p).length_le

theorem Ready.row_length {gr : Int} {a : CCArgs} (h : Ready S gr a) {i : Nat}
    (hi : i < S.xyz.length) : (rowOf S gr a i).length ≤ a.k := by
  obtain ⟨row, o, p, h1, h2, h3, h4, h5⟩ := h.res hi
  obtain ⟨row', e1, e2, e3⟩ := h.knn i hi
  rw [h1] at e1; cases e1
  unfold rowOf
  rw [h5]
  refine Nat.le_trans (takeWhile_length_le' _ _) ?_
  rcases h4.res with ⟨-, h6⟩ | ⟨h6, -, -, h7⟩
  · rw [h6]; simp [e2]
  · simp only [h7, List.length_append, List.length_replicate]
    have := selected_length_le (o.s.T.take o.s.tsize) o.s.dknn (row.map (·.1))
    have := h6.klen
    omega

/-- C32: without recompute the call succeeds, and whatever the chunks and threads every row of the
result is the row computed for that point alone in fresh buffers. -/
theorem C32_rows (h : JobOK nb hw prm xyz) (hs : xyzSort nb prm.gr xyz = .ok S)
    (hr : prm.useRecompute = false) :
    ∃ out, tesellateCpu nb hw prm xyz = .ok out ∧ out.xyz = S.xyz ∧
      (S.xyz.length < 2 ^ 64 → out.dnn.size = S.xyz.length) ∧
      ∀ i, i < S.xyz.length → RowIs out.dnn i (rowOf S prm.gr prm.args i) := by
  have hns : NoSentinel ((List.range S.xyz.length).map (rowOf S prm.gr prm.args)) := by
    intro r hr v hv
    obtain ⟨i, -, rfl⟩ := List.mem_map.mp hr
    exact rowOf_noSentinel S prm.gr prm.args i v hv
  refine ⟨_, h.plain hs hr, rfl, ?_, ?_⟩
  all_goals simp only [mkOut]
  · intro hl
    have := C40_size _ hns (by simpa using hl)
    simpa using this
  · intro i hi
    refine rowIs_getDnn hns (by simp [hi]) ?_
    have h1 := (h.ready hs).row_length hi
    have h2 := h.size.k
    omega

/-- C32: chunking does not change anything, with or without recompute. -/
theorem C32_chunking_irrelevant (h : JobOK nb hw prm xyz) (uc : Bool) (cs : Int) :
    tesellateCpu nb hw { prm with useChunking := uc, chunksize := cs } xyz
      = tesellateCpu nb hw prm xyz := by
  have h' : JobOK nb hw { prm with useChunking := uc, chunksize := cs } xyz :=
    ⟨h.gr, h.ids, h.k1, h.k, h.pm6, h.pm255, h.tm8, h.tm, h.threads⟩
  cases hs : xyzSort nb prm.gr xyz with
  | error e =>
    unfold tesellateCpu
    simp only [hs]; rfl
  | ok S =>
    have e1 := h.first hs
    have e2 := h'.first hs
    unfold tesellateCpu
    simp only [hs, bind_ok]
    rw [e1, e2]
    rfl

/-- C33: neither does the number of threads (or the number of processors, used when
`cpu_nthreads` is 0), as long as there is at least one.  With recompute the sizes must stay in range:
at most 65536 points, and no cell with more than 128 planes. -/
theorem C33_threads_irrelevant (h : JobOK nb hw prm xyz) (hw' nt' : Nat) (hn : nt' ≠ 0 ∨ 1 ≤ hw')
    (hrec : prm.useRecompute = true → ∀ S, xyzSort nb prm.gr xyz = .ok S → 2 ≤ S.xyz.length ∧
      S.xyz.length ≤ 65536 ∧ PlanesBounded S prm.gr (max prm.args.k (S.xyz.length - 1))) :
    tesellateCpu nb hw' { prm with nthreads := nt' } xyz = tesellateCpu nb hw prm xyz := by
  have h' : JobOK nb hw' { prm with nthreads := nt' } xyz :=
    ⟨h.gr, h.ids, h.k1, h.k, h.pm6, h.pm255, h.tm8, h.tm, hn⟩
  cases hs : xyzSort nb prm.gr xyz with
  | error e =>
    unfold tesellateCpu
    simp only [hs]; rfl
  | ok S =>
    rcases Bool.eq_false_or_eq_true prm.useRecompute with hu | hu
    · obtain ⟨g1, g2, g3⟩ := hrec hu S hs
      obtain ⟨t', s', h1, -⟩ := cpuRecompute_spec h.ccArgs h.size (h.grid hs) g1 g2 g3
        (Nat.le_max_right _ _) (Nat.le_max_left _ _)
      rw [h.recomputed hs hu (h1 hw prm.nthreads h.nth), h'.recomputed hs hu (h1 hw' nt' h'.nth)]
    · rw [h.plain hs hu, h'.plain hs hu]; rfl

end jobs

/-! ### recompute, whatever the cells do -/

section recompute
variable {S : Sorted F} {gr : Int} {nth : Nat}

/-- C35: `m` rounds that ask for another one multiply `k` by `2^m`, and it is still below `n-1`.
So there are fewer than `log2 n` of them. -/
theorem C35_rounds {m : Nat} {r r' : RecState} (h : Rounds S gr nth m r r') (hk : 1 ≤ r.k)
    (hm : 1 ≤ m) : r'.k = r.k * 2 ^ m ∧ r.k * 2 ^ m < S.xyz.length - 1 ∧ 2 ^ m < S.xyz.length := by
  obtain ⟨h1, h2⟩ := h.k
  have h3 := h2 hm
  rw [h1] at h3
  refine ⟨h1, h3, ?_⟩
  have h4 : (1 : Int) ≤ 2 ^ m := by
    have : 0 < (2 : Int) ^ m := Int.pow_pos (by decide)
    omega
  have h5 : 1 * (2 : Int) ^ m ≤ r.k * 2 ^ m := Int.mul_le_mul_of_nonneg_right hk (by omega)
  have h6 : (2 : Int) ^ m < S.xyz.length := by omega
  exact_mod_cast h6

/-- C35: the loop ends: with `n ≤ 2^fuel` it is never cut off by the bound `fuel + 1` on the number
of rounds; a failure is the failure of one of its rounds. -/
theorem C35_terminates {r : RecState} {fuel : Nat} {e : UB} (hk : 1 ≤ r.k)
    (hf : S.xyz.length ≤ 2 ^ fuel) (h : recLoop S gr nth (fuel + 1) r = .error e) :
    ∃ m r', m ≤ fuel ∧ Rounds S gr nth m r r' ∧ recRound S gr nth r' = .error e := by
  rcases recLoop_error (fuel + 1) r e h with ⟨m, r1, h1, h2, h3⟩ | ⟨r1, h2⟩
  · exact ⟨m, r1, by omega, h2, h3⟩
  · have := (C35_rounds h2 hk (by omega)).2.2
    have : 2 ^ fuel ≤ 2 ^ (fuel + 1) := Nat.pow_le_pow_right (by omega) (by omega)
    omega

/-- C35: in particular `__cpu__recompute` itself always ends. -/
theorem C35_recompute_terminates {hw : Nat} {prm : Params} {tmpnn : List (List Int)}
    {states : List State} {e : UB} (hk : 1 ≤ prm.k)
    (h : cpuRecompute hw prm S tmpnn states = .error e) :
    ∃ r' : RecState, recRound S prm.gr (if prm.nthreads ≠ 0 then prm.nthreads else hw) r' = .error e := by
  unfold cpuRecompute at h
  simp only at h
  generalize hr : (recLoop S prm.gr (if prm.nthreads ≠ 0 then prm.nthreads else hw) (S.xyz.length + 2)
    _) = o at h
  cases o with
  | ok r => cases h
  | error e' =>
    cases h
    obtain ⟨m, r', -, -, h3⟩ := C35_terminates (fuel := S.xyz.length + 1) hk (by
      have : S.xyz.length + 1 < 2 ^ (S.xyz.length + 1) := Nat.lt_two_pow_self
      omega) hr
    exact ⟨r', h3⟩

/-- C36: a point that is not among the indices left over keeps its row in all further rounds -/
theorem recLoop_frame {r r2 : RecState} {fuel : Nat} (h : recLoop S gr nth fuel r = .ok r2) {j : Nat}
    {s : State} (hs : r.states[j]? = some s) (hd : s.get .security_radius_reached = true) :
    r2.tmpnn[j]? = r.tmpnn[j]? := by
  have step : ∀ {o : RecStep} {r' : RecState}, recRound S gr nth r = .ok o → (o = .done r' ∨ o = .next r') →
      (j : Int) ∉ r'.indices ∧ r'.tmpnn[j]? = r.tmpnn[j]? := by
    intro o r' ho hr
    obtain ⟨r3, h1, h2, h3⟩ := recRound_frame ho
    have : r3 = r' := by
      rcases h1 with h1 | ⟨h1, -⟩ <;> rcases hr with hr | hr <;> rw [hr] at h1 <;> cases h1 <;> rfl
    subst this
    have hn : (j : Int) ∉ r3.indices := by
      intro hm
      obtain ⟨-, s', e1, e2⟩ := h2 _ hm
      rw [rdI_natCast, rd_eq_ok, hs] at e1
      cases e1
      rw [hd] at e2; cases e2
    exact ⟨hn, h3 j hn⟩
  cases fuel with
  | zero => cases h
  | succ fuel =>
    unfold recLoop at h
    rw [bind_eq_ok] at h
    obtain ⟨o, h1, h2⟩ := h
    cases o with
    | done r' => cases h2; exact (step h1 (Or.inl rfl)).2
    | next r' =>
      obtain ⟨a1, a2⟩ := step h1 (Or.inr rfl)
      obtain ⟨m, r1, -, b1, b2⟩ := recLoop_rounds fuel r' r2 h2
      obtain ⟨c1, c2⟩ := b1.frame
      obtain ⟨r3, d1, d2, d3⟩ := recRound_frame b2
      rcases d1 with d1 | ⟨d1, -⟩
      · cases d1
        rw [d3 j (fun hm => a1 (c1 _ (d2 _ hm).1)), c2 j a1, a2]
      · cases d1

/-- C36: a row whose cell reached its security radius before recompute is returned unchanged. -/
theorem C36_completed_before {hw : Nat} {prm : Params} {tmpnn t' : List (List Int)}
    {states s' : List State} (h : cpuRecompute hw prm S tmpnn states = .ok (t', s')) {j : Nat} {s : State}
    (hs : states[j]? = some s) (hd : s.get .security_radius_reached = true) : t'[j]? = tmpnn[j]? := by
  unfold cpuRecompute at h
  simp only [bind_eq_ok] at h
  obtain ⟨r, h1, h2⟩ := h
  cases h2
  exact recLoop_frame h1 (j := j) hs hd

/-- C36: whatever happened in the rounds before, a row that has reached its security radius when a
round begins is not changed by this and all later rounds. -/
theorem C36_completed_during {m fuel : Nat} {r0 r r2 : RecState} (_before : Rounds S gr nth m r0 r)
    (h : recLoop S gr nth fuel r = .ok r2) {j : Nat} {s : State} (hs : r.states[j]? = some s)
    (hd : s.get .security_radius_reached = true) : r2.tmpnn[j]? = r.tmpnn[j]? :=
  recLoop_frame h hs hd

/-- C39: when a round has nothing left to do, all flags are gone: the counters say that no cell
reached its security radius and that there were no errors, whatever really happened. -/
theorem C39_flags_lost {r r2 : RecState} (h : recRound S gr nth r = .ok (.done r2))
    (hd : r2.indices = []) : report r2.states = ⟨r.states.length, 0, 0, 0, 0, 0, 0⟩ := by
  have : r2.states = List.replicate r.states.length .init := by
    unfold recRound at h
    rw [bind_eq_ok] at h
    obtain ⟨⟨ixs, up, ut⟩, h1, h⟩ := h
    simp only at h
    split at h
    · cases h; exact reset_all _
    · rename_i hne
      rw [bind_eq_ok] at h
      obtain ⟨a, h2, h⟩ := h
      split at h
      · cases h
      · rw [bind_eq_ok] at h
        obtain ⟨⟨bufs, st⟩, h3, h⟩ := h
        rw [bind_eq_ok] at h
        obtain ⟨t', h4, h⟩ := h
        generalize (if (S.xyz.length : Int) - 1 < r.k * 2 then (S.xyz.length : Int) - 1 else r.k * 2)
          = k' at h
        split at h <;> cases h
        simp only at hd
        rw [hd] at hne; exact absurd rfl hne
  rw [this]
  simp only [report, List.countP_replicate, State.get_init]
  simp

end recompute

section jobs2
variable [Inhabited F] {nb hw : Nat} {prm : Params} {xyz : List (Pt F)} {S : Sorted F}

/-- C37: after recompute every row is the row of a cell that reached its security radius or that was
computed with `k ≥ n-1` candidates. -/
theorem C37_rows (h : JobOK nb hw prm xyz) (hs : xyzSort nb prm.gr xyz = .ok S)
    (hr : prm.useRecompute = true) (h2 : 2 ≤ S.xyz.length) (h64 : S.xyz.length ≤ 65536)
    (hb : PlanesBounded S prm.gr (max prm.args.k (S.xyz.length - 1))) :
    ∃ out, tesellateCpu nb hw prm xyz = .ok out ∧ out.xyz = S.xyz ∧
      ∀ i, i < S.xyz.length → ∃ a, SizeOK a ∧ RowIs out.dnn i (rowOf S prm.gr a i) ∧
        ((stateOf S prm.gr a i).get .security_radius_reached = true ∨ S.xyz.length - 1 ≤ a.k) := by
  obtain ⟨t', s', h1, h3, h4, h5⟩ := cpuRecompute_spec h.ccArgs h.size (h.grid hs) h2 h64 hb
    (Nat.le_max_right _ _) (Nat.le_max_left _ _)
  have r1 := h1 hw prm.nthreads h.nth
  have hns : NoSentinel t' := by
    intro r hr v hv
    obtain ⟨i, hi, rfl⟩ := List.getElem_of_mem hr
    obtain ⟨a, -, e, -⟩ := h5 i (by omega)
    rw [List.getElem?_eq_getElem hi] at e
    injection e with e
    rw [e] at hv
    exact rowOf_noSentinel S prm.gr a i v hv
  refine ⟨_, h.recomputed hs hr r1, rfl, ?_⟩
  simp only [mkOut]
  intro i hi
  obtain ⟨a, g1, g2, g3⟩ := h5 i hi
  refine ⟨a, g1, rowIs_getDnn hns g2 ?_, g3⟩
  have := (ready_of_grid (h.grid hs) g1).row_length hi
  have := g1.k
  omega

/-- C39: without recompute the counters count the cells with the flag. -/
theorem C39_counters (h : JobOK nb hw prm xyz) (hs : xyzSort nb prm.gr xyz = .ok S)
    (hr : prm.useRecompute = false) :
    ∃ out, tesellateCpu nb hw prm xyz = .ok out ∧
      let count := fun f : Status => (List.range S.xyz.length).countP fun i =>
        (stateOf S prm.gr prm.args i).get f
      out.report.srNotReached + count .security_radius_reached = S.xyz.length ∧
      out.report.infBoundary = count .error_infinite_boundary ∧
      out.report.nvalidVertices = count .error_nonvalid_vertices ∧
      out.report.nvalidNeighbor = count .error_nonvalid_neighbor ∧
      out.report.pOverflow = count .error_p_overflow ∧
      out.report.tOverflow = count .error_t_overflow ∧
      out.report.error = count .error_occurred := by
  refine ⟨_, h.plain hs hr, ?_⟩
  simp only [mkOut, report, List.countP_map, Function.comp_def, and_true]
  have := List.length_eq_countP_add_countP (l := List.range S.xyz.length)
    (fun i => (stateOf S prm.gr prm.args i).get .security_radius_reached)
  rw [List.length_range] at this
  simp only [Bool.not_eq_true, Bool.decide_eq_false] at this
  omega

/-- C39: with recompute, a run in which every cell reached its security radius at once reports that
none did, although the rows are those of the run without recompute. -/
theorem C39_recompute_counters (h : JobOK nb hw prm xyz) (hs : xyzSort nb prm.gr xyz = .ok S)
    (hr : prm.useRecompute = true) (hall : ∀ i, i < S.xyz.length →
      (stateOf S prm.gr prm.args i).get .security_radius_reached = true) :
    ∃ out out', tesellateCpu nb hw prm xyz = .ok out ∧
      tesellateCpu nb hw { prm with useRecompute := false } xyz = .ok out' ∧ out.dnn = out'.dnn ∧
      out.report = ⟨S.xyz.length, 0, 0, 0, 0, 0, 0⟩ ∧ out'.report.srNotReached = 0 := by
  have h' : JobOK nb hw { prm with useRecompute := false } xyz :=
    ⟨h.gr, h.ids, h.k1, h.k, h.pm6, h.pm255, h.tm8, h.tm, h.threads⟩
  generalize hst : (List.range S.xyz.length).map (stateOf S prm.gr prm.args) = states
  generalize htm : (List.range S.xyz.length).map (rowOf S prm.gr prm.args) = tmpnn
  have hix : ((List.range S.xyz.length).filter fun i =>
      match states[i]? with
      | some s => !s.get .security_radius_reached
      | none => false) = [] := by
    rw [List.filter_eq_nil_iff]
    intro i hi
    rw [List.mem_range] at hi
    rw [← hst]
    simp [hi, hall i hi]
  have hk := h.k1; have hp := h.pm6; have ht := h.tm8
  have hrec : cpuRecompute hw prm S tmpnn states
      = .ok (tmpnn, List.replicate S.xyz.length .init) := by
    have hd := recRound_done (S := S) (gr := prm.gr)
      (nth := if prm.nthreads ≠ 0 then prm.nthreads else hw)
      (r := { k := prm.k, pm := prm.pm, tm := prm.tm, indices := [], tmpnn := tmpnn, states := states })
      (ixs := []) ⟨rfl, by simp, by rw [← htm]; simp, by rw [← hst]; simp, hk, by simp only; omega,
        by simp only; omega⟩ rfl
    have hl : recLoop S prm.gr (if prm.nthreads ≠ 0 then prm.nthreads else hw) (S.xyz.length + 2)
        { k := prm.k, pm := prm.pm, tm := prm.tm,
          indices := ((List.range S.xyz.length).filter fun i =>
            match states[i]? with
            | some s => !s.get .security_radius_reached
            | none => false).map fun i : Nat => (i : Int),
          tmpnn := tmpnn, states := states }
        = .ok { k := prm.k, pm := prm.pm, tm := prm.tm, indices := [], tmpnn := tmpnn,
                states := List.replicate S.xyz.length .init } := by
      rw [hix]
      unfold recLoop
      rw [List.map_nil, hd]; rfl
    unfold cpuRecompute
    exact congrArg (fun m : M RecState => m >>= fun r => pure (r.tmpnn, r.states)) hl
  rw [← htm, ← hst] at hrec
  refine ⟨_, _, h.recomputed hs hr hrec, h'.plain hs rfl, rfl, ?_, ?_⟩
  · simp only [mkOut, report, List.countP_replicate, State.get_init]; simp
  · simp only [mkOut, report]
    rw [List.countP_map, List.countP_eq_zero]
    intro i hi
    rw [List.mem_range] at hi
    have := hall i hi
    simp only [Function.comp, Bool.not_eq_true, Bool.not_eq_false']
    exact this

end jobs2

end Votess
