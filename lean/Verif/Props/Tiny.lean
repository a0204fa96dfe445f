import Verif.Props.Tessellation
/-!
# C38 — `k = 0` and single points
-/
set_option linter.unusedSectionVars false
namespace Votess

open FP

section any
variable {F D : Type} [FP F D]

theorem foldlM_oob {α σ : Type} {f : σ → α → M σ} {s : σ}
    (h : ∀ x, f s x = .ok s ∨ f s x = .error .oob) :
    ∀ l : List α, l.foldlM f s = .ok s ∨ l.foldlM f s = .error .oob
  | [] => Or.inl rfl
  | x :: l => by
    rw [List.foldlM_cons]
    rcases h x with hx | hx
    · rw [hx]; exact foldlM_oob h l
    · rw [hx]; exact Or.inr rfl

theorem rd_cases {α : Type} (a : List α) (i : Nat) : (∃ x, rd a i = .ok x) ∨ rd a i = .error .oob := by
  unfold rd; split
  · exact Or.inl ⟨_, rfl⟩
  · exact Or.inr rfl

theorem rdI_cases {α : Type} (a : List α) (i : Int) : (∃ x, rdI a i = .ok x) ∨ rdI a i = .error .oob := by
  unfold rdI; split
  · exact rd_cases _ _
  · exact Or.inr rfl

/-- the search needs a first element in the row -/
theorem knnCompute_empty (xyz : List (Pt F)) (id offset : List Int) (index : Int) {gr : Int}
    (hgr : 1 ≤ gr) : knnCompute xyz id offset index 0 gr ([] : List (Int × D)) = .error .oob := by
  have point : ∀ q p, knnPoint xyz index q 0 p ([] : List (Int × D)) = .ok [] ∨
      knnPoint xyz index q 0 p ([] : List (Int × D)) = .error .oob := by
    intro q p
    unfold knnPoint
    split
    · exact Or.inl rfl
    · rcases rdI_cases xyz p with ⟨x, hx⟩ | hx
      · rw [hx]; exact Or.inr rfl
      · rw [hx]; exact Or.inr rfl
  have cell : ∀ q c, knnCell xyz offset index q 0 c ([] : List (Int × D)) = .ok [] ∨
      knnCell xyz offset index q 0 c ([] : List (Int × D)) = .error .oob := by
    intro q c
    unfold knnCell
    rcases rdI_cases offset c with ⟨x, hx⟩ | hx
    · rcases rdI_cases offset (c + 1) with ⟨y, hy⟩ | hy
      · rw [hx, hy]; exact foldlM_oob (fun p => point q p) _
      · rw [hx, hy]; exact Or.inr rfl
    · rw [hx]; exact Or.inr rfl
  have loop : ∀ q px py pz gl mn n,
      knnLoop xyz offset index q 0 gr px py pz gl mn (n + 1) ([] : List (Int × D)) = .error .oob := by
    intro q px py pz gl mn n
    unfold knnLoop
    have shell : knnShell xyz offset index q 0 gr px py pz (gr - (n + 1)) ([] : List (Int × D)) = .ok [] ∨
        knnShell xyz offset index q 0 gr px py pz (gr - (n + 1)) ([] : List (Int × D)) = .error .oob :=
      foldlM_oob (fun c => cell q _) _
    rcases shell with h | h <;> simp only [h] <;> rfl
  unfold knnCompute
  rcases rdI_cases xyz index with ⟨q, hq⟩ | hq
  · rcases rdI_cases id index with ⟨c, hc⟩ | hc
    · obtain ⟨n, hn⟩ : ∃ n, gr.toNat = n + 1 := ⟨gr.toNat - 1, by omega⟩
      simp only [hq, hc, bind_ok, hn]
      rw [if_neg (by omega), loop]; rfl
    · simp only [hq, hc, bind_ok]; rfl
  · rw [hq]; rfl

theorem runTask_empty (S : Sorted F) {gr : Int} (hgr : 1 ≤ gr) {a : CCArgs} (ha : a.k = 0)
    (indices : List Int) (idx : Nat) (b : Bufs F D) (st : List State) (hb : ∀ r ∈ b.heap, r = []) :
    runTask S gr a indices idx (b, st) = .error .oob := by
  unfold runTask
  rcases rd_cases indices idx with ⟨index, h1⟩ | h1
  · rcases rd_cases b.heap idx with ⟨row, h2⟩ | h2
    · have : row = [] := hb row (List.mem_of_getElem? (rd_eq_ok.mp h2))
      subst this
      simp only [h1, h2, bind_ok, ha, knnCompute_empty _ _ _ _ hgr]; rfl
    · simp only [h1, h2, bind_ok]; rfl
  · rw [h1]; rfl

theorem tasks_empty (S : Sorted F) {gr : Int} (hgr : 1 ≤ gr) {a : CCArgs} (ha : a.k = 0)
    (indices : List Int) {nth n : Nat} (hn : 1 ≤ nth) (h1 : 1 ≤ n) (b : Bufs F D) (st : List State)
    (hb : ∀ r ∈ b.heap, r = []) :
    (allRows nth (n / nth) n).foldlM (fun st idx => runTask S gr a indices idx st) (b, st)
      = .error .oob := by
  cases hr : allRows nth (n / nth) n with
  | nil =>
    exfalso
    unfold allRows at hr
    rw [List.flatMap_eq_nil_iff] at hr
    have := hr (nth - 1) (List.mem_range.mpr (by omega))
    unfold threadRows at this
    simp only [ne_eq, not_true, if_false, List.map_eq_nil_iff, List.range_eq_nil] at this
    have h2 : (nth - 1) * (n / nth) < n := by
      rcases Nat.eq_zero_or_pos (n / nth) with h0 | h0
      · rw [h0]; omega
      · have h3 : (nth - 1) * (n / nth) < nth * (n / nth) :=
          Nat.mul_lt_mul_of_pos_right (by omega) h0
        have h4 := Nat.mul_div_le n nth
        omega
    omega
  | cons x l =>
    rw [List.foldlM_cons, runTask_empty S hgr ha indices x b st hb]; rfl

theorem alloc_empty (rows pm tm : Nat) : ∀ r ∈ (Bufs.alloc rows 0 pm tm : Bufs F D).heap, r = [] := by
  intro r hr
  exact List.eq_of_mem_replicate hr

/-- a round with one point -/
theorem recRound_single {S : Sorted F} {gr : Int} {nth : Nat} (h1 : S.xyz.length = 1) (hgr : 1 ≤ gr)
    (hnth : 1 ≤ nth) {k pm tm : Int} (hk : 1 ≤ k) (hpm : 0 ≤ pm) (htm : 0 ≤ tm) {st : State}
    {t : List (List Int)} (hst : st.get .security_radius_reached = false) :
    recRound S gr nth ⟨k, pm, tm, List.map (fun i : Nat => (i : Int)) [0], t, [st]⟩ = .error .oob := by
  unfold recRound
  have hf := recFilter_spec (states := [st]) (ixs := [0]) (by simp)
  simp only
  rw [hf]
  have hflag : flagAt [st] .security_radius_reached 0 = false := hst
  generalize (List.any [0] (flagAt [st] .error_p_overflow)) = up
  generalize (List.any [0] (flagAt [st] .error_t_overflow)) = ut
  simp only [bind_ok, List.filter_cons, hflag, Bool.not_false, if_true, List.filter_nil, List.map_cons,
    List.map_nil, List.length_cons, List.length_nil, h1]
  rw [if_neg (by omega), if_pos (by omega)]
  obtain ⟨a, ha, ha0⟩ : ∃ a, ccArgs (((1 : Nat) : Int) - 1) (if up = true then pm * 2 else pm)
      (if ut = true then tm * 2 else tm) = .ok a ∧ a.k = 0 := by
    unfold ccArgs
    rw [if_pos ⟨by omega, by split <;> omega, by split <;> omega⟩]
    exact ⟨_, rfl, rfl⟩
  rw [ha]
  simp only [bind_ok]
  rw [if_neg (by omega), ha0, tasks_empty S hgr ha0 _ hnth (by omega) _ _ (alloc_empty _ _ _)]
  rfl

variable [Inhabited F] {nb hw : Nat} {prm : Params} {xyz : List (Pt F)} {S : Sorted F}

/-- C38: `k = 0` reads an empty row, for every non-empty point set that can be sorted and whatever
the other parameters. -/
theorem C38_no_candidates (hgr : 1 ≤ prm.gr) (hk : prm.k = 0) (hpm : 0 ≤ prm.pm) (htm : 0 ≤ prm.tm)
    (hth : prm.nthreads ≠ 0 ∨ 1 ≤ hw) (hs : xyzSort nb prm.gr xyz = .ok S) (hne : xyz ≠ []) :
    tesellateCpu nb hw prm xyz = .error .oob := by
  have hlen : 1 ≤ S.xyz.length := by
    rw [(C01_sort_permutes nb prm.gr xyz S hs).length_eq]
    exact List.length_pos_iff.mpr hne
  have hnth : 1 ≤ (if prm.nthreads ≠ 0 then prm.nthreads else hw) := by
    rcases hth with h | h
    · rw [if_pos h]; omega
    · split <;> omega
  have main : ∀ t s, cpuTesellate (D := D) hw prm S t s = .error .oob := by
    intro t s
    unfold cpuTesellate
    have hcc : ccArgs prm.k prm.pm prm.tm = .ok ⟨0, prm.pm.toNat, prm.tm.toNat⟩ := by
      unfold ccArgs; rw [if_pos ⟨by omega, hpm, htm⟩, hk]; rfl
    simp only [hcc, bind_ok]
    generalize (if prm.useChunking = true then prm.chunksize else (S.xyz.length : Int) + 1) = cs
    obtain ⟨m, hm⟩ : ∃ m, chunkRuns S.xyz.length cs = m + 1 := by
      unfold chunkRuns
      split
      · exact ⟨_, rfl⟩
      · exact ⟨0, rfl⟩
    obtain ⟨-, hpart⟩ := C32_chunks_partition S.xyz.length cs
    have hrun := hpart 0 (by omega)
    have hc0 : chunkStart cs 0 = 0 := by unfold chunkStart; simp
    have hsub : chunkEnd S.xyz.length (chunkRuns S.xyz.length cs) cs 0 - chunkStart cs 0
        = chunkRows S.xyz.length cs ∧ 1 ≤ chunkRows S.xyz.length cs := by
      rw [hc0]
      unfold chunkEnd
      rw [hc0]
      unfold chunkRuns chunkRows
      by_cases hch : 0 < cs ∧ cs < (S.xyz.length : Int)
      · have : (decide (0 < cs) && decide (cs < (S.xyz.length : Int))) = true := by simp [hch]
        rw [if_pos this, if_pos this]
        have : 1 ≤ S.xyz.length / cs.toNat := by
          rw [Nat.le_div_iff_mul_le (by omega)]; omega
        rw [if_neg (by omega)]
        omega
      · have : ¬ ((decide (0 < cs) && decide (cs < (S.xyz.length : Int))) = true) := by
          simpa using hch
        rw [if_neg this, if_neg this]
        simp; omega
    have h0 : cpuRun (D := D) S prm.gr ⟨0, prm.pm.toNat, prm.tm.toNat⟩
        (if prm.nthreads ≠ 0 then prm.nthreads else hw) (chunkRuns S.xyz.length cs) cs 0
        { bufs := Bufs.alloc (chunkRows S.xyz.length cs) 0 prm.pm.toNat prm.tm.toNat, states := s,
          indices := List.replicate (chunkRows S.xyz.length cs) 0, tmpnn := t,
          subsize := chunkRows S.xyz.length cs } = .error .oob := by
      unfold cpuRun
      rw [if_neg (by omega)]
      simp only [hsub.1]
      have hind : ∀ m ind, (∃ r, forN m (fun i ind => wr ind i ((chunkStart cs 0 + i : Nat) : Int)) ind
          = (.ok r : M (List Int))) ∨
          forN m (fun i ind => wr ind i ((chunkStart cs 0 + i : Nat) : Int)) ind = .error .oob := by
        intro m
        unfold forN
        generalize List.range m = l
        induction l with
        | nil => intro ind; exact Or.inl ⟨_, rfl⟩
        | cons x l ih =>
          intro ind
          rw [List.foldlM_cons]
          by_cases hx : x < ind.length
          · simp only [wr_ok hx, bind_ok]; exact ih _
          · have : wr ind x ((chunkStart cs 0 + x : Nat) : Int) = .error .oob := by
              unfold wr; rw [if_neg hx]
            simp only [this]; exact Or.inr rfl
      rcases hind (chunkRows S.xyz.length cs) (List.replicate (chunkRows S.xyz.length cs) 0) with
        ⟨r, hr⟩ | hr
      · rw [hr]
        simp only [bind_ok]
        rw [tasks_empty S hgr rfl r hnth hsub.2]
        · rfl
        · intro row hrow
          simp only [Bufs.refill, List.mem_map] at hrow
          obtain ⟨row', h1, rfl⟩ := hrow
          rw [alloc_empty _ _ _ row' h1]; rfl
      · rw [hr]; rfl
    have hr : List.range (chunkRuns S.xyz.length cs) = 0 :: (List.range m).map Nat.succ := by
      rw [hm, List.range_succ_eq_map]
    unfold forN
    rw [hr, List.foldlM_cons, h0]; rfl
  unfold tesellateCpu
  simp only [hs, bind_ok, main]; rfl

/-- C38: recompute of a single point whose security radius is not reached reads an empty row. -/
theorem C38_single_point (h : JobOK nb hw prm xyz) (hs : xyzSort nb prm.gr xyz = .ok S)
    (hr : prm.useRecompute = true) (h1 : S.xyz.length = 1)
    (hst : (stateOf S prm.gr prm.args 0).get .security_radius_reached = false) :
    tesellateCpu nb hw prm xyz = .error .oob := by
  have hnth := h.nth
  unfold nthOf at hnth
  have hk := h.k1; have hpm := h.pm6; have htm := h.tm8
  have main : cpuRecompute hw prm S ((List.range S.xyz.length).map (rowOf S prm.gr prm.args))
        ((List.range S.xyz.length).map (stateOf S prm.gr prm.args)) = .error .oob := by
    unfold cpuRecompute
    rw [h1]
    have e1 : List.range 1 = [0] := rfl
    simp only [e1, List.map_cons, List.map_nil]
    rw [show List.filter _ [0] = [0] from by simp [hst]]
    unfold recLoop
    rw [recRound_single h1 h.gr hnth hk (by omega) (by omega) hst]
    rfl
  unfold tesellateCpu
  simp only [hs, bind_ok]
  rw [h.first hs]
  simp only [bind_ok, hr, if_true, main]
  rfl

end any

section exact
variable {K : Type} [Field K] [LinearOrder K] [IsStrictOrderedRing K] [FloorRing K] [Inhabited K]
  {nb hw : Nat} {prm : Params} {xyz : List (Pt K)} {S : Sorted K}

/-- C38: in exact arithmetic the radius of a single point is never reached, so recompute of a single
point always ends in an out of bounds access. -/
theorem C38_single_point_exact (h : ExactJob nb hw prm xyz) (hr : prm.useRecompute = true) (h1 : xyz.length = 1) :
    tesellateCpu nb hw prm xyz = .error .oob := by
  obtain ⟨S, hs⟩ := h.sorts
  obtain ⟨-, -, -, hl⟩ := sorted_facts nb prm.gr xyz S h.gr h.fits h.box hs
  have hS1 : S.xyz.length = 1 := by omega
  refine C38_single_point h.job hs hr hS1 ?_
  obtain ⟨p, hp⟩ : ∃ p, S.xyz = [p] := List.length_eq_one_iff.mp hS1
  have hp0 : S.xyz[0]? = some p := by rw [hp]; rfl
  by_contra hc
  have hc : (stateOf S prm.gr prm.args 0).get .security_radius_reached = true := by simpa using hc
  have hne := h.noError hs h.job.size (by omega) hc
  obtain ⟨res, o, j1, -, j3⟩ := h.cell hs h.job.size hp0
  rw [j3] at hc hne
  obtain ⟨hctx, nb', b, hf, -, hb, -⟩ := j1.full hne
  rw [hc] at hb
  obtain ⟨m, rfl, hrad⟩ := hf.rad hb.symm
  have hcand : candPt S.xyz (res.map (·.1)) m = p := by
    obtain ⟨qi, q, g1, g2⟩ := hctx.ids m (by have := hf.le; omega)
    rw [candPt_eq g1 g2]
    have := (rdI_eq_ok.mp g2).2
    rw [hp] at this
    have hm := List.mem_of_getElem? this
    simpa using hm
  have hin : InCell o.s.psize (inward o.s.P) p := by
    rw [hf.geo.cell]
    refine ⟨j1.box, fun i _ => ?_⟩
    have hpp : sqDist p p = 0 := by simp only [sqDist]; ring
    rw [hpp]; exact sqDist_nonneg _ _
  have := hrad p hin p (by rw [hcand])
  exact lt_irrefl _ this

end exact

end Votess
