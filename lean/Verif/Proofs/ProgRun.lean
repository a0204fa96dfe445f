import Verif.Proofs.ProgCpu
/-!
# The parallel regions of the CPU driver
-/
set_option linter.unusedSectionVars false

namespace Votess

open FP

variable {F D : Type} [FP F D]

theorem Own.not_shared {a : CCArgs} {idx index : Nat} {l : Loc} (h : Own a idx index l) :
    ¬ Shared l := by
  obtain ⟨b, x⟩ := l
  cases b <;> first | exact fun h => h | exact h.elim

/-- tasks for different points write different places -/
theorem Own.unique {a : CCArgs} {i j x y : Nat} {l : Loc} (h : Own a i x l) (h' : Own a j y l) :
    i = j ∨ x = y := by
  obtain ⟨b, m⟩ := l
  cases b <;> simp only [Own] at h h'
  all_goals first | exact h.elim | exact .inl (h.symm.trans h') | exact .inr (h.symm.trans h')

theorem OwnAll.disjoint {a : CCArgs} {indices : List Int} (hn : indices.Nodup) {l l' : List Nat}
    (hd : ∀ x ∈ l, x ∉ l') {x : Loc} (h : OwnAll a indices l x) : ¬ ReadsAll a indices l' x := by
  obtain ⟨i, hi, xi, e1, o1⟩ := h
  rintro (hs | ⟨j, hj, xj, e2, o2⟩)
  · exact o1.not_shared hs
  · have hij : i = j := by
      rcases o1.unique o2 with e | e
      · exact e
      · subst e
        obtain ⟨l1, g1⟩ := List.getElem?_eq_some_iff.mp e1
        obtain ⟨l2, g2⟩ := List.getElem?_eq_some_iff.mp e2
        exact (List.getElem_inj hn).mp (g1.trans g2.symm)
    subst hij
    exact hd i hi hj

theorem flatMap_foldlM {α : Type} (f : α → Nat → M α) (g : Nat → List Nat) (n : Nat) (s : α) :
    ((List.range n).flatMap g).foldlM f s =
      (List.range n).foldlM (fun s i => (g i).foldlM f s) s := by
  induction n with
  | zero => rfl
  | succ n ih =>
    rw [List.range_succ, List.flatMap_append, List.foldlM_append, List.foldlM_append, ih]
    simp only [List.flatMap_cons, List.flatMap_nil, List.append_nil, List.foldlM_cons,
      List.foldlM_nil]
    refine bind_congr' fun x _ => ?_
    cases (g n).foldlM f x <;> rfl

/-- all intermediate states of a fold over a range -/
theorem range_foldlM_states {α : Type} (f : α → Nat → M α) (n : Nat) (s t : α)
    (h : (List.range n).foldlM f s = .ok t) :
    ∃ ss : Nat → α, ss 0 = s ∧ ss n = t ∧ ∀ i, i < n → f (ss i) i = .ok (ss (i + 1)) := by
  induction n generalizing t with
  | zero =>
    simp only [List.range_zero, List.foldlM_nil, pure_eq_ok, Except.ok.injEq] at h
    exact ⟨fun _ => s, rfl, h, fun i hi => absurd hi (Nat.not_lt_zero _)⟩
  | succ n ih =>
    rw [List.range_succ, List.foldlM_append, bind_eq_ok] at h
    obtain ⟨u, h1, h2⟩ := h
    obtain ⟨ss, e0, en, hs⟩ := ih u h1
    simp only [List.foldlM_cons, List.foldlM_nil, bind_eq_ok, pure_eq_ok, Except.ok.injEq] at h2
    obtain ⟨v, h2, rfl⟩ := h2
    refine ⟨fun i => if i ≤ n then ss i else v, ?_, ?_, ?_⟩
    · simp [e0]
    · simp
    · intro i hi
      by_cases hin : i < n
      · simp only [show i ≤ n by omega, show i + 1 ≤ n by omega, if_true]
        exact hs i hin
      · have : i = n := by omega
        subst this
        simp only [Nat.le_refl, if_true, show ¬ i + 1 ≤ i by omega, if_false]
        rw [en]; exact h2

/-- the threads of a run settle in the memory of the sequential execution -/
theorem region_settles {S : Sorted F} {gr : Int} {a : CCArgs} {indices : List Int} {rows : Nat}
    {nth ts sub : Nat} {b b' : Bufs F D} {states states' : List State} (hw : WF a rows b)
    (hn : indices.Nodup)
    (h : (allRows nth ts sub).foldlM (fun st idx => runTask S gr a indices idx st) (b, states)
      = .ok (b', states')) :
    WF a rows b' ∧ ∃ total, Sys.Settles ⟨cpuMem a S indices b states, cpuThreads gr a nth ts sub⟩
      (cpuMem a S indices b' states') total := by
  unfold allRows at h
  rw [flatMap_foldlM] at h
  obtain ⟨ss, e0, en, hs⟩ := range_foldlM_states _ _ _ _ h
  have hwf : ∀ i, i ≤ nth → WF a rows (ss i).1 := by
    intro i
    induction i with
    | zero => intro _; rw [e0]; exact hw
    | succ i ih =>
      intro hi
      obtain ⟨_, h1, _⟩ := thread_safe (threadRows nth ts sub i) (ih (by omega)) (hs i (by omega))
      exact h1
  have hsafe : ∀ i, i < nth → ∃ n, Safe (ReadsAll a indices (threadRows nth ts sub i))
      (OwnAll a indices (threadRows nth ts sub i)) (cpuThreadProg gr a (threadRows nth ts sub i))
      (cpuMem a S indices (ss i).1 (ss i).2) n ()
      (cpuMem a S indices (ss (i + 1)).1 (ss (i + 1)).2) := by
    intro i hi
    obtain ⟨n, _, h2⟩ := thread_safe (threadRows nth ts sub i) (hwf i (by omega)) (hs i hi)
    exact ⟨n, h2⟩
  have hex : ∃ ns : Nat → Nat, ∀ i, i < nth → Safe (ReadsAll a indices (threadRows nth ts sub i))
      (OwnAll a indices (threadRows nth ts sub i)) (cpuThreadProg gr a (threadRows nth ts sub i))
      (cpuMem a S indices (ss i).1 (ss i).2) (ns i) ()
      (cpuMem a S indices (ss (i + 1)).1 (ss (i + 1)).2) :=
    ⟨fun i => if hi : i < nth then Classical.choose (hsafe i hi) else 0, fun i hi => by
      simp only [dif_pos hi]; exact Classical.choose_spec (hsafe i hi)⟩
  obtain ⟨ns, hns⟩ := hex
  refine ⟨by have := hwf nth (Nat.le_refl _); rwa [en] at this, ((List.range nth).map ns).sum, ?_⟩
  have key := interleave (N := nth) (R := fun i => ReadsAll a indices (threadRows nth ts sub i))
    (W := fun i => OwnAll a indices (threadRows nth ts sub i))
    (fun i => cpuMem a S indices (ss i).1 (ss i).2)
    (fun i => cpuThreadProg gr a (threadRows nth ts sub i)) ns (fun i l h => .inr h)
    (by
      intro i j l hi hj hij ho
      refine OwnAll.disjoint hn ?_ ho
      intro x hx hx'
      rcases Nat.lt_or_gt_of_ne hij with h | h
      · exact threadRows_disjoint h hj hx hx'
      · exact threadRows_disjoint h hi hx' hx)
    hns
  simp only [e0, en] at key
  exact key

/-- the variables at the start of `__cpu__tesellate`; src/votess.ipp:401-415 -/
def cpuStart (a : CCArgs) (rows : Nat) (tmpnn : List (List Int)) (states : List State) :
    RunState F D :=
  { bufs := Bufs.alloc rows a.k a.pm a.tm, states := states, indices := List.replicate rows 0,
    tmpnn := tmpnn, subsize := rows }

/-- between the runs: the work buffers keep their shape, no point occurs twice in `indices` -/
structure BetweenRuns (a : CCArgs) (rows run c : Nat) (r : RunState F D) : Prop where
  wf : WF a rows r.bufs
  ind : ∃ ixs : List Nat, r.indices = ixs.map (fun i : Nat => (i : Int)) ∧ ixs.length = rows ∧
    (0 < run → ixs.Nodup ∧ ∀ x ∈ ixs, x < c)

theorem between_step {S : Sorted F} {gr : Int} {a : CCArgs} {rows run c c' nth nruns : Nat}
    {cs : Int} {r r' : RunState F D} (hb : BetweenRuns a rows run c r)
    (hc : chunkStart cs run = c) (hc' : chunkEnd S.xyz.length nruns cs run = c') (hcc : c ≤ c')
    (hr : c' - c ≤ rows) (h0 : run = 0 → c' - c = rows)
    (h : cpuRun S gr a nth nruns cs run r = .ok r') :
    BetweenRuns a rows (run + 1) c' r' ∧ ∃ total,
      Sys.Settles ⟨cpuMem a S r'.indices r.bufs.refill r.states,
          cpuThreads gr a nth (r.subsize / nth) r'.subsize⟩
        (cpuMem a S r'.indices r'.bufs r'.states) total := by
  obtain ⟨ixs, i1, i2, i3⟩ := hb.ind
  unfold cpuRun at h
  simp only [hc, hc'] at h
  by_cases hn : nth = 0
  · rw [if_pos hn] at h; cases h
  rw [if_neg hn] at h
  simp only [bind_eq_ok, pure_eq_ok, Except.ok.injEq] at h
  obtain ⟨indices, hfill, ⟨b', states'⟩, hfold, tmpnn, htmp, rfl⟩ := h
  rw [i1, fill_indices c (by omega)] at hfill
  generalize hix : (List.range (c' - c)).map (c + ·) ++ ixs.drop (c' - c) = ixs' at hfill
  cases hfill
  have hnd : ixs'.Nodup ∧ ∀ x ∈ ixs', x < c' := by
    rw [← hix]
    have hrange : ((List.range (c' - c)).map (c + ·)).Nodup :=
      List.Pairwise.map _ (fun a b h h' => h (by omega)) List.nodup_range
    by_cases hz : run = 0
    · rw [List.drop_eq_nil_of_le (by rw [h0 hz]; omega), List.append_nil]
      refine ⟨hrange, fun x hx => ?_⟩
      simp only [List.mem_map, List.mem_range] at hx
      obtain ⟨j, hj, rfl⟩ := hx
      omega
    · obtain ⟨n1, n2⟩ := i3 (by omega)
      refine ⟨List.nodup_append.mpr ⟨hrange, List.Nodup.sublist (List.drop_sublist _ _) n1, ?_⟩, ?_⟩
      · intro x hx y hy e
        subst e
        have := n2 x (List.mem_of_mem_drop hy)
        simp only [List.mem_map, List.mem_range] at hx
        obtain ⟨j, hj, rfl⟩ := hx
        omega
      · intro x hx
        rcases List.mem_append.mp hx with hx | hx
        · simp only [List.mem_map, List.mem_range] at hx
          obtain ⟨j, hj, rfl⟩ := hx
          omega
        · have := n2 x (List.mem_of_mem_drop hx)
          omega
  have hnd' : (ixs'.map (fun i : Nat => (i : Int))).Nodup :=
    List.Pairwise.map _ (fun a b h h' => h (Int.ofNat_inj.mp h')) hnd.1
  obtain ⟨hw', total, hset⟩ := region_settles hb.wf.refill hnd' hfold
  exact ⟨⟨hw', ixs', rfl, by rw [← hix]; simp; omega, fun _ => hnd⟩, total, hset⟩

/-- bounds of the runs -/
theorem chunk_bounds {n : Nat} {cs : Int} {run : Nat} (hrun : run < chunkRuns n cs) :
    chunkStart cs run ≤ chunkEnd n (chunkRuns n cs) cs run ∧
    chunkEnd n (chunkRuns n cs) cs run - chunkStart cs run ≤ chunkRows n cs ∧
    (run = 0 → chunkEnd n (chunkRuns n cs) cs run - chunkStart cs run = chunkRows n cs) ∧
    (run + 1 < chunkRuns n cs →
      chunkEnd n (chunkRuns n cs) cs run = chunkStart cs (run + 1)) := by
  unfold chunkRuns chunkRows chunkEnd chunkStart at *
  by_cases hch : 0 < cs ∧ cs < (n : Int)
  · have e : (decide (0 < cs) && decide (cs < (n : Int))) = true := by simp [hch]
    simp only [e, if_true] at hrun ⊢
    obtain ⟨m, rfl⟩ : ∃ m : Nat, cs = m := ⟨cs.toNat, by omega⟩
    simp only [Int.toNat_natCast] at hrun ⊢
    have hm : 0 < m := by omega
    have hdiv : n / m * m ≤ n := Nat.div_mul_le_self _ _
    have hmod : n < n / m * m + m := Nat.lt_div_mul_add hm
    have hq : 0 < n / m := Nat.div_pos (by omega) hm
    have hmul : run * m ≤ n / m * m := Nat.mul_le_mul_right _ (by omega)
    have hcast : ((run : Int) * (m : Int)).toNat = run * m := by rw [← Int.natCast_mul]; rfl
    have hcast' : (((run + 1 : Nat) : Int) * (m : Int)).toNat = run * m + m := by
      rw [← Int.natCast_mul, Int.toNat_natCast, Nat.add_mul, Nat.one_mul]
    rw [hcast, hcast']
    by_cases hl : run = n / m
    · rw [if_pos (by omega)]
      rw [← hl] at hdiv hmod hq
      refine ⟨by omega, by omega, by omega, by omega⟩
    · have hmul2 : (run + 1) * m ≤ n / m * m := Nat.mul_le_mul_right _ (by omega)
      rw [Nat.add_mul, Nat.one_mul] at hmul2
      rw [if_neg (by omega)]
      refine ⟨by omega, by omega, by omega, by omega⟩
  · have e : (decide (0 < cs) && decide (cs < (n : Int))) = false := by
      rw [← Bool.not_eq_true]; simpa using hch
    simp only [e, Bool.false_eq_true, if_false] at hrun ⊢
    have : run = 0 := by omega
    subst this
    simp

theorem between_all {S : Sorted F} {gr : Int} {a : CCArgs} {nth : Nat} {cs : Int}
    {tmpnn : List (List Int)} {states : List State} (run : Nat)
    (hrun : run ≤ chunkRuns S.xyz.length cs) {r : RunState F D}
    (h : forN run (cpuRun S gr a nth (chunkRuns S.xyz.length cs) cs)
      (cpuStart a (chunkRows S.xyz.length cs) tmpnn states) = .ok r) :
    ∃ c, BetweenRuns a (chunkRows S.xyz.length cs) run c r ∧
      (run < chunkRuns S.xyz.length cs → c = chunkStart cs run) := by
  induction run generalizing r with
  | zero =>
    rw [forN_zero] at h
    cases h
    refine ⟨0, ⟨WF.alloc a _, List.replicate (chunkRows S.xyz.length cs) 0, by simp [cpuStart], by simp,
      fun h => by omega⟩, ?_⟩
    intro _
    simp [chunkStart]
  | succ run ih =>
    rw [forN_succ, bind_eq_ok] at h
    obtain ⟨r0, h1, h2⟩ := h
    obtain ⟨c, hb, hc⟩ := ih (by omega) h1
    obtain ⟨b1, b2, b3, b4⟩ := chunk_bounds (n := S.xyz.length) (cs := cs) (run := run) (by omega)
    obtain ⟨hb', _⟩ := between_step hb (hc (by omega)).symm rfl (by rw [hc (by omega)]; exact b1)
      (by rw [hc (by omega)]; exact b2) (by rw [hc (by omega)]; exact b3) h2
    exact ⟨_, hb', b4⟩

end Votess
