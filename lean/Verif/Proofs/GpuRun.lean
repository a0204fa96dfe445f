import Verif.Proofs.GpuMem
import Verif.Props.Tessellation
/-!
# A whole launch without chunking
-/
set_option linter.unusedSectionVars false

namespace Votess

open FP

theorem RelM.ok {α β : Type} {R : α → β → Prop} {x : M α} {y : M β} (h : RelM R x y) {a : α}
    (hx : x = .ok a) : ∃ b, y = .ok b ∧ R a b := by
  subst hx
  cases y with
  | error e => exact h.elim
  | ok b => exact ⟨b, rfl, h⟩

section anyArith
variable {F D : Type} [FP F D]

theorem startRows_lens (a : CCArgs) (S : Sorted F) (g : Garbage F) (i : Nat) :
    (startRows a S g i).P.length = a.pm ∧ (startRows a S g i).T.length = a.tm ∧
      (startRows a S g i).dR.length = a.pm := by
  simp [startRows]

/-- what the host makes of the memory after the launch -/
theorem gpuHost_spec {S : Sorted F} {gr : Int} {a : CCArgs} {m : Mem F F} {g : Garbage F}
    {tmpnn : List (List Int)} {sts : Nat → State} (hlen : tmpnn.length = S.xyz.length)
    (hk : ∀ i, i < S.xyz.length → (soloOf S gr a i).1.length = a.k)
    (h1 : ∀ i j v, i < S.xyz.length → (soloOf S gr a i).1[j]? = some v →
      m (.hid, S.xyz.length * j + i) = some (.int v))
    (h2 : ∀ i, i < S.xyz.length → m (.state, i) = some (.st (sts i)))
    (h3 : ∀ x, m (.ind, x) = gpuStart a S S.xyz.length S.xyz.length 0 g (.ind, x)) :
    gpuHost a.k S.xyz.length S.xyz.length S.xyz.length m tmpnn =
      .ok ((List.range S.xyz.length).map (rowOf S gr a), (List.range S.xyz.length).map sts) := by
  unfold gpuHost
  have e1 : ((List.range S.xyz.length).map fun x => hostInt m (.ind, x)) =
      (List.range S.xyz.length).map (fun i : Nat => (i : Int)) := by
    apply List.map_congr_left
    intro x hx
    have hx := List.mem_range.mp hx
    simp only [hostInt, h3, gpuStart, inRange, if_pos hx, Nat.zero_add]
  have e2 : ((List.range S.xyz.length).map fun x => hostSt m (.state, x)) =
      (List.range S.xyz.length).map sts := by
    apply List.map_congr_left
    intro x hx
    simp only [hostSt, h2 x (List.mem_range.mp hx)]
  obtain ⟨t', f1, f2, f3, -⟩ := tmpnnFill_spec (S := S) (gr := gr) (a := a)
    (ixs := List.range S.xyz.length) (size := S.xyz.length)
    (heap := gpuRows a.k S.xyz.length m) (tmpnn := tmpnn) (by simp)
    (by intro i hi; rw [hlen]; exact List.mem_range.mp hi) (by
      intro idx index hidx hx
      rw [List.getElem?_range hidx] at hx
      cases hx
      have hl := hk idx hidx
      refine ⟨_, by unfold gpuRows; rw [List.getElem?_map, List.getElem?_range hidx]; rfl, ?_⟩
      rw [List.map_map]
      apply List.ext_getElem
      · simp [hl]
      · intro j hj hj'
        simp only [List.getElem_map, List.getElem_range, Function.comp]
        have := h1 idx j _ hidx (List.getElem?_eq_getElem hj')
        simp only [hostInt, this])
  rw [e1, e2]
  simp only []
  rw [f1]
  have : t' = (List.range S.xyz.length).map (rowOf S gr a) := by
    refine eq_map_range (f2.trans hlen) fun i hi => ?_
    exact f3 i i hi (List.getElem?_range hi)
  rw [this]
  rfl

variable [Inhabited F] {nb hw : Nat} {prm : Params} {xyz : List (Pt F)} {S : Sorted F}

/-- the device search finds the neighbours the CPU search finds -/
def SameSearch (S : Sorted F) (gr : Int) (k : Nat) : Prop :=
  ∀ i, i < S.xyz.length → ∀ crow,
    knnCompute S.xyz S.id S.offset (i : Nat) k gr (List.replicate k ((0 : Int), dinf F)) = .ok crow →
    ∃ row, gpuKnnL S.xyz S.id S.offset (i : Nat) k gr (List.replicate k (0, ofInt 128)) = .ok row ∧
      row.map (·.1) = crow.map (·.1)

theorem gpuLaunch_gen (h : JobOK nb hw prm xyz) (hs : xyzSort nb prm.gr xyz = .ok S)
    (hsame : SameSearch S prm.gr prm.args.k) (htm : prm.tm ≤ 254) (nd : Nat) (g : Garbage F) :
    ∃ m total sts, Sys.Settles ⟨gpuStart prm.args S S.xyz.length S.xyz.length 0 g,
        gpuItems prm.gr prm.args S.xyz.length S.xyz.length nd⟩ m total ∧
      (∀ i, i < S.xyz.length → StSub (g.st i) (stateOf S prm.gr prm.args i) (sts i)) ∧
      ∀ tmpnn : List (List Int), tmpnn.length = S.xyz.length →
        gpuHost prm.args.k S.xyz.length S.xyz.length S.xyz.length m tmpnn =
          .ok ((List.range S.xyz.length).map (rowOf S prm.gr prm.args),
            (List.range S.xyz.length).map sts) := by
  have hrdy := h.ready hs
  have h8 := h.tm8
  have hk16 := hrdy.k
  have hall (i : Nat) : ∃ (row : List (Int × F)) (o : CCOut F), i < S.xyz.length →
      gpuKnnL S.xyz S.id S.offset i prm.args.k prm.gr (List.replicate prm.args.k (0, ofInt 128)) =
        .ok row ∧ row.length = prm.args.k ∧
      ccCompute prm.args S.xyz i (g.st i) (startRows prm.args S g i).P (startRows prm.args S g i).T
        (startRows prm.args S g i).dR (row.map (·.1)) (List.replicate prm.args.k kUndefined) = .ok o ∧
      o.knn = (soloOf S prm.gr prm.args i).1 ∧ o.knn.length = prm.args.k ∧
      StSub (g.st i) (stateOf S prm.gr prm.args i) o.s.state := by
    by_cases hi : i < S.xyz.length
    · obtain ⟨crow, e1, e2, -⟩ := hrdy.knn i hi
      obtain ⟨row, f1, f2⟩ := hsame i hi crow e1
      obtain ⟨l1, l2, l3⟩ := startRows_lens prm.args S g i
      obtain ⟨o, o1, -, o3, o4, -, o6⟩ := hrdy.solo hi e1 (g.st i) l1 l2 l3
      rw [← f2] at o1
      refine ⟨row, o, fun _ => ⟨f1, ?_, o1, o3, o6, o4⟩⟩
      rw [← e2]
      have := congrArg List.length f2
      simpa using this
    · exact ⟨[], ⟨[], ⟨g.st 0, [], [], [], [], 0, 0⟩⟩, fun h => absurd h hi⟩
  choose row o H using hall
  have htm' : prm.args.tm ≤ 254 := by show prm.tm.toNat ≤ 254; omega
  obtain ⟨m, total, s1, s2, s3, s4⟩ := gpu_settles (S := S) (gr := prm.gr) (a := prm.args) nd g row o
    (fun i hi => (H i hi).1) (fun i hi => ⟨(H i hi).2.1, (H i hi).2.2.2.2.1⟩)
    (fun i hi => cellCutsAtMost_tm htm' (by omega) _ _ _ _ _ _ _ _)
    (fun i hi => (H i hi).2.2.1)
  refine ⟨m, total, fun i => (o i).s.state, s1, fun i hi => (H i hi).2.2.2.2.2, ?_⟩
  intro tmpnn hl
  refine gpuHost_spec (gr := prm.gr) hl (fun i hi => ?_) (fun i j v hi hv => ?_) s3 s4
  · rw [← (H i hi).2.2.2.1]; exact (H i hi).2.2.2.2.1
  · rw [← (H i hi).2.2.2.1] at hv
    exact s2 i j v hi hv

end anyArith

section exact
variable {K : Type} [Field K] [LinearOrder K] [IsStrictOrderedRing K] [FloorRing K] [Inhabited K]
variable {nb hw : Nat} {prm : Params} {xyz : List (Pt K)} {S : Sorted K}

theorem ExactJob.same (h : ExactJob nb hw prm xyz) (hs : xyzSort nb prm.gr xyz = .ok S)
    (hgr : prm.gr ≤ 255) : SameSearch S prm.gr prm.args.k := by
  intro i hi crow e1
  obtain ⟨hb, hg, -, -⟩ := sorted_facts nb prm.gr xyz S h.gr h.fits h.box hs
  have hk16 := (h.job.ready hs).k
  obtain ⟨row, f1, f2⟩ := (gpuKnn_rel (xyz := S.xyz) (id := S.id) (offset := S.offset) (i : Int)
    prm.args.k prm.gr (by omega) h.gr hgr hb hg.id_range _ _ (hRel_start prm.args.k)).ok e1
  exact ⟨row, f1, f2.ids⟩

end exact

/-- no chunking: switched off, or a chunk size that is not positive or not below the number of
points -/
def Unchunked (prm : Params) (n : Nat) : Prop :=
  prm.useChunking = false ∨ prm.chunksize ≤ 0 ∨ (n : Int) ≤ prm.chunksize

theorem unchunked_runs {prm : Params} {n : Nat} (h : Unchunked prm n) :
    chunkRuns n (if prm.useChunking then prm.chunksize else n + 1) = 1 ∧
    chunkRows n (if prm.useChunking then prm.chunksize else n + 1) = n ∧
    chunkStart (if prm.useChunking then prm.chunksize else n + 1) 0 = 0 ∧
    chunkEnd n 1 (if prm.useChunking then prm.chunksize else n + 1) 0 = n := by
  have key : ¬ ((0 : Int) < (if prm.useChunking then prm.chunksize else n + 1) ∧
      (if prm.useChunking then prm.chunksize else n + 1) < (n : Int)) := by
    rcases h with h | h | h
    · rw [h]; simp
    all_goals split <;> omega
  generalize (if prm.useChunking then prm.chunksize else (n : Int) + 1) = cs at *
  refine ⟨?_, ?_, by simp [chunkStart], by simp [chunkEnd]⟩
  · unfold chunkRuns; simp; omega
  · unfold chunkRows; simp; omega

/-- local size of the launch; src/votess.ipp:192-193 -/
def ndOf (ndsize : Int) : Nat := if 0 < ndsize then ndsize.toNat else 1

theorem Steps.snoc {F E : Type} {n : Nat} {a b c : Sys F E} (h : Steps n a b) (h' : Step b c) :
    Steps (n + 1) a c := by
  induction h with
  | refl s => exact .step h' (.refl c)
  | step h1 _ ih => exact .step h1 (ih h')

theorem settles_end {F E : Type} {s : Sys F E} {m : Mem F E} {total : Nat} (h : s.Settles m total) :
    ∃ n t, Steps n s t ∧ t.Done := by
  have key : ∀ k n t, Steps n s t → total - n = k → ∃ n t, Steps n s t ∧ t.Done := by
    intro k
    induction k with
    | zero =>
      intro n t hst hk
      rcases h.progress n t hst with hd | ⟨u, hu⟩
      · exact ⟨n, t, hst, hd⟩
      · have := h.bounded _ _ (hst.snoc hu)
        omega
    | succ k ih =>
      intro n t hst hk
      rcases h.progress n t hst with hd | ⟨u, hu⟩
      · exact ⟨n, t, hst, hd⟩
      · exact ih (n + 1) u (hst.snoc hu) (by omega)
  exact key _ 0 s (.refl s) rfl

theorem gpu_unchunked {F D : Type} [FP F D] {S : Sorted F} {prm : Params} {a : CCArgs} {ndsize : Int}
    (hu : Unchunked prm S.xyz.length) (ha : ccArgs prm.k prm.pm prm.tm = .ok a)
    {tmpnn : List (List Int)} {states : List State} {out : List (List Int) × List State} :
    GpuTesellate ndsize prm S tmpnn states out ↔
      gpuLaunch S.xyz.length (ndOf ndsize) = true ∧ ∃ g n t,
        Steps n ⟨gpuStart a S S.xyz.length S.xyz.length 0 g,
          gpuItems prm.gr a S.xyz.length S.xyz.length (ndOf ndsize)⟩ t ∧ t.Done ∧
        gpuHost a.k S.xyz.length S.xyz.length S.xyz.length t.mem tmpnn = .ok out := by
  obtain ⟨c1, c2, c3, c4⟩ := unchunked_runs hu
  have key (b : CCArgs) : GpuRuns prm.gr b S (ndOf ndsize) S.xyz.length 1
      (if prm.useChunking then prm.chunksize else S.xyz.length + 1) 1 (tmpnn, states) out ↔
      gpuLaunch S.xyz.length (ndOf ndsize) = true ∧ ∃ g n t,
        Steps n ⟨gpuStart b S S.xyz.length S.xyz.length 0 g,
          gpuItems prm.gr b S.xyz.length S.xyz.length (ndOf ndsize)⟩ t ∧ t.Done ∧
        gpuHost b.k S.xyz.length S.xyz.length S.xyz.length t.mem tmpnn = .ok out := by
    constructor
    · rintro (_ | ⟨h0, h1⟩)
      cases h0
      unfold GpuRun at h1
      simp only [c3, c4, Nat.sub_zero] at h1
      exact h1
    · intro h
      refine .succ (.zero _) ?_
      unfold GpuRun
      simp only [c3, c4, Nat.sub_zero]
      exact h
  unfold GpuTesellate
  simp only [c1, c2]
  constructor
  · rintro ⟨b, hb, h⟩
    rw [ha] at hb; cases hb
    exact (key a).mp h
  · intro h
    exact ⟨a, ha, (key a).mpr h⟩

end Votess
