import Verif.Proofs.GpuRun
import Verif.Props.TessExamples
/-!
# C47, C48, C49, C56–C59 — the GPU kernel
-/
set_option linter.unusedSectionVars false

namespace Votess

open FP

/-! ### C47: the neighbour search -/

section exact
variable {K : Type} [Field K] [LinearOrder K] [IsStrictOrderedRing K] [FloorRing K] [Inhabited K]

/-- C47: with grid resolution at most 255 and `k` at most 65535 the search of a work item, started
on a heap filled with 128, ends with the ids that the CPU search finds when started on a heap filled
with infinity, and with the same distances wherever there was a neighbour to be found; it changes
nothing but its heap. -/
theorem C47_same_neighbours (nb : Nat) (gr : Int) (xyz : List (Pt K)) (out : Sorted K) (hgr : 1 ≤ gr)
    (hgr' : gr ≤ 255) (hnb : gr * gr * gr ≤ 256 ^ nb) (hbox : ∀ p ∈ xyz, InBox p)
    (hs : xyzSort nb gr xyz = .ok out) (i : Nat) (hi : i < out.xyz.length) (k : Nat) (hk1 : 1 ≤ k)
    (hk : k ≤ 65535) (r : Rows K K) (hx : r.xyz = out.xyz) (hid : r.id = out.id)
    (ho : r.offset = out.offset) (hh : r.heap = List.replicate k (0, 128)) :
    ∃ (row : List (Int × WithTop K)) (row' : List (Int × K)),
      knnCompute out.xyz out.id out.offset i k gr (List.replicate k (0, ⊤)) = .ok row ∧
      (Prog.gpuKnnCompute (i : Int) k gr).run rowStore r = .ok ((), { r with heap := row' }) ∧
      row'.map (·.1) = row.map (·.1) ∧ row'.length = k ∧
      ∀ (j : Nat) (e : Int × WithTop K) (e' : Int × K), row[j]? = some e → row'[j]? = some e' →
        e.2 = (if e'.2 < 128 then (e'.2 : WithTop K) else ⊤) := by
  obtain ⟨hb, hg, -, -⟩ := sorted_facts nb gr xyz out hgr hnb hbox hs
  obtain ⟨row, e1, e2⟩ := knn_spec nb gr xyz out hgr hnb hbox hs i _ (List.getElem?_eq_getElem hi) k hk1
  obtain ⟨row', f1, f2⟩ := (gpuKnn_rel (xyz := out.xyz) (id := out.id) (offset := out.offset) (i : Int)
    k gr hk hgr hgr' hb hg.id_range _ _ (hRel_start k)).ok e1
  have e128 : (128 : K) = (FP.ofInt 128 : K) := by show (128 : K) = ((128 : Int) : K); norm_num
  refine ⟨row, row', e1, ?_, f2.ids, ?_, ?_⟩
  · show rrun _ r = _
    rw [gpuKnnCompute_run (xyz := out.xyz) (ids := out.id) (offset := out.offset) (i : Int) k gr r hx
      hid ho, hh, e128, f1]
    rfl
  · rw [← e2.1]
    have := congrArg List.length f2.ids
    simpa using this
  · intro j e e' h1 h2
    have := (f2.2 j e e' h1 h2).2
    rcases this with ⟨h3, h4⟩ | ⟨h3, h4⟩
    · rw [h3, h4, if_neg (lt_irrefl _)]; rfl
    · rw [h3, if_pos h4]; rfl

end exact

section anyArith
variable {F D : Type} [FP F D]

/-- C47: a grid resolution that is a multiple of 256 becomes 0 in the `uint8_t` and every work item
divides by zero. -/
theorem C47_grid_256 (gr : Int) (h : gr % 256 = 0) (i k : Nat) (r : Rows F F)
    (hi : i < r.xyz.length) (hi' : i < r.id.length) :
    (Prog.gpuKnnCompute (i : Int) k gr).run rowStore r = .error .divZero := by
  show rrun _ r = _
  rw [gpuKnnCompute_run (xyz := r.xyz) (ids := r.id) (offset := r.offset) (i : Int) k gr r rfl rfl rfl]
  unfold gpuKnnL
  rw [rdI_natCast, rd_ok hi, rdI_natCast, rd_ok hi']
  simp only [bind_ok]
  rw [if_pos (show u8 gr = 0 from h)]
  rfl

/-! ### C48: the cell -/

/-- C48: as long as no cut removes more than 254 vertices, the device variant of the cell
computation (8-bit counters, early exit) does to the rows of the work item exactly what the CPU
variant does, namely what the list model computes.  No law of arithmetic is used. -/
theorem C48_same_cell (a : CCArgs) (index : Int) (r : Rows F F) {o : CCOut F}
    (hcut : CellCutsAtMost 254 a r.xyz index r.state r.P r.T r.dR (r.heap.map (·.1)) r.dknn)
    (h : ccCompute a r.xyz index r.state r.P r.T r.dR (r.heap.map (·.1)) r.dknn = .ok o) :
    (Prog.ccCompute (· % 256) true a index).run rowStore r = .ok ((), ccRows r o) ∧
    (Prog.ccCompute id false a index).run rowStore r = .ok ((), ccRows r o) ∧
    (ccRows r o).state = o.s.state ∧ (ccRows r o).dR = o.s.dR ∧
    ((o.knn.length = r.heap.length) → (ccRows r o).heap.map (·.1) = o.knn) := by
  refine ⟨ccCompute_prog (B := 254) (fun m hm => Nat.mod_eq_of_lt (by omega)) true index r hcut h,
    ccCompute_prog (B := 254) (fun m hm => rfl) false index r hcut h, rfl, rfl, fun hl => ?_⟩
  show (setIds r.heap o.knn).map (·.1) = o.knn
  unfold setIds
  rw [List.map_fst_zip (by simp [hl])]

/-- C48: the bound holds by itself if `cc_t_maxsize` is at most 254 (the default is 32). -/
theorem C48_small_tables (a : CCArgs) (ha : a.tm ≤ 254) (index : Int) (r : Rows F F) {o : CCOut F}
    (h : ccCompute a r.xyz index r.state r.P r.T r.dR (r.heap.map (·.1)) r.dknn = .ok o) :
    (Prog.ccCompute (· % 256) true a index).run rowStore r =
      (Prog.ccCompute id false a index).run rowStore r := by
  obtain ⟨h1, h2, -⟩ := C48_same_cell a index r (cellCutsAtMost_tm ha (by omega) _ _ _ _ _ _ _ _) h
  rw [h1, h2]

/-! ### C49: chunking -/

/-- C49: the position from which the kernel reads coordinate `c` of the point it processes is the
position of that coordinate if and only if it is the first coordinate or the launch covers all
points. -/
theorem C49_location (a : CCArgs) (n sub nd i index q c : Nat) (hc : c < 3) :
    gpuLay a n sub nd i index (.ref, 3 * q + c) = gpuLay a n sub nd i index (.xyz, 3 * q + c) ↔
      c = 0 ∨ sub = n := by
  have e1 : (3 * q + c) % 3 = c := by omega
  have e2 : (3 * q + c) / 3 = q := by omega
  simp only [gpuLay, e1, e2, Prod.mk.injEq, true_and]
  constructor
  · intro h
    have : sub * c = n * c := by omega
    by_cases h0 : c = 0
    · exact .inl h0
    · exact .inr (Nat.eq_of_mul_eq_mul_right (by omega) this)
  · rintro (rfl | rfl) <;> rfl

/-- C49: what is read instead: with chunks of `sub` points, coordinate `(sub*c+q)/n` of point
`(sub*c+q) mod n`. -/
theorem C49_reads (a : CCArgs) (S : Sorted F) (g : Garbage F) (cap sub cstart nd i index q c : Nat)
    (hc : c < 3) (hq : q < S.xyz.length) (hsub : sub ≤ S.xyz.length) :
    ∃ (hj : (sub * c + q) % S.xyz.length < S.xyz.length),
      gpuStart a S cap sub cstart g (gpuLay a S.xyz.length sub nd i index (.ref, 3 * q + c)) =
        some (.flt (S.xyz[(sub * c + q) % S.xyz.length].ent ((sub * c + q) / S.xyz.length))) := by
  have e1 : (3 * q + c) % 3 = c := by omega
  have e2 : (3 * q + c) / 3 = q := by omega
  have hj : (sub * c + q) % S.xyz.length < S.xyz.length := Nat.mod_lt _ (by omega)
  refine ⟨hj, ?_⟩
  have hle : sub * c ≤ S.xyz.length * c := Nat.mul_le_mul_right _ hsub
  have hlt : sub * c + q < 3 * S.xyz.length := by
    have := col_lt (n := S.xyz.length) (k := 3) hc hq
    omega
  simp only [gpuLay, gpuStart, e1, e2, if_pos hlt, List.getElem?_eq_getElem hj, Option.map_some]

/-- C49: without chunking it is the coordinate of the point itself. -/
theorem C49_unchunked (a : CCArgs) (S : Sorted F) (g : Garbage F) (cap cstart nd i index q c : Nat)
    (hc : c < 3) (hq : q < S.xyz.length) :
    gpuStart a S cap S.xyz.length cstart g
      (gpuLay a S.xyz.length S.xyz.length nd i index (.ref, 3 * q + c)) =
        some (.flt (S.xyz[q].ent c)) := by
  obtain ⟨hj, h⟩ := C49_reads a S g cap S.xyz.length cstart nd i index q c hc hq (Nat.le_refl _)
  obtain ⟨e1, e2⟩ := lay_local (idx := c) hq
  rw [h]
  simp only [e1, e2]

end anyArith

/-- a single program running alone in a flat memory -/
def memStore {F E : Type} : Store F E (Mem F E) where
  get m l := match m l with | some v => .ok v | none => .error .oob
  put m l v := match m l with | some _ => .ok (m.set l v) | none => .error .oob

theorem run_steps {F E : Type} (p : Prog F E Unit) (m m' : Mem F E)
    (h : p.run memStore m = .ok ((), m')) : ∃ n, Steps n ⟨m, [p]⟩ ⟨m', [.ret ()]⟩ := by
  induction p generalizing m with
  | ret a => cases h; exact ⟨0, .refl _⟩
  | err e => cases h
  | get l k ih =>
    simp only [Prog.run, memStore] at h
    cases hm : m l with
    | none => rw [hm] at h; cases h
    | some v =>
      rw [hm] at h
      obtain ⟨n, hn⟩ := ih v m h
      exact ⟨n + 1, .step (.get m [.get l k] 0 l k v rfl hm) hn⟩
  | put l v k ih =>
    simp only [Prog.run, memStore] at h
    cases hm : m l with
    | none => rw [hm] at h; cases h
    | some w =>
      rw [hm] at h
      obtain ⟨n, hn⟩ := ih (m.set l v) h
      exact ⟨n + 1, .step (.put m [.put l v k] 0 l v w k rfl hm) hn⟩

/-- a run with one work item -/
theorem gpuRun_one {F D : Type} [FP F D] {gr : Int} {a : CCArgs} {S : Sorted F} {nd cap nruns : Nat}
    {cs : Int} {run : Nat} {tmpnn : List (List Int)} {out : List (List Int) × List State}
    (g : Garbage F) (h1 : chunkEnd S.xyz.length nruns cs run - chunkStart cs run = 1)
    (h2 : gpuLaunch 1 nd = true)
    (h3 : ((gpuItem gr a S.xyz.length 1 nd 0).run memStore
      (gpuStart a S cap 1 (chunkStart cs run) g) >>= fun r =>
        gpuHost a.k S.xyz.length cap 1 r.2 tmpnn) = .ok out) :
    GpuRun gr a S nd cap nruns cs run tmpnn out := by
  rw [bind_eq_ok] at h3
  obtain ⟨⟨⟨⟩, m'⟩, h3, h4⟩ := h3
  obtain ⟨n, hn⟩ := run_steps _ _ _ h3
  unfold GpuRun
  simp only [h1]
  refine ⟨h2, g, n, _, hn, ?_, h4⟩
  intro p hp
  simpa using hp

/-- a run without work items -/
theorem gpuRun_none {F D : Type} [FP F D] {gr : Int} {a : CCArgs} {S : Sorted F} {nd cap nruns : Nat}
    {cs : Int} {run : Nat} {tmpnn : List (List Int)} {out : List (List Int) × List State}
    (g : Garbage F) (h1 : chunkEnd S.xyz.length nruns cs run - chunkStart cs run = 0)
    (h2 : gpuLaunch 0 nd = true)
    (h3 : gpuHost a.k S.xyz.length cap 0 (gpuStart a S cap 0 (chunkStart cs run) g) tmpnn = .ok out) :
    GpuRun gr a S nd cap nruns cs run tmpnn out := by
  unfold GpuRun
  simp only [h1]
  exact ⟨h2, g, 0, _, .refl _, fun p hp => by simp [gpuItems] at hp, h3⟩

/-- three points in one grid cell -/
def chXyz : List (Pt ℚ) := [⟨1/8, 1/8, 1/8⟩, ⟨7/8, 1/8, 1/8⟩, ⟨2/8, 1/8, 7/8⟩]

def chS : Sorted ℚ := ⟨chXyz, [0, 0, 0], [0, 3]⟩

/-- `k = 1`, grid resolution 1, chunks of one point -/
def chPrm : Params := ⟨1, 1, 8, 16, 1, 1, true, false⟩

/-- memory that happens to be zero -/
def zeroG : Garbage ℚ := ⟨fun _ => 0, fun _ => 0, fun _ => 0, fun _ => .init⟩

theorem chSort : xyzSort 4 1 chXyz = .ok chS := by
  rw [xyzSort_eq]
  decide +kernel

theorem chJob : ExactJob 4 1 chPrm chXyz :=
  ⟨by decide, by decide, inBox_all (by decide +kernel), by decide, by decide, by decide, by decide,
    by decide, by decide, by decide⟩

set_option maxRecDepth 50000 in
theorem chGpu : GpuTesellate 1 chPrm chS (List.replicate 3 []) (List.replicate 3 State.init)
    ([[2], [0], [0]], [.init, .init, .init]) := by
  refine ⟨⟨1, 8, 16⟩, rfl, ?_⟩
  show GpuRuns 1 ⟨1, 8, 16⟩ chS 1 1 4 1 4 _ _
  refine .succ (.succ (.succ (.succ (.zero _) (s2 := ([[2], [], []], [.init, .init, .init])) ?_)
    (s2 := ([[2], [0], []], [.init, .init, .init])) ?_)
    (s2 := ([[2], [0], [0]], [.init, .init, .init])) ?_) ?_
  · exact gpuRun_one zeroG rfl rfl (by decide +kernel)
  · exact gpuRun_one zeroG rfl rfl (by decide +kernel)
  · exact gpuRun_one zeroG rfl rfl (by decide +kernel)
  · exact gpuRun_none zeroG rfl rfl (by decide +kernel)

set_option maxRecDepth 20000 in
theorem chCpu : ∃ cpu, tesellateCpu 4 1 chPrm chXyz = .ok cpu ∧ cpu.xyz = chXyz ∧
    cpu.dnn = getDnn [[1], [0], [0]] := by
  have : (tesellateCpu 4 1 chPrm chXyz).map (fun o => (o.xyz, o.dnn))
      = .ok (chXyz, getDnn [[1], [0], [0]]) := by
    unfold tesellateCpu
    rw [xyzSort_eq]
    decide +kernel
  obtain ⟨out, h1, h2⟩ := exceptMap_ok this
  injection h2 with h2 h3
  exact ⟨out, h1, h2, h3⟩

/-- C49: with chunks the result can be wrong: for three points in the unit box and chunks of one
point, the first point gets point 2 as neighbour, although point 1 is closer and is what the CPU
call returns for the same arguments. -/
theorem C49_chunk_wrong : ∃ (prm : Params) (xyz : List (Pt ℚ)) (out cpu : TessOut ℚ),
    ExactJob 4 1 prm xyz ∧ prm.useChunking = true ∧ TesellateGpu 4 1 1 true prm xyz out ∧
      tesellateCpu 4 1 prm xyz = .ok cpu ∧ out.xyz = cpu.xyz ∧ RowIs out.dnn 0 [2] ∧
      RowIs cpu.dnn 0 [1] ∧ ∃ p0 p1 p2 : Pt ℚ, out.xyz = [p0, p1, p2] ∧ sqDist p1 p0 < sqDist p2 p0 := by
  obtain ⟨cpu, c1, c2, c3⟩ := chCpu
  refine ⟨chPrm, chXyz, _, cpu, chJob, rfl, ⟨chS, _, _, _, _, chSort, chGpu, ⟨rfl, rfl⟩, rfl⟩, c1,
    c2.symm, ?_, ?_, _, _, _, rfl, by decide +kernel⟩
  · exact rowIs_getDnn (rows := [[2], [0], [0]]) (by unfold NoSentinel; decide) rfl (by decide)
  · rw [c3]
    exact rowIs_getDnn (rows := [[1], [0], [0]]) (by unfold NoSentinel; decide) rfl (by decide)

/-! ### C56: whole calls -/

section anyArith
variable {F D : Type} [FP F D] [Inhabited F] {nb hw : Nat} {ndsize : Int} {prm : Params}
  {xyz : List (Pt F)} {S : Sorted F}

theorem gpu_out (h : JobOK nb hw prm xyz) (hs : xyzSort nb prm.gr xyz = .ok S)
    (hsame : SameSearch S prm.gr prm.args.k) (htm : prm.tm ≤ 254) (hu : Unchunked prm S.xyz.length)
    {out : List (List Int) × List State}
    (ho : GpuTesellate ndsize prm S (List.replicate S.xyz.length [])
      (List.replicate S.xyz.length State.init) out) :
    ∃ (g sts : Nat → State), (∀ i, i < S.xyz.length → StSub (g i) (stateOf S prm.gr prm.args i) (sts i)) ∧
      out = ((List.range S.xyz.length).map (rowOf S prm.gr prm.args),
        (List.range S.xyz.length).map sts) := by
  obtain ⟨-, g, n, t, h1, h2, h3⟩ := (gpu_unchunked hu h.ccArgs).mp ho
  obtain ⟨m, total, sts, s1, s2, s3⟩ := gpuLaunch_gen h hs hsame htm (ndOf ndsize) g
  rw [(s1.result n t h1 h2).1, s3 _ (by simp)] at h3
  exact ⟨g.st, sts, s2, by cases h3; rfl⟩

theorem gpu_exists (h : JobOK nb hw prm xyz) (hs : xyzSort nb prm.gr xyz = .ok S)
    (hsame : SameSearch S prm.gr prm.args.k) (htm : prm.tm ≤ 254) (hu : Unchunked prm S.xyz.length)
    (hl : gpuLaunch S.xyz.length (ndOf ndsize) = true) (g : Nat → State) :
    ∃ sts : Nat → State, (∀ i, i < S.xyz.length → StSub (g i) (stateOf S prm.gr prm.args i) (sts i)) ∧
      GpuTesellate ndsize prm S (List.replicate S.xyz.length [])
        (List.replicate S.xyz.length State.init)
        ((List.range S.xyz.length).map (rowOf S prm.gr prm.args), (List.range S.xyz.length).map sts) := by
  obtain ⟨m, total, sts, s1, s2, s3⟩ := gpuLaunch_gen h hs hsame htm (ndOf ndsize)
    ⟨fun _ => ofInt 0, fun _ => 0, fun _ => 0, g⟩
  obtain ⟨n, t, h1, h2⟩ := settles_end s1
  refine ⟨sts, s2, (gpu_unchunked hu h.ccArgs).mpr ⟨hl, _, n, t, h1, h2, ?_⟩⟩
  rw [(s1.result n t h1 h2).1, s3 _ (by simp)]

theorem gpu_same_table (h : JobOK nb hw prm xyz)
    (hsame : ∀ S, xyzSort nb prm.gr xyz = .ok S → SameSearch S prm.gr prm.args.k) (htm : prm.tm ≤ 254)
    (hu : Unchunked prm xyz.length) (hr : prm.useRecompute = false) {out : TessOut F}
    (ho : TesellateGpu nb hw ndsize true prm xyz out) :
    ∃ cpu, tesellateCpu nb hw prm xyz = .ok cpu ∧ out.xyz = cpu.xyz ∧ out.dnn = cpu.dnn ∧
      out.warnXyz = cpu.warnXyz ∧ out.warnId = cpu.warnId := by
  obtain ⟨S, tmpnn, states, tmpnn', states', hs, h1, h2, rfl⟩ := ho
  rw [if_pos rfl] at h1
  rw [hr, if_neg Bool.false_ne_true] at h2
  obtain ⟨rfl, rfl⟩ := h2
  have hlen : S.xyz.length = xyz.length := (C01_sort_permutes nb prm.gr xyz S hs).length_eq
  obtain ⟨g, sts, -, h3⟩ := gpu_out h hs (hsame S hs) htm (hlen ▸ hu) h1
  cases h3
  exact ⟨_, h.plain hs hr, rfl, rfl, rfl, rfl⟩

theorem gpu_possible (h : JobOK nb hw prm xyz) (hs : xyzSort nb prm.gr xyz = .ok S)
    (hsame : SameSearch S prm.gr prm.args.k) (htm : prm.tm ≤ 254)
    (hu : Unchunked prm xyz.length) (hl : gpuLaunch xyz.length (ndOf ndsize) = true) {cpu : TessOut F}
    (hc : tesellateCpu nb hw prm xyz = .ok cpu) : TesellateGpu nb hw ndsize true prm xyz cpu := by
  have hlen : S.xyz.length = xyz.length := (C01_sort_permutes nb prm.gr xyz S hs).length_eq
  obtain ⟨sts, s1, s2⟩ := gpu_exists h hs hsame htm (hlen ▸ hu) (hlen ▸ hl) (fun _ => State.init)
  have e : (List.range S.xyz.length).map sts
      = (List.range S.xyz.length).map (stateOf S prm.gr prm.args) := by
    apply List.map_congr_left
    intro i hi
    exact (StSub.eq_of_init (s1 i (List.mem_range.mp hi))).symm
  rw [e] at s2
  unfold tesellateCpu at hc
  simp only [hs, bind_ok] at hc
  rw [h.first hs] at hc
  simp only [bind_ok] at hc
  by_cases hr : prm.useRecompute = true
  · rw [if_pos hr, bind_eq_ok] at hc
    obtain ⟨⟨t', s'⟩, h1, h2⟩ := hc
    exact ⟨S, _, _, t', s', hs, by rw [if_pos rfl]; exact s2, by rw [if_pos hr]; exact h1,
      by cases h2; rfl⟩
  · rw [if_neg hr] at hc
    cases hc
    exact ⟨S, _, _, _, _, hs, by rw [if_pos rfl]; exact s2, by rw [if_neg hr]; exact ⟨rfl, rfl⟩, rfl⟩

end anyArith

section exact
variable {K : Type} [Field K] [LinearOrder K] [IsStrictOrderedRing K] [FloorRing K] [Inhabited K]
variable {nb hw : Nat} {ndsize : Int} {prm : Params} {xyz : List (Pt K)} {S : Sorted K}

/-- C56: one launch over all points: whatever uninitialised memory contains and however the work
items are scheduled, there is no race, no access outside the buffers, a fixed number of accesses,
and always the same memory at the end. -/
theorem C56_launch_settles (h : ExactJob nb hw prm xyz) (hs : xyzSort nb prm.gr xyz = .ok S)
    (hgr : prm.gr ≤ 255) (htm : prm.tm ≤ 254) (nd : Nat) (g : Garbage K) :
    ∃ m total, Sys.Settles ⟨gpuStart prm.args S S.xyz.length S.xyz.length 0 g,
      gpuItems prm.gr prm.args S.xyz.length S.xyz.length nd⟩ m total := by
  obtain ⟨m, total, -, h1, -⟩ := gpuLaunch_gen h.job hs (h.same hs hgr) htm nd g
  exact ⟨m, total, h1⟩

/-- C56: without chunking and recompute, every execution of the call on a GPU returns what the CPU
call returns: the same point order, neighbour table and warnings.  (The status counters are C57.) -/
theorem C56_same_table (h : ExactJob nb hw prm xyz) (hgr : prm.gr ≤ 255) (htm : prm.tm ≤ 254)
    (hu : Unchunked prm xyz.length) (hr : prm.useRecompute = false) {out : TessOut K}
    (ho : TesellateGpu nb hw ndsize true prm xyz out) :
    ∃ cpu, tesellateCpu nb hw prm xyz = .ok cpu ∧ out.xyz = cpu.xyz ∧ out.dnn = cpu.dnn ∧
      out.warnXyz = cpu.warnXyz ∧ out.warnId = cpu.warnId :=
  gpu_same_table h.job (fun _ hs => h.same hs hgr) htm hu hr ho

/-- C56: there is such an execution if the work-group size divides the number of points, also with
recompute: then the outcome of the CPU call, with its status counters, is one of the possible
outcomes (uninitialised memory may happen to be zero). -/
theorem C56_possible (h : ExactJob nb hw prm xyz) (hgr : prm.gr ≤ 255) (htm : prm.tm ≤ 254)
    (hu : Unchunked prm xyz.length) (hl : gpuLaunch xyz.length (ndOf ndsize) = true) {cpu : TessOut K}
    (hc : tesellateCpu nb hw prm xyz = .ok cpu) : TesellateGpu nb hw ndsize true prm xyz cpu := by
  obtain ⟨S, hs⟩ := h.sorts
  exact gpu_possible h.job hs (h.same hs hgr) htm hu hl hc

/-! ### C57: status bytes -/

/-- C57: the flags of a cell after the launch are those the CPU sets, plus flags that happened to be
set in uninitialised memory; of these only the two that the radius test clears can disappear. -/
theorem C57_flags (h : ExactJob nb hw prm xyz) (hs : xyzSort nb prm.gr xyz = .ok S)
    (hgr : prm.gr ≤ 255) (htm : prm.tm ≤ 254) (hu : Unchunked prm S.xyz.length)
    {tmpnn : List (List Int)} {states : List State}
    (ho : GpuTesellate ndsize prm S (List.replicate S.xyz.length [])
      (List.replicate S.xyz.length State.init) (tmpnn, states)) :
    ∃ g : Nat → State, ∀ i, i < S.xyz.length → ∃ s, states[i]? = some s ∧
      ∀ f : Status, ((stateOf S prm.gr prm.args i).get f = true → s.get f = true) ∧
        (s.get f = true → (stateOf S prm.gr prm.args i).get f = true ∨ (g i).get f = true) ∧
        (f ≠ .error_nonvalid_neighbor → f ≠ .error_occurred → (g i).get f = true → s.get f = true) := by
  obtain ⟨g, sts, h1, h2⟩ := gpu_out h.job hs (h.same hs hgr) htm hu ho
  cases h2
  refine ⟨g, fun i hi => ⟨sts i, by rw [List.getElem?_map, List.getElem?_range hi]; rfl, fun f => ?_⟩⟩
  simp only [State.get_eq]
  obtain ⟨a1, a2, a3⟩ := h1 i hi f.bit
  exact ⟨a1, a2, fun n1 n2 => a3 (by cases f <;> first | decide | exact absurd rfl n1)
    (by cases f <;> first | decide | exact absurd rfl n2)⟩

/-- all flags set -/
def allFlags : State := ⟨255#8⟩

/-- C57: so the report is worthless on the GPU: for every input there is an execution that reports
all security radii as reached and raises the table overflow flags for every point. -/
theorem C57_report_meaningless (h : ExactJob nb hw prm xyz) (hgr : prm.gr ≤ 255) (htm : prm.tm ≤ 254)
    (hu : Unchunked prm xyz.length) (hl : gpuLaunch xyz.length (ndOf ndsize) = true)
    (hr : prm.useRecompute = false) :
    ∃ out, TesellateGpu nb hw ndsize true prm xyz out ∧ out.report.srNotReached = 0 ∧
      out.report.pOverflow = xyz.length ∧ out.report.tOverflow = xyz.length ∧
      out.report.infBoundary = xyz.length := by
  obtain ⟨S, hs⟩ := h.sorts
  have hlen : S.xyz.length = xyz.length := (C01_sort_permutes nb prm.gr xyz S hs).length_eq
  obtain ⟨sts, s1, s2⟩ := gpu_exists h.job hs (h.same hs hgr) htm (hlen ▸ hu) (hlen ▸ hl) (fun _ => allFlags)
  have key (f : Status) (n1 : f.bit ≠ 3) (n2 : f.bit ≠ 6) (n3 : f.bit < 8) (s : State)
      (hm : s ∈ (List.range S.xyz.length).map sts) : s.get f = true := by
    obtain ⟨i, hi, rfl⟩ := List.mem_map.mp hm
    rw [State.get_eq]
    refine (s1 i (List.mem_range.mp hi) f.bit).2.2 n1 n2 ?_
    cases f <;> rfl
  refine ⟨_, ⟨S, _, _, _, _, hs, by rw [if_pos rfl]; exact s2, by
    rw [hr, if_neg Bool.false_ne_true]; exact ⟨rfl, rfl⟩, rfl⟩, ?_, ?_, ?_, ?_⟩
  · show List.countP _ _ = 0
    rw [List.countP_eq_zero]
    intro s hm
    rw [key .security_radius_reached (by decide) (by decide) (by decide) s hm]
    simp
  all_goals
    rw [← hlen]
    show List.countP _ _ = _
    conv_rhs => rw [← List.length_range (n := S.xyz.length), ← List.length_map (f := sts)]
    rw [List.countP_eq_length]
    intro s hm
    exact key _ (by decide) (by decide) (by decide) s hm

/-- C57: and recompute may do nothing: for every input there is an execution of the call with
recompute that returns the rows of the first pass, complete or not. -/
theorem C57_recompute_skipped (h : ExactJob nb hw prm xyz) (hgr : prm.gr ≤ 255) (htm : prm.tm ≤ 254)
    (hu : Unchunked prm xyz.length) (hl : gpuLaunch xyz.length (ndOf ndsize) = true)
    (hr : prm.useRecompute = true) :
    ∃ out cpu, TesellateGpu nb hw ndsize true prm xyz out ∧
      tesellateCpu nb hw { prm with useRecompute := false } xyz = .ok cpu ∧ out.dnn = cpu.dnn := by
  obtain ⟨S, hs⟩ := h.sorts
  have hlen : S.xyz.length = xyz.length := (C01_sort_permutes nb prm.gr xyz S hs).length_eq
  obtain ⟨sts, s1, s2⟩ := gpu_exists h.job hs (h.same hs hgr) htm (hlen ▸ hu) (hlen ▸ hl) (fun _ => allFlags)
  have key (i : Nat) (hi : i < S.xyz.length) : (sts i).get .security_radius_reached = true := by
    rw [State.get_eq]
    exact (s1 i hi _).2.2 (by decide) (by decide) rfl
  have hrec : cpuRecompute hw prm S ((List.range S.xyz.length).map (rowOf S prm.gr prm.args))
      ((List.range S.xyz.length).map sts)
      = .ok ((List.range S.xyz.length).map (rowOf S prm.gr prm.args),
        ((List.range S.xyz.length).map sts).map State.reset) := by
    unfold cpuRecompute
    rw [List.filter_eq_nil_iff.mpr (fun i hi => by
      have hi := List.mem_range.mp hi
      rw [List.getElem?_map, List.getElem?_range hi]
      simp [key i hi])]
    rfl
  have h' : JobOK nb hw { prm with useRecompute := false } xyz :=
    ⟨h.job.gr, h.job.ids, h.job.k1, h.job.k, h.job.pm6, h.job.pm255, h.job.tm8, h.job.tm, h.job.threads⟩
  refine ⟨_, _, ⟨S, _, _, _, _, hs, by rw [if_pos rfl]; exact s2, by rw [hr, if_pos rfl]; exact hrec, rfl⟩,
    h'.plain hs rfl, ?_⟩
  rfl

end exact

/-! ### C58: work groups -/

theorem gpuRuns_launch {F D : Type} [FP F D] {gr : Int} {a : CCArgs} {S : Sorted F}
    {nd cap nruns : Nat} {cs : Int} {r : Nat} {s t : List (List Int) × List State}
    (h : GpuRuns gr a S nd cap nruns cs r s t) : ∀ run, run < r →
      (chunkEnd S.xyz.length nruns cs run - chunkStart cs run) % nd = 0 := by
  induction h with
  | zero => intro run h; omega
  | @succ r _ _ _ h1 h2 ih =>
    intro run hr
    by_cases e : run = r
    · subst e
      have := h2.1
      simp only [gpuLaunch, Bool.and_eq_true, decide_eq_true_eq] at this
      exact this.2
    · exact ih run (by omega)

/-- C58: the call has a result only if `gpu_ndsize` divides the number of points of every run — with
chunking that is the chunk size and the remainder, otherwise the number of points. -/
theorem C58_divisible {F D : Type} [FP F D] [Inhabited F] {nb hw : Nat} {ndsize : Int} {prm : Params}
    {xyz : List (Pt F)} {out : TessOut F} (hnd : 0 < ndsize)
    (h : TesellateGpu nb hw ndsize true prm xyz out) :
    (prm.useChunking = true → 0 < prm.chunksize → prm.chunksize < xyz.length →
      ndsize ∣ prm.chunksize ∧ ndsize ∣ (xyz.length : Int) % prm.chunksize) ∧
    (prm.useChunking = false ∨ prm.chunksize ≤ 0 ∨ xyz.length ≤ prm.chunksize →
      ndsize ∣ xyz.length) := by
  obtain ⟨S, tmpnn, states, tmpnn', states', hs, h1, h2, rfl⟩ := h
  rw [if_pos rfl] at h1
  have hlen : S.xyz.length = xyz.length := (C01_sort_permutes nb prm.gr xyz S hs).length_eq
  obtain ⟨a, ha, h1⟩ := h1
  have key := gpuRuns_launch h1
  rw [if_pos hnd] at key
  rw [hlen] at key
  obtain ⟨d, rfl⟩ : ∃ d : Nat, ndsize = d := ⟨ndsize.toNat, by omega⟩
  simp only [Int.toNat_natCast] at key
  constructor
  · intro hc h0 hlt
    obtain ⟨m, hm⟩ : ∃ m : Nat, prm.chunksize = m := ⟨prm.chunksize.toNat, by omega⟩
    rw [hc, if_pos rfl, hm] at key
    rw [hm] at h0 hlt ⊢
    have hm0 : 0 < m := by omega
    have e1 : chunkRuns xyz.length (m : Int) = xyz.length / m + 1 := by
      unfold chunkRuns; simp [hlt]; omega
    have e3 : ∀ run, chunkStart (m : Int) run = run * m := by
      intro run; unfold chunkStart; rw [← Int.natCast_mul]; rfl
    rw [e1] at key
    have hpos : 0 < xyz.length / m := Nat.div_pos (by omega) hm0
    have k0 := key 0 (by omega)
    have k1 := key (xyz.length / m) (by omega)
    unfold chunkEnd at k0 k1
    rw [e3, if_neg (by omega)] at k0
    rw [e3, if_pos (by omega)] at k1
    have e4 : xyz.length - xyz.length / m * m = xyz.length % m := by
      have := Nat.div_add_mod xyz.length m
      rw [Nat.mul_comm] at this
      omega
    rw [e4] at k1
    simp only [Nat.zero_mul, Nat.sub_zero] at k0
    constructor
    · have : ((((0 : Nat) : Int) + (m : Int)).toNat) = m := by omega
      rw [this] at k0
      exact Int.natCast_dvd_natCast.mpr (Nat.dvd_of_mod_eq_zero k0)
    · rw [← Int.natCast_mod]
      exact Int.natCast_dvd_natCast.mpr (Nat.dvd_of_mod_eq_zero k1)
  · intro hu
    obtain ⟨c1, c2, c3, c4⟩ := unchunked_runs (n := xyz.length) hu
    rw [c1] at key
    have := key 0 (by omega)
    rw [c3, c4] at this
    exact Int.natCast_dvd_natCast.mpr (Nat.dvd_of_mod_eq_zero this)

/-- C58: for points in the unit box and no chunks this is enough. -/
theorem C58_sufficient {K : Type} [Field K] [LinearOrder K] [IsStrictOrderedRing K] [FloorRing K]
    [Inhabited K] {nb hw : Nat} {ndsize : Int} {prm : Params} {xyz : List (Pt K)}
    (h : ExactJob nb hw prm xyz) (hgr : prm.gr ≤ 255) (htm : prm.tm ≤ 254)
    (hu : Unchunked prm xyz.length) (hr : prm.useRecompute = false) (hd : ndsize ∣ xyz.length)
    (h0 : 0 < ndsize) : ∃ out, TesellateGpu nb hw ndsize true prm xyz out := by
  obtain ⟨S, hs⟩ := h.sorts
  refine ⟨_, C56_possible h hgr htm hu ?_ (h.job.plain hs hr)⟩
  obtain ⟨d, rfl⟩ : ∃ d : Nat, ndsize = d := ⟨ndsize.toNat, by omega⟩
  simp only [gpuLaunch, ndOf, if_pos h0, Int.toNat_natCast, Bool.and_eq_true, decide_eq_true_eq]
  exact ⟨by omega, Nat.mod_eq_zero_of_dvd (Int.natCast_dvd_natCast.mp hd)⟩

/-! ### instances -/

/-- two points, no chunks: C56, C57, C58 apply -/
example : ∃ out : TessOut ℚ, TesellateGpu 4 1 2 true exPrm exXyz out ∧ out.dnn = getDnn [[1], [0]] := by
  obtain ⟨cpu, h1, h2, h3, h4⟩ := exRun
  exact ⟨cpu, C56_possible exJob (by decide) (by decide) (.inl rfl) (by decide) h1, h3⟩

example (out : TessOut ℚ) (h : TesellateGpu 4 1 2 true exPrm exXyz out) :
    out.dnn = getDnn [[1], [0]] := by
  obtain ⟨cpu, h1, h2, h3, h4⟩ := exRun
  obtain ⟨cpu', e1, e2, e3, e4⟩ := C56_same_table exJob (by decide) (by decide) (.inl rfl) rfl h
  rw [h1] at e1; cases e1
  rw [e3, h3]

/-- the CPU reports that no security radius was reached; a GPU run may report the opposite -/
example : ∃ out cpu : TessOut ℚ, TesellateGpu 4 1 1 true exPrm exXyz out ∧
    tesellateCpu 4 1 exPrm exXyz = .ok cpu ∧ out.report.srNotReached = 0 ∧
    cpu.report.srNotReached = 2 := by
  obtain ⟨cpu, h1, h2, h3, h4⟩ := exRun
  obtain ⟨out, e1, e2, -⟩ := C57_report_meaningless (ndsize := 1) exJob (by decide) (by decide)
    (.inl rfl) (by decide) rfl
  exact ⟨out, cpu, e1, h1, e2, by rw [h4]⟩

/-- work groups of 2 for 3 points -/
example (out : TessOut ℚ) : ¬ TesellateGpu 4 1 2 true { chPrm with useChunking := false } chXyz out :=
  fun h => absurd ((C58_divisible (by decide) h).2 (.inl rfl)) (by decide)

/-- rows on which C47 and C48 apply -/
def exRows : Rows ℚ ℚ := ⟨[(0, 128)], [kUndefined], List.replicate 8 ⟨0, 0, 0, 0⟩,
  List.replicate 16 ⟨0, 0, 0⟩, List.replicate 8 0, .init, chXyz, [0, 0, 0], [0, 3]⟩

example : ∃ row' : List (Int × ℚ),
    (Prog.gpuKnnCompute 0 1 1).run rowStore exRows = .ok ((), { exRows with heap := row' }) ∧
      row'.map (·.1) = [1] := by
  obtain ⟨row, row', h1, h2, h3, -⟩ := C47_same_neighbours 4 1 chXyz chS (by decide) (by decide)
    (by decide) chJob.box chSort 0 (by decide) 1 (by decide) (by decide) exRows rfl rfl rfl (by
      rfl)
  refine ⟨row', h2, ?_⟩
  have : (knnCompute chS.xyz chS.id chS.offset ((0 : Nat) : Int) 1 1
      (List.replicate 1 ((0 : Int), (⊤ : WithTop ℚ)))).map (·.map (·.1)) = .ok [1] := by decide +kernel
  rw [h3]
  rw [h1] at this
  injection this

example : (Prog.gpuKnnCompute 0 1 256).run rowStore exRows = .error .divZero :=
  C47_grid_256 256 (by decide) 0 1 exRows (by decide) (by decide)

set_option maxRecDepth 20000 in
example : (Prog.ccCompute (· % 256) true ⟨1, 8, 16⟩ 0).run rowStore exRows =
    (Prog.ccCompute id false ⟨1, 8, 16⟩ 0).run rowStore exRows := by
  have : ∃ o, ccCompute ⟨1, 8, 16⟩ exRows.xyz 0 exRows.state exRows.P exRows.T exRows.dR
      (exRows.heap.map (·.1)) exRows.dknn = .ok o := by
    have h : (ccCompute ⟨1, 8, 16⟩ exRows.xyz 0 exRows.state exRows.P exRows.T exRows.dR
      (exRows.heap.map (·.1)) exRows.dknn).map (fun _ => ()) = .ok () := by decide +kernel
    obtain ⟨o, ho, -⟩ := exceptMap_ok h
    exact ⟨o, ho⟩
  obtain ⟨o, ho⟩ := this
  exact C48_small_tables ⟨1, 8, 16⟩ (by decide) 0 exRows ho

/-- C59: if no GPU is found, the call does exactly what the CPU call does. -/
theorem C59_fallback {F D : Type} [FP F D] [Inhabited F] (nb hw : Nat) (ndsize : Int) (prm : Params)
    (xyz : List (Pt F)) (out : TessOut F) :
    TesellateGpu nb hw ndsize false prm xyz out ↔ tesellateCpu nb hw prm xyz = .ok out := by
  unfold TesellateGpu tesellateCpu
  by_cases hr : prm.useRecompute = true
  · simp only [hr, if_true, bind_eq_ok, Bool.false_eq_true, if_false]
    constructor
    · rintro ⟨S, tmpnn, states, tmpnn', states', h1, h2, h3, rfl⟩
      exact ⟨S, h1, (tmpnn, states), h2, (tmpnn', states'), h3, rfl⟩
    · rintro ⟨S, h1, ⟨tmpnn, states⟩, h2, ⟨tmpnn', states'⟩, h3, h4⟩
      exact ⟨S, tmpnn, states, tmpnn', states', h1, h2, h3, by cases h4; rfl⟩
  · simp only [hr, if_false, bind_eq_ok, Bool.false_eq_true]
    constructor
    · rintro ⟨S, tmpnn, states, tmpnn', states', h1, h2, ⟨rfl, rfl⟩, rfl⟩
      exact ⟨S, h1, (tmpnn', states'), h2, _, rfl, rfl⟩
    · rintro ⟨S, h1, ⟨tmpnn, states⟩, h2, ⟨tmpnn', states'⟩, h3, h4⟩
      cases h3
      exact ⟨S, _, _, _, _, h1, h2, ⟨rfl, rfl⟩, by cases h4; rfl⟩

end Votess
