import Verif.Props.Gpu
import Verif.Props.IeeeExample
/-!
# C69 — calls on a GPU with single precision coordinates

The device search compares and copies squared distances in `float` without branches, and starts its
heap with `128` instead of infinity.  C47 and C56 are about exact arithmetic; here the arithmetic is
that of `float`.
-/
namespace Votess

open FP

/-- the device priority for a CPU priority in single precision: `128` stands for infinity -/
def PriRel32 (d : WithTop ℚ) (e : F32) : Prop :=
  (d = none ∧ e = .fin 128) ∨ ∃ v : ℚ, d = some v ∧ e = .fin v ∧ |v| < 128 ∧ rnd b32 v = v

theorem priRel32_lt : LtRel PriRel32 (FP.dlt F32) (FP.lt : F32 → F32 → Bool) := by
  rintro a b a' b' (⟨rfl, rfl⟩ | ⟨v, rfl, rfl, h1, -⟩) (⟨rfl, rfl⟩ | ⟨w, rfl, rfl, h2, -⟩)
  · simp [FP.dlt, FP.lt, topLt, Fl.lt]
  · have := (abs_lt.mp h2).2
    simp [FP.dlt, FP.lt, topLt, Fl.lt, this.le]
  · have := (abs_lt.mp h1).2
    simp [FP.dlt, FP.lt, topLt, Fl.lt, this]
  · simp [FP.dlt, FP.lt, topLt, Fl.lt]

theorem PriRel32.val {d : WithTop ℚ} {e : F32} (h : PriRel32 d e) :
    ∃ v : ℚ, e = .fin v ∧ |v| ≤ 128 ∧ rnd b32 v = v := by
  rcases h with ⟨-, rfl⟩ | ⟨v, -, rfl, h1, h2⟩
  · exact ⟨128, rfl, by norm_num, by decide +kernel⟩
  · exact ⟨v, rfl, h1.le, h2⟩

theorem selF32 (c : Bool) {v w : ℚ} (v1 : |v| ≤ 128) (v2 : rnd b32 v = v) (w1 : |w| ≤ 128) (w2 : rnd b32 w = w) :
    selF c (.fin v : F32) (.fin w) = if c then .fin w else .fin v := by
  have one : (FP.ofInt 1 : F32) = .fin 1 := by decide +kernel
  have zero : (FP.ofInt 0 : F32) = .fin 0 := by decide +kernel
  have big : (128 : ℚ) ≤ 2 ^ 100 := by norm_num
  have r0 : rnd b32 0 = 0 := by decide +kernel
  cases c
  · simp only [selF, FP.ofBool, Bool.not_false, if_true, Bool.false_eq_true, if_false, one, zero]
    rw [mulF32 (by rw [one_mul]; exact v1.trans big), mulF32 (by rw [zero_mul, abs_zero]; positivity),
      one_mul, zero_mul, v2, r0, addF32 (by rw [add_zero]; exact v1.trans big), add_zero, v2]
  · simp only [selF, FP.ofBool, Bool.not_true, if_true, Bool.false_eq_true, if_false, one, zero]
    rw [mulF32 (by rw [zero_mul, abs_zero]; positivity), mulF32 (by rw [one_mul]; exact w1.trans big),
      one_mul, zero_mul, w2, r0, addF32 (by rw [zero_add]; exact w1.trans big), zero_add, w2]

theorem selOK32 : SelOK PriRel32 := by
  intro c d d' a b ha hb
  obtain ⟨v, rfl, v1, v2⟩ := ha.val
  obtain ⟨w, rfl, w1, w2⟩ := hb.val
  rw [selF32 c v1 v2 w1 w2]; cases c
  exacts [ha, hb]

theorem add_rounded {a b : F32} {D : ℚ} (h : (FP.add a b : F32) = .fin D) : rnd b32 D = D := by
  have key (x : ℚ) (h : Fl.round b32 x = .fin D) : rnd b32 D = D := by
    unfold Fl.round at h
    simp only at h
    split at h
    · cases h
    · split at h
      · cases h
      · injection h with h
        rw [← h]; exact rnd_rnd x
  cases a <;> cases b <;> first | exact key _ h | cases h

theorem dist_pri32 {gr : Int} {p q : Pt ℚ} (hp : GridPt gr p) (hq : GridPt gr q) :
    PriRel32 (toD (getDistance (toF32 p) (toF32 q))) (getDistance (toF32 p) (toF32 q)) := by
  obtain ⟨D, hD, hn⟩ := hp.dist hq
  have h3 := hp.sqDist_le hq
  have h0 : 0 ≤ sqDist p q := by unfold sqDist; positivity
  refine .inr ⟨D, by rw [hD]; rfl, hD, ?_, add_rounded hD⟩
  have hn' := abs_le.mp hn
  norm_num at hn'
  rw [abs_lt]
  constructor <;> linarith [hn'.1, hn'.2]

theorem stop_pri32 {gr : Int} (h1 : 1 ≤ gr) (h2 : gr ≤ 2 ^ 24) {q : Pt ℚ} (hq : GridPt gr q) {r : Int}
    (h0 : 0 ≤ r) (hr : r ≤ gr - 1) {b : F32}
    (hb : b = square (add (mul (recip gr) (ofInt r)) (min3 (wallDist (recip gr) (toF32 q).x)
      (wallDist (recip gr) (toF32 q).y) (wallDist (recip gr) (toF32 q).z)))) :
    PriRel32 (toD b) b := by
  obtain ⟨wx, ex, x0, x2, -⟩ := wallDist32 h1 h2 hq.x.1 hq.x.2
  obtain ⟨wy, ey, y0, y2, -⟩ := wallDist32 h1 h2 hq.y.1 hq.y.2
  obtain ⟨wz, ez, z0, z2, -⟩ := wallDist32 h1 h2 hq.z.1 hq.z.2
  obtain ⟨m, rfl⟩ : ∃ m : Nat, r = m := ⟨r.toNat, by omega⟩
  have m0 : 0 ≤ min (min wx wy) wz := le_min (le_min x0 y0) z0
  have m2 : min (min wx wy) wz ≤ 2 := (min_le_right _ _).trans z2
  obtain ⟨e1, e2, e3⟩ := exit32_eq h1 h2 (r := m) (by omega) m0 m2
  have hrq : (m : ℚ) ≤ gr := by exact_mod_cast (show (m : Int) ≤ gr by omega)
  have hg := gl32_le h1 h2 hrq
  simp only [toF32] at hb
  rw [ex, ey, ez, min3_32, e1] at hb
  have h4 : exit32 gr m (min (min wx wy) wz) ≤ 4 := by
    norm_num at e3 hg
    linarith
  have h16 := mul_le_mul h4 h4 e2 (by norm_num)
  have i16 : IsFl b32 (4 * 4) := ⟨16, 0, by decide, by decide, by decide +kernel⟩
  have hle := rnd_le b32_p i16 h16
  have hge := rnd_nonneg b32 (mul_nonneg e2 e2)
  refine .inr ⟨_, by rw [hb]; rfl, hb, ?_, rnd_rnd _⟩
  rw [abs_of_nonneg hge]
  exact lt_of_le_of_lt hle (by norm_num)

/-- the branch-free minimum -/
theorem bmin3_32 {gr : Int} (h1 : 1 ≤ gr) (h2 : gr ≤ 2 ^ 24) {q : Pt ℚ} (hq : GridPt gr q) :
    bmin3 (wallDist (recip gr) (toF32 q).x) (wallDist (recip gr) (toF32 q).y) (wallDist (recip gr) (toF32 q).z) =
      min3 (wallDist (recip gr) (toF32 q).x) (wallDist (recip gr) (toF32 q).y) (wallDist (recip gr) (toF32 q).z) := by
  have key : ∀ {x : ℚ}, 0 ≤ x → x ≤ 1 → ∃ w, wallDist (recip gr) (.fin x : F32) = .fin w ∧ |w| ≤ 128 ∧ rnd b32 w = w := by
    intro x h0 hx1
    obtain ⟨w, e, w0, w2, -⟩ := wallDist32 h1 h2 h0 hx1
    exact ⟨w, e, by rw [abs_of_nonneg w0]; linarith, add_rounded e⟩
  obtain ⟨wx, ex, x1, x2⟩ := key hq.x.1 hq.x.2
  obtain ⟨wy, ey, y1, y2⟩ := key hq.y.1 hq.y.2
  obtain ⟨wz, ez, z1, z2⟩ := key hq.z.1 hq.z.2
  simp only [toF32]
  rw [ex, ey, ez]
  unfold bmin3 min3
  rw [show bmin (.fin wx : F32) (.fin wy) = _ from selF32 _ x1 x2 y1 y2]
  simp only
  split
  · exact selF32 _ y1 y2 z1 z2
  · exact selF32 _ x1 x2 z1 z2

/-- the two searches do the same in single precision -/
theorem gpuKnn_rel32 {xyz : List (Pt F32)} {id offset : List Int} (index : Int) (k : Nat) (gr : Int)
    (hk : k ≤ 65535) (hgr : 1 ≤ gr) (hgr' : gr ≤ 255)
    (hbox : ∀ p ∈ xyz, ∃ v, p = toF32 v ∧ GridPt gr v) (hid : ∀ c ∈ id, 0 ≤ c ∧ c < gr * gr * gr)
    (h : List (Int × WithTop ℚ)) (h' : List (Int × F32)) (hr : HRel PriRel32 h h') :
    RelM (HRel PriRel32) (knnCompute xyz id offset index k gr h)
      (gpuKnnL xyz id offset index k gr h') := by
  refine gpuKnn_gen priRel32_lt selOK32 index k gr hk hgr hgr' ?_ ?_ ?_ hid h h' hr
  · intro p hp q hq
    obtain ⟨v, rfl, hv⟩ := hbox p hp
    obtain ⟨w, rfl, hw⟩ := hbox q hq
    exact dist_pri32 hv hw
  · intro q hq
    obtain ⟨w, rfl, hw⟩ := hbox q hq
    exact bmin3_32 hgr (by omega) hw
  · intro q hq r h0 hr b hb
    obtain ⟨w, rfl, hw⟩ := hbox q hq
    exact stop_pri32 hgr (by omega) hw h0 hr hb

theorem hRel_start32 (k : Nat) : HRel PriRel32 (List.replicate k ((0 : Int), FP.dinf F32))
    (List.replicate k ((0 : Int), (FP.ofInt 128 : F32))) := by
  refine ⟨by simp, fun i x y hx hy => ?_⟩
  rw [List.getElem?_replicate] at hx hy
  split at hx
  · rw [if_pos ‹_›] at hy
    cases hx; cases hy
    exact ⟨rfl, .inl ⟨rfl, by decide +kernel⟩⟩
  · cases hx

theorem same32 {hw : Nat} {prm : Params} {xyz : List (Pt F32)} {S : Sorted F32} (h : FloatSizes hw prm)
    (hsafe : SafePoints prm.gr xyz) (hs : xyzSort 4 prm.gr xyz = .ok S) (hgr : prm.gr ≤ 255) :
    SameSearch S prm.gr prm.args.k := by
  intro i hi crow e1
  have hj := safe_job h hsafe
  have hk16 := (hj.ready hs).k
  have hperm := C01_sort_permutes 4 prm.gr xyz S hs
  obtain ⟨row, f1, f2⟩ := (gpuKnn_rel32 (xyz := S.xyz) (id := S.id) (offset := S.offset) (i : Int)
    prm.args.k prm.gr (by omega) h.gr.1 hgr
    (fun p hp => safe_gridPt h.gr.1 h.gr.2 hsafe p (hperm.mem_iff.mp hp)) (hj.grid hs).id_range _ _
    (hRel_start32 prm.args.k)).ok e1
  exact ⟨row, f1, f2.ids⟩

/-- C69: the device search in single precision finds the same neighbours in the same order as the CPU
search; their priorities are the same numbers, and `128` stands for a missing neighbour. -/
theorem C69_neighbours {gr : Int} (hgr : 1 ≤ gr) (hgr' : gr ≤ 255) {xyz : List (Pt F32)}
    (hsafe : SafePoints gr xyz) {S : Sorted F32} (hs : xyzSort 4 gr xyz = .ok S) (i : Nat)
    (hi : i < S.xyz.length) (k : Nat) (hk1 : 1 ≤ k) (hk : k ≤ 65535) (r : Rows F32 F32)
    (hx : r.xyz = S.xyz) (hid : r.id = S.id) (ho : r.offset = S.offset)
    (hh : r.heap = List.replicate k (0, .fin 128)) :
    ∃ (row : List (Int × WithTop ℚ)) (row' : List (Int × F32)),
      knnCompute S.xyz S.id S.offset i k gr (List.replicate k (0, ⊤)) = .ok row ∧
      (Prog.gpuKnnCompute (i : Int) k gr).run rowStore r = .ok ((), { r with heap := row' }) ∧
      row'.map (·.1) = row.map (·.1) ∧ row'.length = k ∧
      ∀ (j : Nat) (e : Int × WithTop ℚ) (e' : Int × F32), row[j]? = some e → row'[j]? = some e' →
        ∃ v : ℚ, e'.2 = .fin v ∧ e.2 = (if v < 128 then (v : WithTop ℚ) else ⊤) := by
  have hperm := C01_sort_permutes 4 gr xyz S hs
  have hgp := safe_gridPt hgr (by omega) hsafe
  have hsz : FloatSizes 4 ⟨1, gr, 6, 8, 1, 0, false, false⟩ :=
    ⟨⟨hgr, by show gr ≤ 1290; omega⟩, by simp, by simp, by simp, by simp⟩
  have hj := safe_job (xyz := xyz) hsz hsafe
  have hg := hj.grid hs
  obtain ⟨q, hq, -⟩ := hgp _ (hperm.mem_iff.mp (List.getElem_mem hi))
  obtain ⟨row, e1, e2, -⟩ := C66_knn hgr (by omega) hsafe hs
    (show S.xyz[i]? = some (toF32 q) by rw [List.getElem?_eq_getElem hi, hq]) hk1
  obtain ⟨row', f1, f2⟩ := (gpuKnn_rel32 (xyz := S.xyz) (id := S.id) (offset := S.offset) (i : Int)
    k gr hk hgr hgr' (fun p hp => hgp p (hperm.mem_iff.mp hp)) hg.id_range _ _ (hRel_start32 k)).ok e1
  have e128 : (FP.ofInt 128 : F32) = .fin 128 := by decide +kernel
  refine ⟨row, row', e1, ?_, f2.ids, ?_, ?_⟩
  · show rrun _ r = _
    rw [gpuKnnCompute_run (xyz := S.xyz) (ids := S.id) (offset := S.offset) (i : Int) k gr r hx
      hid ho, hh, ← e128, f1]
    rfl
  · have := congrArg List.length f2.ids
    simpa [e2] using this
  · intro j e e' he he'
    rcases (f2.2 j e e' he he').2 with ⟨h1, h2⟩ | ⟨v, h1, h2, h3, -⟩
    · exact ⟨128, h2, by rw [h1, if_neg (lt_irrefl _)]; rfl⟩
    · exact ⟨v, h2, by rw [h1, if_pos (abs_lt.mp h3).2]; rfl⟩

section
variable {hw : Nat} {ndsize : Int} {prm : Params} {xyz : List (Pt F32)} {L0 : List (Pt ℚ)}

/-- C69: without chunking and recompute, every execution of the call on a GPU in single precision
returns what the CPU call in single precision returns: point order, neighbour table and warnings. -/
theorem C69_same_table (h : FloatSizes hw prm) (hsafe : SafePoints prm.gr xyz) (hgr : prm.gr ≤ 255)
    (htm : prm.tm ≤ 254) (hu : Unchunked prm xyz.length) (hr : prm.useRecompute = false)
    {out : TessOut F32} (ho : TesellateGpu 4 hw ndsize true prm xyz out) :
    ∃ cpu, tesellateCpu 4 hw prm xyz = .ok cpu ∧ out.xyz = cpu.xyz ∧ out.dnn = cpu.dnn ∧
      out.warnXyz = cpu.warnXyz ∧ out.warnId = cpu.warnId :=
  gpu_same_table (safe_job h hsafe) (fun _ hs => same32 h hsafe hs hgr) htm hu hr ho

/-- C69: there is such an execution if the work-group size divides the number of points, also with
recompute. -/
theorem C69_possible (h : FloatSizes hw prm) (hsafe : SafePoints prm.gr xyz) (hgr : prm.gr ≤ 255)
    (htm : prm.tm ≤ 254) (hu : Unchunked prm xyz.length) (h0 : 0 < ndsize)
    (hd : ndsize ∣ xyz.length) {cpu : TessOut F32} (hc : tesellateCpu 4 hw prm xyz = .ok cpu) :
    TesellateGpu 4 hw ndsize true prm xyz cpu := by
  obtain ⟨S, hs⟩ : ∃ S, xyzSort 4 prm.gr xyz = .ok S :=
    (C05_sort_safe_iff 4 prm.gr xyz h.gr.1).mpr (fun p hp => by
      obtain ⟨c, a, b, d⟩ := safe_cells h hsafe p hp; exact ⟨c, a, by omega, d⟩)
  refine gpu_possible (safe_job h hsafe) hs (same32 h hsafe hs hgr) htm hu ?_ hc
  obtain ⟨d, rfl⟩ : ∃ d : Nat, ndsize = d := ⟨ndsize.toNat, by omega⟩
  simp only [gpuLaunch, ndOf, if_pos h0, Int.toNat_natCast, Bool.and_eq_true, decide_eq_true_eq]
  exact ⟨by omega, Nat.mod_eq_zero_of_dvd (Int.natCast_dvd_natCast.mp hd)⟩

/-- C69: all other points as candidates and room for their planes and vertices: every execution of the
call on a GPU in single precision, for points with margins, returns the exact tessellation. -/
theorem C69_tessellation (h : FloatSizes hw prm) (hsafe : SafePoints prm.gr (L0.map toF32))
    (hm : AllMargins L0) (hgr : prm.gr ≤ 255) (htm : prm.tm ≤ 254) (hu : Unchunked prm L0.length)
    (hk : prm.k = (L0.length : Int) - 1) (hr : prm.useRecompute = false)
    (hp : prm.k + 6 ≤ prm.pm) (ht : 2 * prm.k + 8 ≤ prm.tm)
    {out : TessOut F32} (ho : TesellateGpu 4 hw ndsize true prm (L0.map toF32) out) :
    ∃ L : List (Pt ℚ), out.xyz = L.map toF32 ∧ L.Perm L0 ∧
      ∀ i p, L[i]? = some p → ∃ row, RowIs out.dnn i row ∧ CorrectRow L i p row ∧ ExactRow L i p row := by
  obtain ⟨cpu, c1, c2, c3, -⟩ := C69_same_table h hsafe hgr htm (by rw [List.length_map]; exact hu) hr ho
  obtain ⟨out', L, h1, h2, h3, h4⟩ := C67_enough_room h hsafe hm hk hr hp ht
  rw [c1] at h1; cases h1
  exact ⟨L, by rw [c2, h2], h3, by rw [c3]; exact h4⟩

end

/-- four points on a GPU, two work groups of two -/
example : (∃ out, TesellateGpu 4 8 2 true ⟨3, 3, 9, 14, 0, 0, false, false⟩ (four.map toF32) out) ∧
    ∀ out, TesellateGpu 4 8 2 true ⟨3, 3, 9, 14, 0, 0, false, false⟩ (four.map toF32) out →
      ∃ L : List (Pt ℚ), out.xyz = L.map toF32 ∧ L.Perm four ∧
        ∀ i p, L[i]? = some p → ∃ row, RowIs out.dnn i row ∧ ExactRow L i p row := by
  have hsz : FloatSizes 8 ⟨3, 3, 9, 14, 0, 0, false, false⟩ :=
    ⟨by decide, by decide, by decide, by decide, by decide⟩
  constructor
  · obtain ⟨out, L, h1, -⟩ := C67_enough_room (hw := 8) hsz (four_safe 3) four_margins (by decide) rfl
      (by decide) (by decide)
    exact ⟨out, C69_possible hsz (four_safe 3) (by decide) (by decide) (.inl rfl) (by decide)
      (by decide) h1⟩
  · intro out ho
    obtain ⟨L, h1, h2, h3⟩ := C69_tessellation hsz (four_safe 3) four_margins (by decide) (by decide)
      (.inl rfl) (by decide) rfl (by decide) (by decide) ho
    exact ⟨L, h1, h2, fun i p hp => by obtain ⟨row, g1, -, g2⟩ := h3 i p hp; exact ⟨row, g1, g2⟩⟩

/-- the neighbour search on the device, for the first of the four points -/
example : ∃ (S : Sorted F32) (r : Rows F32 F32) (row : List (Int × WithTop ℚ)) (row' : List (Int × F32)),
    xyzSort 4 3 (four.map toF32) = .ok S ∧
    knnCompute S.xyz S.id S.offset 0 2 3 (List.replicate 2 (0, ⊤)) = .ok row ∧
    (Prog.gpuKnnCompute 0 2 3).run rowStore r = .ok ((), { r with heap := row' }) ∧
    row'.map (·.1) = row.map (·.1) ∧ row'.length = 2 := by
  have hsz : FloatSizes 8 ⟨2, 3, 9, 14, 0, 0, false, false⟩ :=
    ⟨by decide, by decide, by decide, by decide, by decide⟩
  obtain ⟨S, out, hS, hp, -⟩ := C65_call hsz (four_safe 3) rfl
  obtain ⟨row, row', h1, h2, h3, h4, -⟩ := C69_neighbours (by decide) (by decide) (four_safe 3) hS 0
    (by rw [hp.length_eq]; decide) 2 (by decide) (by decide)
    ⟨List.replicate 2 (0, .fin 128), [], [], [], [], State.init, S.xyz, S.id, S.offset⟩ rfl rfl rfl rfl
  exact ⟨S, _, row, row', hS, h1, h2, h3, h4⟩

end Votess
