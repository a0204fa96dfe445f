import Verif.Proofs.SglStored
import Verif.Props.Gpu
/-! The search on a GPU in rounded arithmetic, with or without fused multiply-add. -/
namespace Votess.Sgl

open FP

variable {F : Type} [FP F (WithTop ℚ)] [Sgl F]

/-- the device priority for a CPU priority: `128` stands for infinity -/
def PriRel (d : WithTop ℚ) (e : F) : Prop :=
  Ns e ∧ ((d = none ∧ val e = .fin 128) ∨ ∃ v : ℚ, d = some v ∧ val e = .fin v ∧ |v| < 128 ∧ rnd (fmt F) v = v)

theorem priRel_lt : LtRel (PriRel (F := F)) (FP.dlt F) (FP.lt : F → F → Bool) := by
  intro a b a' b' ha hb
  rw [lt_eq, dlt_eq]
  obtain ⟨-, ha⟩ := ha
  obtain ⟨-, hb⟩ := hb
  rcases ha with ⟨rfl, ha⟩ | ⟨v, rfl, ha, h1, -⟩ <;> rcases hb with ⟨rfl, hb⟩ | ⟨w, rfl, hb, h2, -⟩ <;> rw [ha, hb]
  · simp [topLt, Fl.lt]
  · have := (abs_lt.mp h2).2
    simp [topLt, Fl.lt, this.le]
  · have := (abs_lt.mp h1).2
    simp [topLt, Fl.lt, this]
  · simp [topLt, Fl.lt]

theorem PriRel.fin {d : WithTop ℚ} {e : F} (h : PriRel d e) :
    ∃ v : ℚ, val e = .fin v ∧ |v| ≤ 128 ∧ rnd (fmt F) v = v := by
  rcases h.2 with ⟨-, h⟩ | ⟨v, -, h, h1, h2⟩
  · exact ⟨128, h, by norm_num, by
      have := wide (F := F) |>.int (n := 128) (by norm_num)
      simpa using this⟩
  · exact ⟨v, h, h1.le, h2⟩

theorem PriRel.of_val {d : WithTop ℚ} {e e' : F} (h : PriRel d e) (hn : Ns e') (he : val e' = val e) : PriRel d e' := by
  unfold PriRel at *
  rw [he]; exact ⟨hn, h.2⟩

theorem selOK : SelOK (PriRel (F := F)) := by
  intro c d d' a b ha hb
  obtain ⟨v, va, v1, v2⟩ := ha.fin
  obtain ⟨w, wb, w1, w2⟩ := hb.fin
  have big : (128 : ℚ) ≤ 2 ^ 100 := by norm_num
  have h := blend' ha.1 hb.1 va wb (v1.trans big) (w1.trans big) (!c)
  rw [Bool.not_not] at h
  have hns : ∀ c : Bool, Ns (FP.add (FP.mul (FP.ofBool (!c)) a) (FP.mul (FP.ofBool c) b)) := fun c =>
    full_ns (add_full (okL _ (mul_full (okN (ns_ofBool _) ha.1))))
  cases c
  · simp only [Bool.not_false, if_true, v2] at h
    exact ha.of_val (hns _) (h.trans va.symm)
  · simp only [Bool.not_true, Bool.false_eq_true, if_false, w2] at h
    exact hb.of_val (hns _) (h.trans wb.symm)

theorem dist_pri {gr : Int} {p q : Pt ℚ} (hp : GridF (fmt F) gr p) (hq : GridF (fmt F) gr q) :
    PriRel (toD (getDistance (toS p : Pt F) (toS q))) (getDistance (toS p : Pt F) (toS q)) := by
  obtain ⟨D, hD, hn, hf⟩ := getDistance_float (F := F) (hp.diff hq).1 (hp.diff hq).2.1 (hp.diff hq).2.2
  have h3 := hp.sqDist_le hq
  have h0 : 0 ≤ sqDist p q := by unfold sqDist; positivity
  refine ⟨full_ns (getDistance_full _ _), .inr ⟨D, by rw [toD_eq, hD]; rfl, hD, ?_, hf⟩⟩
  have hω := om_pos (F := F)
  have hω1 := om_le (F := F)
  have hb : om F * sqDist p q ≤ 1 * 3 := mul_le_mul hω1 h3 h0 (by norm_num)
  unfold Near at hn
  rw [show 6 * om F / 2 ^ 24 * sqDist p q = 6 * (om F * sqDist p q) / 2 ^ 24 by ring] at hn
  have hn' := abs_le.mp hn
  rw [abs_lt]
  constructor <;> linarith [hn'.1, hn'.2]

theorem stop_pri {gr : Int} (h1 : 1 ≤ gr) (h2 : gr ≤ 2 ^ 24) {q : Pt ℚ} (hq : GridF (fmt F) gr q) {r : Int}
    (h0 : 0 ≤ r) (hr : r ≤ gr - 1) {b : F}
    (hb : b = square (add (mul (recip gr) (ofInt r)) (min3 (wallDist (recip gr) (toS q : Pt F).x)
      (wallDist (recip gr) (toS q : Pt F).y) (wallDist (recip gr) (toS q : Pt F).z)))) :
    PriRel (toD b) b := by
  obtain ⟨wx, ex, x0, x2, -⟩ := wall (F := F) h1 h2 hq.x.1 hq.x.2
  obtain ⟨wy, ey, y0, y2, -⟩ := wall (F := F) h1 h2 hq.y.1 hq.y.2
  obtain ⟨wz, ez, z0, z2, -⟩ := wall (F := F) h1 h2 hq.z.1 hq.z.2
  obtain ⟨m, rfl⟩ : ∃ m : Nat, r = m := ⟨r.toNat, by omega⟩
  have m0 : 0 ≤ min (min wx wy) wz := le_min (le_min x0 y0) z0
  have m2 : min (min wx wy) wz ≤ 2 := (min_le_right _ _).trans z2
  obtain ⟨e0, pm, fm⟩ := min3_val ex ey ez (plain_add _ _) (plain_add _ _) (plain_add _ _) (wallDist_full _ _)
    (wallDist_full _ _) (wallDist_full _ _)
  obtain ⟨B, e1, e2, e3⟩ := exit_val h1 h2 (r := m) (by omega) e0 pm fm m0 m2
  have hrq : (m : ℚ) ≤ gr := by exact_mod_cast (show (m : Int) ≤ gr by omega)
  have hg := gl32_le h1 h2 hrq
  have hb' : val b = .fin (rnd (fmt F) (B * B)) := by rw [hb]; exact e1
  have h4 : B ≤ 4 := by
    have hκ := ga_le (F := F)
    norm_num at e3 hg
    linarith
  have h16 := mul_le_mul h4 h4 e2 (by norm_num)
  have w := wide (F := F)
  have i16 : rnd (fmt F) (4 * 4) = 4 * 4 := by
    have := w.int (n := 16) (by norm_num)
    norm_num at this ⊢
    exact this
  have hle := w.mono h16
  rw [i16] at hle
  have hge := rnd_nonneg (fmt F) (mul_nonneg e2 e2)
  have hns : Ns b := by
    rw [hb]
    exact full_ns (mul_full (okR _ (add_full (okR _ fm))))
  refine ⟨hns, .inr ⟨_, by rw [toD_eq, hb']; rfl, hb', ?_, w.idem _⟩⟩
  rw [abs_of_nonneg hge]
  exact lt_of_le_of_lt hle (by norm_num)

/-- the branch-free minimum -/
theorem bmin_eq {a b : F} {x y : ℚ} (ha : val a = .fin x) (hb : val b = .fin y) (hx : |x| ≤ 2) (hy : |y| ≤ 2)
    (rx : rnd (fmt F) x = x) (ry : rnd (fmt F) y = y) (fa : Full a) (fb : Full b) (sa : Sm a) (sb : Sm b) :
    bmin a b = if FP.lt b a then b else a := by
  refine sel_eq fa fb sa sb ?_
  have big : (2 : ℚ) ≤ 2 ^ 100 := by norm_num
  have h := blend' (full_ns fa) (full_ns fb) ha hb (hx.trans big) (hy.trans big) (!(FP.lt b a))
  rw [Bool.not_not] at h
  rw [h]
  cases FP.lt b a
  · simp [ha, rx]
  · simp [hb, ry]

theorem bmin3_eq {gr : Int} (h1 : 1 ≤ gr) (h2 : gr ≤ 2 ^ 24) {q : Pt ℚ} (hq : GridF (fmt F) gr q) :
    bmin3 (wallDist (recip gr) (toS q : Pt F).x) (wallDist (recip gr) (toS q : Pt F).y) (wallDist (recip gr) (toS q : Pt F).z) =
      min3 (wallDist (recip gr) (toS q : Pt F).x) (wallDist (recip gr) (toS q : Pt F).y) (wallDist (recip gr) (toS q : Pt F).z) := by
  have key : ∀ {x : ℚ}, 0 ≤ x → x ≤ 1 → ∃ w, val (wallDist (recip gr) (emb (.fin x)) : F) = .fin w ∧ |w| ≤ 2 ∧
      rnd (fmt F) w = w := by
    intro x h0 hx1
    obtain ⟨w, e, w0, w2, -⟩ := wall (F := F) h1 h2 h0 hx1
    refine ⟨w, e, by rw [abs_of_nonneg w0]; exact w2, ?_⟩
    have h := wallDist_val (F := F) h1 h2 h0
    rw [e] at h
    injection h with h
    rw [h]; exact wide.idem _
  obtain ⟨wx, ex, x2, rx⟩ := key hq.x.1 hq.x.2
  obtain ⟨wy, ey, y2, ry⟩ := key hq.y.1 hq.y.2
  obtain ⟨wz, ez, z2, rz⟩ := key hq.z.1 hq.z.2
  show bmin (bmin (wallDist (recip gr) (emb (.fin q.x)) : F) (wallDist (recip gr) (emb (.fin q.y))))
      (wallDist (recip gr) (emb (.fin q.z))) =
    min3 (wallDist (recip gr) (emb (.fin q.x))) (wallDist (recip gr) (emb (.fin q.y))) (wallDist (recip gr) (emb (.fin q.z)))
  unfold min3
  rw [bmin_eq ex ey x2 y2 rx ry (wallDist_full _ _) (wallDist_full _ _) (sm_add _ _) (sm_add _ _)]
  simp only
  split
  · exact bmin_eq ey ez y2 z2 ry rz (wallDist_full _ _) (wallDist_full _ _) (sm_add _ _) (sm_add _ _)
  · exact bmin_eq ex ez x2 z2 rx rz (wallDist_full _ _) (wallDist_full _ _) (sm_add _ _) (sm_add _ _)

/-- the two searches do the same -/
theorem gpuKnn_rel {xyz : List (Pt F)} {id offset : List Int} (index : Int) (k : Nat) (gr : Int)
    (hk : k ≤ 65535) (hgr : 1 ≤ gr) (hgr' : gr ≤ 255)
    (hbox : ∀ p ∈ xyz, ∃ v, p = toS v ∧ GridF (fmt F) gr v) (hid : ∀ c ∈ id, 0 ≤ c ∧ c < gr * gr * gr)
    (h : List (Int × WithTop ℚ)) (h' : List (Int × F)) (hr : HRel PriRel h h') :
    RelM (HRel PriRel) (knnCompute xyz id offset index k gr h)
      (gpuKnnL xyz id offset index k gr h') := by
  refine gpuKnn_gen priRel_lt selOK index k gr hk hgr hgr' ?_ ?_ ?_ hid h h' hr
  · intro p hp q hq
    obtain ⟨v, rfl, hv⟩ := hbox p hp
    obtain ⟨w, rfl, hw⟩ := hbox q hq
    exact dist_pri hv hw
  · intro q hq
    obtain ⟨w, rfl, hw⟩ := hbox q hq
    exact bmin3_eq hgr (by omega) hw
  · intro q hq r h0 hr b hb
    obtain ⟨w, rfl, hw⟩ := hbox q hq
    exact stop_pri hgr (by omega) hw h0 hr hb

theorem hRel_start (k : Nat) : HRel PriRel (List.replicate k ((0 : Int), FP.dinf F))
    (List.replicate k ((0 : Int), (FP.ofInt 128 : F))) := by
  refine ⟨by simp, fun i x y hx hy => ?_⟩
  rw [List.getElem?_replicate] at hx hy
  split at hx
  · rw [if_pos ‹_›] at hy
    cases hx; cases hy
    exact ⟨rfl, ns_ofInt _, .inl ⟨dinf_eq, by
      have := ofInt_val (F := F) (n := 128) (by norm_num)
      simpa using this⟩⟩
  · cases hx

section
variable [Inhabited F] {hw : Nat} {ndsize : Int} {prm : Params} {R0 : List (Pt ℚ)}

theorem same {S : Sorted F} (h : FloatSizes hw prm)
    (hsafe : Safe F prm.gr R0) (hs : xyzSort 4 prm.gr (R0.map (toS : Pt ℚ → Pt F)) = .ok S)
    (hgr : prm.gr ≤ 255) : SameSearch S prm.gr prm.args.k := by
  intro i hi crow e1
  have hj := safe_job (F := F) h hsafe
  have hk16 := (hj.ready hs).k
  have hperm := C01_sort_permutes 4 prm.gr _ S hs
  obtain ⟨row, f1, f2⟩ := (gpuKnn_rel (xyz := S.xyz) (id := S.id) (offset := S.offset) (i : Int)
    prm.args.k prm.gr (by omega) h.gr.1 hgr
    (fun p hp => safe_pts hsafe p (hperm.mem_iff.mp hp)) (hj.grid hs).id_range _ _
    (hRel_start prm.args.k)).ok e1
  exact ⟨row, f1, f2.ids⟩

theorem gpu_table (h : FloatSizes hw prm) (hsafe : Safe F prm.gr R0) (hgr : prm.gr ≤ 255)
    (htm : prm.tm ≤ 254) (hu : Unchunked prm R0.length) (hr : prm.useRecompute = false)
    {out : TessOut F} (ho : TesellateGpu 4 hw ndsize true prm (R0.map toS) out) :
    ∃ cpu, tesellateCpu 4 hw prm (R0.map (toS : Pt ℚ → Pt F)) = .ok cpu ∧ out.xyz = cpu.xyz ∧ out.dnn = cpu.dnn ∧
      out.warnXyz = cpu.warnXyz ∧ out.warnId = cpu.warnId :=
  gpu_same_table (safe_job h hsafe) (fun _ hs => same h hsafe hs hgr) htm (by rw [List.length_map]; exact hu) hr ho

theorem gpu_runs (h : FloatSizes hw prm) (hsafe : Safe F prm.gr R0) (hgr : prm.gr ≤ 255)
    (htm : prm.tm ≤ 254) (hu : Unchunked prm R0.length) (h0 : 0 < ndsize)
    (hd : ndsize ∣ R0.length) {cpu : TessOut F} (hc : tesellateCpu 4 hw prm (R0.map toS) = .ok cpu) :
    TesellateGpu 4 hw ndsize true prm (R0.map toS) cpu := by
  obtain ⟨S, hs⟩ : ∃ S, xyzSort 4 prm.gr (R0.map (toS : Pt ℚ → Pt F)) = .ok S :=
    (C05_sort_safe_iff 4 prm.gr _ h.gr.1).mpr (fun p hp => by
      obtain ⟨c, a, b, d⟩ := safe_cells h hsafe p hp; exact ⟨c, a, by omega, d⟩)
  refine gpu_possible (safe_job h hsafe) hs (same h hsafe hs hgr) htm (by rw [List.length_map]; exact hu) ?_ hc
  obtain ⟨d, rfl⟩ : ∃ d : Nat, ndsize = d := ⟨ndsize.toNat, by omega⟩
  simp only [gpuLaunch, ndOf, if_pos h0, Int.toNat_natCast, Bool.and_eq_true, decide_eq_true_eq, List.length_map]
  exact ⟨by omega, Nat.mod_eq_zero_of_dvd (Int.natCast_dvd_natCast.mp hd)⟩

end

end Votess.Sgl
