import Verif.Proofs.SglGpu
import Verif.Props.IeeeInput
/-! Coordinates that are rounded when they are stored, for all arithmetics of `Sgl`. -/
namespace Votess.Sgl

/-- the values stored -/
def roundS (f : Fmt) (p : Pt ℚ) : Pt ℚ := ⟨rnd f p.x, rnd f p.y, rnd f p.z⟩

theorem round_coordS {f : Fmt} {ω : ℚ} (w : Fine f ω) {x : ℚ} (h : 0 ≤ x ∧ x ≤ 1 - 1 / 2 ^ 22) :
    Fl.round f x = .fin (rnd f x) ∧ (0 ≤ rnd f x ∧ rnd f x ≤ 1 - 1 / 2 ^ 23) ∧
      |rnd f x - x| ≤ (2 * ω - ω) / 2 / 2 ^ 24 := by
  have h1 : |x| < 1 := by rw [abs_of_nonneg h.1]; linarith [h.2]
  have e := w.err_unit h1
  have e' := abs_le.mp e
  have n := rnd_nonneg f h.1
  have w0 := w.pos
  have w1 := w.hi
  refine ⟨w.small (h1.le.trans (by norm_num)), ⟨n, ?_⟩, e.trans ?_⟩
  · linarith [e'.2, h.2]
  · linarith

variable {F : Type} [FP F (WithTop ℚ)] [Sgl F]

/-- the point as the program stores it: every coordinate rounded to nearest -/
def storeS (p : Pt ℚ) : Pt F :=
  ⟨emb (Fl.round (fmt F) p.x), emb (Fl.round (fmt F) p.y), emb (Fl.round (fmt F) p.z)⟩

/-- the point stored for the point meant -/
def StoredS (f : Fmt) (q p : Pt ℚ) : Prop :=
  q = roundS f p ∧ (0 ≤ p.x ∧ p.x ≤ 1 - 1 / 2 ^ 22) ∧ (0 ≤ p.y ∧ p.y ≤ 1 - 1 / 2 ^ 22) ∧
    (0 ≤ p.z ∧ p.z ≤ 1 - 1 / 2 ^ 22)

theorem storedS_ptAp {f : Fmt} {ω : ℚ} (w : Fine f ω) : ∀ q p, StoredS f q p → PtAp ω (2 * ω) q p := by
  rintro q p ⟨rfl, hx, hy, hz⟩
  exact ⟨(round_coordS w hx).2.2, (round_coordS w hy).2.2, (round_coordS w hz).2.2⟩

theorem storedS_all (f : Fmt) {L : List (Pt ℚ)} (h : InputOK L) : List.Forall₂ (StoredS f) (L.map (roundS f)) L := by
  rw [List.forall₂_map_left_iff]
  exact List.forall₂_same.mpr fun p hp => ⟨rfl, h p hp⟩

theorem storedS_eq {R L : List (Pt ℚ)} (h : List.Forall₂ (StoredS (fmt F)) R L) :
    R.map (toS : Pt ℚ → Pt F) = L.map storeS := by
  have w := fine (F := F)
  induction h with
  | nil => rfl
  | cons hd _ ih =>
    rw [List.map_cons, List.map_cons, ih]
    obtain ⟨rfl, hx, hy, hz⟩ := hd
    simp only [storeS, roundS, toS, (round_coordS w hx).1, (round_coordS w hy).1, (round_coordS w hz).1]

theorem storeS_eq {L : List (Pt ℚ)} (h : InputOK L) :
    L.map (storeS : Pt ℚ → Pt F) = (L.map (roundS (fmt F))).map toS := (storedS_eq (storedS_all _ h)).symm

theorem storeS_safe {gr : Int} (h1 : 1 ≤ gr) (h2 : gr ≤ 1290) {L : List (Pt ℚ)} (h : InputOK L) :
    Safe F gr (L.map (roundS (fmt F))) := by
  intro v hv
  obtain ⟨p, hp, rfl⟩ := List.mem_map.mp hv
  obtain ⟨hx, hy, hz⟩ := h p hp
  have w := fine (F := F)
  have key : ∀ {x : ℚ}, 0 ≤ x ∧ x ≤ 1 - 1 / 2 ^ 22 → (0 ≤ rnd (fmt F) x ∧ rnd (fmt F) x ≤ 1) ∧
      gcoordF (fmt F) gr (rnd (fmt F) x) < gr := by
    intro x hx
    obtain ⟨-, ⟨a, b⟩, -⟩ := round_coordS w hx
    exact ⟨⟨a, b.trans (by norm_num)⟩, (wide (F := F)).gcoord_lt h1 (by omega) a b⟩
  exact ⟨(key hx).1, (key hy).1, (key hz).1, (key hx).2, (key hy).2, (key hz).2⟩

theorem fac_input : Fac (om F) (2 * om F) := by
  have h0 := om_pos (F := F)
  have h1 := om_le (F := F)
  exact ⟨h0, by linarith, by linarith⟩

theorem fac_exact : Fac (om F) (om F) := by
  have h1 := om_le (F := F)
  exact ⟨om_pos, le_refl _, by linarith⟩

section
variable [Inhabited F] {hw : Nat} {prm : Params} {X : List (Pt ℚ)}

theorem in_tessellation_local (h : FloatSizes hw prm) (hX : InputOK X)
    (hk : prm.k < X.length) (hr : prm.useRecompute = false) :
    ∃ (out : TessOut F) (L : List (Pt ℚ)), tesellateCpu 4 hw prm (X.map (storeS : Pt ℚ → Pt F)) = .ok out ∧
      out.xyz = L.map storeS ∧ L.Perm X ∧
      (AllClear F (2 * om F) prm.k.toNat X → out.report.infBoundary = 0) ∧
      ((out.report.srNotReached = 0 ∨ ((X.length : Int) - 1 ≤ prm.k ∧
          out.report.pOverflow = 0 ∧ out.report.tOverflow = 0)) →
        ∀ i p, L[i]? = some p → Clear F (2 * om F) prm.k.toNat L i p →
          ∃ row, RowIs out.dnn i row ∧ CorrectRow L i p row ∧ ExactRow L i p row) := by
  obtain ⟨out, R, L, h1, h2, -, h3, h4, h5⟩ := stored_tessellation_local (F := F) fac_input (storedS_ptAp fine) h
    (storeS_safe h.gr.1 h.gr.2 hX) (storedS_all _ hX) (input_box hX) hk hr
  exact ⟨out, L, by rw [storeS_eq hX]; exact h1, by rw [h2, storedS_eq h3], h4, h5⟩

theorem in_tessellation (h : FloatSizes hw prm) (hX : InputOK X) (hm : AllClear F (2 * om F) prm.k.toNat X)
    (hk : prm.k < X.length) (hr : prm.useRecompute = false) :
    ∃ (out : TessOut F) (L : List (Pt ℚ)), tesellateCpu 4 hw prm (X.map (storeS : Pt ℚ → Pt F)) = .ok out ∧
      out.xyz = L.map storeS ∧ L.Perm X ∧ out.report.infBoundary = 0 ∧
      ((out.report.srNotReached = 0 ∨ ((X.length : Int) - 1 ≤ prm.k ∧
          out.report.pOverflow = 0 ∧ out.report.tOverflow = 0)) →
        ∀ i p, L[i]? = some p → ∃ row, RowIs out.dnn i row ∧ CorrectRow L i p row ∧ ExactRow L i p row) := by
  obtain ⟨out, R, L, h1, h2, -, h3, h4, h5⟩ := stored_tessellation (F := F) fac_input (storedS_ptAp fine) h
    (storeS_safe h.gr.1 h.gr.2 hX) (storedS_all _ hX) (input_box hX) hm hk hr
  exact ⟨out, L, by rw [storeS_eq hX]; exact h1, by rw [h2, storedS_eq h3], h4, h5⟩

theorem in_enough_room_local (h : FloatSizes hw prm) (hX : InputOK X)
    (hroom : Roomy prm X.length) :
    ∃ (out : TessOut F) (L : List (Pt ℚ)), tesellateCpu 4 hw prm (X.map (storeS : Pt ℚ → Pt F)) = .ok out ∧
      out.xyz = L.map storeS ∧ L.Perm X ∧
      ∀ i p, L[i]? = some p → MarginsBy (2 * om F) L i p → ∃ row, RowIs out.dnn i row ∧ CorrectRow L i p row ∧ ExactRow L i p row := by
  obtain ⟨out, R, L, h1, h2, -, h3, h4, h5⟩ := stored_enough_room_local (F := F) fac_input (storedS_ptAp fine) h
    (storeS_safe h.gr.1 h.gr.2 hX) (storedS_all _ hX) (input_box hX) hroom.k hroom.plain hroom.pm hroom.tm
  exact ⟨out, L, by rw [storeS_eq hX]; exact h1, by rw [h2, storedS_eq h3], h4, h5⟩

theorem in_enough_room (h : FloatSizes hw prm) (hX : InputOK X) (hm : AllMarginsBy (2 * om F) X)
    (hroom : Roomy prm X.length) :
    ∃ (out : TessOut F) (L : List (Pt ℚ)), tesellateCpu 4 hw prm (X.map (storeS : Pt ℚ → Pt F)) = .ok out ∧
      out.xyz = L.map storeS ∧ L.Perm X ∧
      ∀ i p, L[i]? = some p → ∃ row, RowIs out.dnn i row ∧ CorrectRow L i p row ∧ ExactRow L i p row := by
  obtain ⟨out, R, L, h1, h2, -, h3, h4, h5⟩ := stored_enough_room (F := F) fac_input (storedS_ptAp fine) h
    (storeS_safe h.gr.1 h.gr.2 hX) (storedS_all _ hX) (input_box hX) hm hroom.k hroom.plain hroom.pm hroom.tm
  exact ⟨out, L, by rw [storeS_eq hX]; exact h1, by rw [h2, storedS_eq h3], h4, h5⟩

theorem in_recompute_local (h : FloatSizes hw prm) (hX : InputOK X)
    (hk : prm.k < X.length) (hr : prm.useRecompute = true) (hp : (X.length : Int) + 5 ≤ prm.pm)
    (ht : 2 * (X.length : Int) + 6 ≤ prm.tm) :
    ∃ (out : TessOut F) (L : List (Pt ℚ)), tesellateCpu 4 hw prm (X.map (storeS : Pt ℚ → Pt F)) = .ok out ∧
      out.xyz = L.map storeS ∧ L.Perm X ∧
      ∀ i p, L[i]? = some p → (∀ k, 1 ≤ k → Clear F (2 * om F) k L i p) → ∃ row, RowIs out.dnn i row ∧ CorrectRow L i p row ∧ ExactRow L i p row := by
  obtain ⟨out, R, L, h1, h2, -, h3, h4, h5, -⟩ := stored_recompute_local (F := F) fac_input (storedS_ptAp fine) h
    (storeS_safe h.gr.1 h.gr.2 hX) (storedS_all _ hX) (input_box hX) hk hr hp ht
  exact ⟨out, L, by rw [storeS_eq hX]; exact h1, by rw [h2, storedS_eq h3], h4, h5⟩

theorem in_recompute (h : FloatSizes hw prm) (hX : InputOK X) (hm : ∀ k, 1 ≤ k → AllClear F (2 * om F) k X)
    (hk : prm.k < X.length) (hr : prm.useRecompute = true) (hp : (X.length : Int) + 5 ≤ prm.pm)
    (ht : 2 * (X.length : Int) + 6 ≤ prm.tm) :
    ∃ (out : TessOut F) (L : List (Pt ℚ)), tesellateCpu 4 hw prm (X.map (storeS : Pt ℚ → Pt F)) = .ok out ∧
      out.xyz = L.map storeS ∧ L.Perm X ∧
      ∀ i p, L[i]? = some p → ∃ row, RowIs out.dnn i row ∧ CorrectRow L i p row ∧ ExactRow L i p row := by
  obtain ⟨out, R, L, h1, h2, -, h3, h4, h5⟩ := stored_recompute (F := F) fac_input (storedS_ptAp fine) h
    (storeS_safe h.gr.1 h.gr.2 hX) (storedS_all _ hX) (input_box hX) hm hk hr hp ht
  exact ⟨out, L, by rw [storeS_eq hX]; exact h1, by rw [h2, storedS_eq h3], h4, h5⟩

theorem in_gpu_local {ndsize : Int} (h : FloatSizes hw prm) (hX : InputOK X)
    (hroom : Roomy prm X.length) (hgr : prm.gr ≤ 255) (htm : prm.tm ≤ 254) (hu : Unchunked prm X.length)
    {out : TessOut F} (ho : TesellateGpu 4 hw ndsize true prm (X.map storeS) out) :
    ∃ L : List (Pt ℚ), out.xyz = L.map storeS ∧ L.Perm X ∧
      ∀ i p, L[i]? = some p → MarginsBy (2 * om F) L i p → ∃ row, RowIs out.dnn i row ∧ CorrectRow L i p row ∧ ExactRow L i p row := by
  rw [storeS_eq hX] at ho
  obtain ⟨cpu, c1, c2, c3, -⟩ := gpu_table h (storeS_safe h.gr.1 h.gr.2 hX) hgr htm
    (by rw [List.length_map]; exact hu) hroom.plain ho
  obtain ⟨out', L, h1, h2, h3, h4⟩ := in_enough_room_local (F := F) h hX hroom
  rw [storeS_eq hX, c1] at h1; cases h1
  exact ⟨L, by rw [c2, h2], h3, by rw [c3]; exact h4⟩

theorem in_gpu {ndsize : Int} (h : FloatSizes hw prm) (hX : InputOK X) (hm : AllMarginsBy (2 * om F) X)
    (hroom : Roomy prm X.length) (hgr : prm.gr ≤ 255) (htm : prm.tm ≤ 254) (hu : Unchunked prm X.length)
    {out : TessOut F} (ho : TesellateGpu 4 hw ndsize true prm (X.map storeS) out) :
    ∃ L : List (Pt ℚ), out.xyz = L.map storeS ∧ L.Perm X ∧
      ∀ i p, L[i]? = some p → ∃ row, RowIs out.dnn i row ∧ CorrectRow L i p row ∧ ExactRow L i p row := by
  obtain ⟨L, h1, h2, h3⟩ := in_gpu_local (F := F) h hX hroom hgr htm hu ho
  exact ⟨L, h1, h2, fun i p hp => h3 i p hp (hm.perm h2.symm i p hp)⟩

theorem in_gpu_possible {ndsize : Int} (h : FloatSizes hw prm) (hX : InputOK X)
    (hroom : Roomy prm X.length) (hgr : prm.gr ≤ 255) (htm : prm.tm ≤ 254)
    (hu : Unchunked prm X.length) (h0 : 0 < ndsize) (hd : ndsize ∣ X.length) :
    ∃ out : TessOut F, TesellateGpu 4 hw ndsize true prm (X.map storeS) out := by
  obtain ⟨out, L, h1, -⟩ := in_enough_room_local (F := F) h hX hroom
  rw [storeS_eq hX] at h1 ⊢
  exact ⟨out, gpu_runs h (storeS_safe h.gr.1 h.gr.2 hX) hgr htm (by rw [List.length_map]; exact hu) h0
    (by rw [List.length_map]; exact hd) h1⟩

end

end Votess.Sgl
