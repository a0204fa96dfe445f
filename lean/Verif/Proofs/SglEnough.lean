import Verif.Proofs.SglInput
import Verif.Proofs.RadiusReach
/-! Calls with fewer candidates than other points, in rounded arithmetic. -/
namespace Votess

/-- room for the planes and vertices of `k` candidates, fewer than the points; no recompute -/
structure RoomyFew (prm : Params) (n : Nat) : Prop where
  k : prm.k < n
  pm : prm.k + 6 ≤ prm.pm
  tm : 2 * prm.k + 8 ≤ prm.tm
  plain : prm.useRecompute = false

end Votess

namespace Votess.Sgl

variable {F : Type} [FP F (WithTop ℚ)] [Sgl F]

section
variable [Inhabited F] {hw : Nat} {prm : Params} {S : Sorted F} {R0 L0 R L : List (Pt ℚ)} {μ : ℚ}

/-- the security radius is reported to be reached if and only if the candidates are enough -/
theorem stored_reached (hμ : Fac (om F) μ) (h : FloatSizes hw prm) (hsafe : Safe F prm.gr R0)
    (hS : xyzSort 4 prm.gr (R0.map (toS : Pt ℚ → Pt F)) = .ok S) (hR : S.xyz = R.map (toS : Pt ℚ → Pt F))
    (hst : Stored (om F) μ R L) (hbox : ∀ v ∈ L, InUnitBox v) {a : CCArgs} (ha : SizeOK a)
    {i : Nat} {p : Pt ℚ} (hp : L[i]? = some p) (hm : Clear F μ a.k L i p) (hk : a.k < R0.length) (hkL : a.k < L.length)
    (hpm : a.k + 6 ≤ a.pm) (ht : 2 * a.k + 8 ≤ a.tm) :
    (stateOf S prm.gr a i).get .security_radius_reached = true ↔ Enough a.k L i p := by
  obtain ⟨res, o, h1, h3, -⟩ := stored_cell hμ h hsafe hS hR hst hbox ha hp hm hk
  have hno := stored_room hμ h hsafe hS hR hst hbox ha hp hm hk hpm ht
  rw [h3] at hno ⊢
  exact ⟨enough_of_reached h1 hkL hno (hm.1.noTies hμ.mpos), reached_of_enough h1 hkL hno⟩

/-- room for the planes and vertices of `k` candidates: a call returns the exact rows of the points with margins for
which `k` candidates are enough -/
theorem stored_enough_local {r : Pt ℚ → Pt ℚ → Prop} (hμ : Fac (om F) μ) (hr0 : ∀ a b, r a b → PtAp (om F) μ a b)
    (h : FloatSizes hw prm) (hsafe : Safe F prm.gr R0)
    (hst0 : List.Forall₂ r R0 L0) (hbox0 : ∀ v ∈ L0, InUnitBox v) (hk : prm.k < L0.length) (hr : prm.useRecompute = false)
    (hp : prm.k + 6 ≤ prm.pm) (ht : 2 * prm.k + 8 ≤ prm.tm) :
    ∃ (out : TessOut F) (R L : List (Pt ℚ)), tesellateCpu 4 hw prm (R0.map (toS : Pt ℚ → Pt F)) = .ok out ∧
      out.xyz = R.map (toS : Pt ℚ → Pt F) ∧ R.Perm R0 ∧ List.Forall₂ r R L ∧ L.Perm L0 ∧
      (∀ i p, L[i]? = some p → Clear F μ prm.k.toNat L i p → Enough prm.k.toNat L i p →
        ∃ row, RowIs out.dnn i row ∧ CorrectRow L i p row ∧ ExactRow L i p row) ∧
      (AllClear F μ prm.k.toNat L0 → (out.report.srNotReached = 0 ↔ AllEnough prm.k.toNat L0) ∧
        out.report.infBoundary = 0 ∧ out.report.pOverflow = 0 ∧ out.report.tOverflow = 0) := by
  have hj := safe_job (F := F) h hsafe
  obtain ⟨S, out, hS, hperm, o1, o2, o3⟩ := safe_call (F := F) h hsafe hr
  obtain ⟨R, hR, hRp⟩ := sorted_toS hperm
  obtain ⟨L, hLp, hrr⟩ := forall2_perm hRp hst0
  have hst : Stored (om F) μ R L := hrr.imp hr0
  have hbox : ∀ v ∈ L, InUnitBox v := fun v hv => hbox0 v (hLp.mem_iff.mp hv)
  have hlen := hLp.length_eq
  have hlR : R.length = L.length := hst.length_eq
  have hlR0 := hst0.length_eq
  have h1 := h.k; have h2 := h.pm
  have hSl : S.xyz.length = L.length := by rw [hR, List.length_map, hlR]
  have hka : prm.args.k < R0.length := by simp only [Params.args]; omega
  have hkL : prm.args.k < L.length := by simp only [Params.args]; omega
  have hpa : prm.args.k + 6 ≤ prm.args.pm := by simp only [Params.args]; omega
  have hta : 2 * prm.args.k + 8 ≤ prm.args.tm := by simp only [Params.args]; omega
  obtain ⟨out', e1, e2⟩ := C39_counters hj hS hr
  rw [o1] at e1; cases e1
  obtain ⟨c1, c2, -, -, c3, c4, -⟩ := e2
  simp only at c1 c2 c3 c4
  refine ⟨out, R, L, o1, by rw [o2, hR], hRp, hrr, hLp, fun i p hpi hm he => ?_, fun hm => ?_⟩
  · have hi := (List.getElem?_eq_some_iff.mp hpi).1
    exact ⟨_, o3 i (by rw [List.length_map]; omega), stored_row hμ h hsafe hS hR hst hbox hj.size hpi hm hka
      (stored_room hμ h hsafe hS hR hst hbox hj.size hpi hm hka hpa hta)
      (Or.inl ((stored_reached hμ h hsafe hS hR hst hbox hj.size hpi hm hka hkL hpa hta).mpr he))⟩
  have hmL := hm.perm hLp.symm
  have hno : ∀ i, i < S.xyz.length → NoError (stateOf S prm.gr prm.args i) := fun i hi =>
    stored_room hμ h hsafe hS hR hst hbox hj.size (List.getElem?_eq_getElem (by omega)) (hmL i _ (List.getElem?_eq_getElem (by omega)))
      hka hpa hta
  have hiff : ∀ (i : Nat) (p : Pt ℚ), L[i]? = some p →
      ((stateOf S prm.gr prm.args i).get .security_radius_reached = true ↔ Enough prm.k.toNat L i p) := fun i p hpi =>
    stored_reached hμ h hsafe hS hR hst hbox hj.size hpi (hmL i p hpi) hka hkL hpa hta
  have zero : ∀ f : Status, (∀ i, i < S.xyz.length → (stateOf S prm.gr prm.args i).get f = false) →
      (List.range S.xyz.length).countP (fun i => (stateOf S prm.gr prm.args i).get f) = 0 := by
    intro f hf
    rw [List.countP_eq_zero]
    intro i hi
    rw [hf i (List.mem_range.mp hi)]
    decide
  refine ⟨⟨fun hz => ?_, fun he => ?_⟩, by rw [c2]; exact zero _ fun i hi => (hno i hi).2.2,
    by rw [c3]; exact zero _ fun i hi => (hno i hi).1, by rw [c4]; exact zero _ fun i hi => (hno i hi).2.1⟩
  · refine AllEnough.perm hLp fun i p hpi => (hiff i p hpi).mp ?_
    have hc : (List.range S.xyz.length).countP (fun i =>
        (stateOf S prm.gr prm.args i).get .security_radius_reached) = (List.range S.xyz.length).length := by
      rw [List.length_range]; omega
    have hi := (List.getElem?_eq_some_iff.mp hpi).1
    exact List.countP_eq_length.mp hc i (List.mem_range.mpr (by omega))
  · have hc : (List.range S.xyz.length).countP (fun i =>
        (stateOf S prm.gr prm.args i).get .security_radius_reached) = (List.range S.xyz.length).length := by
      rw [List.countP_eq_length]
      intro i hi
      have hi' := List.mem_range.mp hi
      have hpi : L[i]? = some L[i] := List.getElem?_eq_getElem (by omega)
      exact (hiff i _ hpi).mpr (he.perm hLp.symm i _ hpi)
    rw [List.length_range] at hc
    omega

variable {X : List (Pt ℚ)}

/-- the same for coordinates that are rounded when they are stored -/
theorem in_enough_local (h : FloatSizes hw prm) (hX : InputOK X) (hk : prm.k < X.length) (hr : prm.useRecompute = false)
    (hp : prm.k + 6 ≤ prm.pm) (ht : 2 * prm.k + 8 ≤ prm.tm) :
    ∃ (out : TessOut F) (L : List (Pt ℚ)), tesellateCpu 4 hw prm (X.map (storeS : Pt ℚ → Pt F)) = .ok out ∧
      out.xyz = L.map storeS ∧ L.Perm X ∧
      (∀ i p, L[i]? = some p → Clear F (2 * om F) prm.k.toNat L i p → Enough prm.k.toNat L i p →
        ∃ row, RowIs out.dnn i row ∧ CorrectRow L i p row ∧ ExactRow L i p row) ∧
      (AllClear F (2 * om F) prm.k.toNat X → (out.report.srNotReached = 0 ↔ AllEnough prm.k.toNat X) ∧
        out.report.infBoundary = 0 ∧ out.report.pOverflow = 0 ∧ out.report.tOverflow = 0) := by
  obtain ⟨out, R, L, h1, h2, -, h3, h4, h5⟩ := stored_enough_local (F := F) fac_input (storedS_ptAp fine) h
    (storeS_safe h.gr.1 h.gr.2 hX) (storedS_all _ hX) (input_box hX) hk hr hp ht
  exact ⟨out, L, by rw [storeS_eq hX]; exact h1, by rw [h2, storedS_eq h3], h4, h5⟩

theorem in_enough_gpu {ndsize : Int} (h : FloatSizes hw prm) (hX : InputOK X) (hk : prm.k < X.length)
    (hr : prm.useRecompute = false) (hp : prm.k + 6 ≤ prm.pm) (ht : 2 * prm.k + 8 ≤ prm.tm)
    (hgr : prm.gr ≤ 255) (htm : prm.tm ≤ 254) (hu : Unchunked prm X.length)
    {out : TessOut F} (ho : TesellateGpu 4 hw ndsize true prm (X.map storeS) out) :
    ∃ L : List (Pt ℚ), out.xyz = L.map storeS ∧ L.Perm X ∧
      ∀ i p, L[i]? = some p → Clear F (2 * om F) prm.k.toNat L i p → Enough prm.k.toNat L i p →
        ∃ row, RowIs out.dnn i row ∧ CorrectRow L i p row ∧ ExactRow L i p row := by
  rw [storeS_eq hX] at ho
  obtain ⟨cpu, c1, c2, c3, -⟩ := gpu_table h (storeS_safe h.gr.1 h.gr.2 hX) hgr htm
    (by rw [List.length_map]; exact hu) hr ho
  obtain ⟨out', L, h1, h2, h3, h4, -⟩ := in_enough_local (F := F) h hX hk hr hp ht
  rw [storeS_eq hX, c1] at h1; cases h1
  exact ⟨L, by rw [c2, h2], h3, by rw [c3]; exact h4⟩

end

end Votess.Sgl
