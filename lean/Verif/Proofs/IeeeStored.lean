import Verif.Proofs.SglStored
/-! Whole calls in single precision; the points stored may differ a little from the points meant. -/
namespace Votess

theorem safe_box {gr : Int} {L : List (Pt ℚ)} (h : SafePoints gr (L.map toF32)) : ∀ v ∈ L, InUnitBox v := by
  intro v hv
  have hm : toF32 v ∈ L.map toF32 := List.mem_map.mpr ⟨v, hv, rfl⟩
  rcases h with h | ⟨-, h⟩
  · obtain ⟨x, y, z, e, hx, hy, hz⟩ := h _ hm
    have e' := toF32_inj (p := v) (q := ⟨x, y, z⟩) e
    subst e'
    have hb : (1 : ℚ) - 1 / 2 ^ 23 ≤ 1 := by norm_num
    exact ⟨⟨hx.1, hx.2.trans hb⟩, ⟨hy.1, hy.2.trans hb⟩, hz.1, hz.2.trans hb⟩
  · obtain ⟨x, y, z, e, -, hx, hy, hz⟩ := h _ hm
    have e' := toF32_inj (p := v) (q := ⟨x, y, z⟩) e
    subst e'
    exact ⟨⟨hx.1, hx.2.le⟩, ⟨hy.1, hy.2.le⟩, hz.1, hz.2.le⟩

theorem safe32 {gr : Int} (h1 : 1 ≤ gr) (h2 : gr ≤ 1290) {L : List (Pt ℚ)} (h : SafePoints gr (L.map toF32)) :
    Sgl.Safe F32 gr L := by
  intro v hv
  obtain ⟨w, e, hw⟩ := safe_gridPt h1 h2 h (toF32 v) (List.mem_map.mpr ⟨v, hv, rfl⟩)
  rw [toF32_inj e]
  exact hw.gridF

theorem om32 : Sgl.om F32 = 1 := rfl

theorem ga32 : Sgl.ga F32 = Sgl.om F32 := rfl

theorem Fac.sgl {μ : ℚ} (h : Fac μ) : Sgl.Fac (Sgl.om F32) μ := by
  rw [om32]
  exact ⟨one_pos, h.one, h.four⟩

theorem PtAp.sgl {μ : ℚ} {q p : Pt ℚ} (h : PtAp μ q p) : Sgl.PtAp (Sgl.om F32) μ q p := by
  rw [om32]
  exact ⟨h.x, h.y, h.z⟩

/-- the list stored and the list meant -/
def Stored (μ : ℚ) (R L : List (Pt ℚ)) : Prop := List.Forall₂ (PtAp μ) R L

theorem Stored.refl : ∀ L : List (Pt ℚ), Stored 1 L L
  | [] => .nil
  | p :: L => .cons (PtAp.refl p) (Stored.refl L)

section
variable {hw : Nat} {prm : Params} {R0 R L0 L : List (Pt ℚ)} {S : Sorted F32} {μ : ℚ}

/-- a point with margins never gets the flag for an infinite boundary, also with rounding. -/
theorem stored_no_infinite (hμ : Fac μ) (h : FloatSizes hw prm) (hsafe : SafePoints prm.gr (R0.map toF32))
    (hS : xyzSort 4 prm.gr (R0.map toF32) = .ok S) (hR : S.xyz = R.map toF32)
    (hst : Stored μ R L) (hbox : ∀ v ∈ L, InUnitBox v) {a : CCArgs} (ha : SizeOK a)
    {i : Nat} {p : Pt ℚ} (hp : L[i]? = some p) (hm : MarginsBy μ L i p) (hk : a.k < R0.length) :
    (stateOf S prm.gr a i).get .error_infinite_boundary = false :=
  Sgl.stored_no_infinite (F := F32) hμ.sgl h (safe32 h.gr.1 h.gr.2 hsafe) hS hR (hst.imp fun _ _ => PtAp.sgl) hbox ha hp
    (.of ga32 hμ.mpos ha.k1 hp hm) hk

/-- the row of a point with margins whose cell ended well is correct and exact: it lists exactly
the points whose Voronoi cells touch this one.  The other points need no margins. -/
theorem stored_row (hμ : Fac μ) (h : FloatSizes hw prm) (hsafe : SafePoints prm.gr (R0.map toF32))
    (hS : xyzSort 4 prm.gr (R0.map toF32) = .ok S) (hR : S.xyz = R.map toF32)
    (hst : Stored μ R L) (hbox : ∀ v ∈ L, InUnitBox v) {a : CCArgs} (ha : SizeOK a)
    {i : Nat} {p : Pt ℚ} (hp : L[i]? = some p) (hm : MarginsBy μ L i p) (hk : a.k < R0.length)
    (hok : NoError (stateOf S prm.gr a i))
    (hc : (stateOf S prm.gr a i).get .security_radius_reached = true ∨ L.length - 1 ≤ a.k) :
    CorrectRow L i p (rowOf S prm.gr a i) ∧ ExactRow L i p (rowOf S prm.gr a i) :=
  Sgl.stored_row (F := F32) hμ.sgl h (safe32 h.gr.1 h.gr.2 hsafe) hS hR (hst.imp fun _ _ => PtAp.sgl) hbox ha hp
    (.of ga32 hμ.mpos ha.k1 hp hm) hk hok hc

/-- a call in single precision for points with margins and fewer candidates than points: if the
report says that every cell reached its security radius, or all other points were candidates and no
buffer overflowed, then every row lists exactly the points whose Voronoi cells touch that of the point
it belongs to. -/
theorem stored_tessellation {r : Pt ℚ → Pt ℚ → Prop} (hμ : Fac μ) (hr0 : ∀ a b, r a b → PtAp μ a b)
    (h : FloatSizes hw prm) (hsafe : SafePoints prm.gr (R0.map toF32))
    (hst0 : List.Forall₂ r R0 L0) (hbox0 : ∀ v ∈ L0, InUnitBox v) (hm : AllMarginsBy μ L0) (hk : prm.k < L0.length) (hr : prm.useRecompute = false) :
    ∃ (out : TessOut F32) (R L : List (Pt ℚ)), tesellateCpu 4 hw prm (R0.map toF32) = .ok out ∧
      out.xyz = R.map toF32 ∧ R.Perm R0 ∧ List.Forall₂ r R L ∧ L.Perm L0 ∧
      out.report.infBoundary = 0 ∧
      ((out.report.srNotReached = 0 ∨ ((L0.length : Int) - 1 ≤ prm.k ∧
          out.report.pOverflow = 0 ∧ out.report.tOverflow = 0)) →
        ∀ i p, L[i]? = some p → ∃ row, RowIs out.dnn i row ∧ CorrectRow L i p row ∧
          ExactRow L i p row) :=
  Sgl.stored_tessellation (F := F32) hμ.sgl (fun a b h => (hr0 a b h).sgl) h (safe32 h.gr.1 h.gr.2 hsafe) hst0 hbox0
    (.of ga32 hμ.mpos (by have := h.k; omega) hm) hk hr

/-- all other points as candidates and room for their planes and vertices: then a call in single
precision for points with margins returns the exact tessellation.  There is no condition on what happens
during the run. -/
theorem stored_enough_room {r : Pt ℚ → Pt ℚ → Prop} (hμ : Fac μ) (hr0 : ∀ a b, r a b → PtAp μ a b)
    (h : FloatSizes hw prm) (hsafe : SafePoints prm.gr (R0.map toF32))
    (hst0 : List.Forall₂ r R0 L0) (hbox0 : ∀ v ∈ L0, InUnitBox v) (hm : AllMarginsBy μ L0) (hk : prm.k = (L0.length : Int) - 1) (hr : prm.useRecompute = false)
    (hp : prm.k + 6 ≤ prm.pm) (ht : 2 * prm.k + 8 ≤ prm.tm) :
    ∃ (out : TessOut F32) (R L : List (Pt ℚ)), tesellateCpu 4 hw prm (R0.map toF32) = .ok out ∧
      out.xyz = R.map toF32 ∧ R.Perm R0 ∧ List.Forall₂ r R L ∧ L.Perm L0 ∧
      ∀ i p, L[i]? = some p → ∃ row, RowIs out.dnn i row ∧ CorrectRow L i p row ∧ ExactRow L i p row :=
  Sgl.stored_enough_room (F := F32) hμ.sgl (fun a b h => (hr0 a b h).sgl) h (safe32 h.gr.1 h.gr.2 hsafe) hst0 hbox0 hm hk hr
    hp ht

/-- with recompute any number of candidates below the number of points will do. -/
theorem stored_recompute_tabled {r : Pt ℚ → Pt ℚ → Prop} (hμ : Fac μ) (hr0 : ∀ a b, r a b → PtAp μ a b)
    (h : FloatSizes hw prm) (hsafe : SafePoints prm.gr (R0.map toF32))
    (hst0 : List.Forall₂ r R0 L0) (hbox0 : ∀ v ∈ L0, InUnitBox v) (hm : AllMarginsBy μ L0) (hk : prm.k < L0.length) (hr : prm.useRecompute = true)
    (hp : (L0.length : Int) + 5 ≤ prm.pm) (ht : 2 * (L0.length : Int) + 6 ≤ prm.tm) :
    ∃ (out : TessOut F32) (R L : List (Pt ℚ)), tesellateCpu 4 hw prm (R0.map toF32) = .ok out ∧
      out.xyz = R.map toF32 ∧ R.Perm R0 ∧ List.Forall₂ r R L ∧ L.Perm L0 ∧
      (∀ i p, L[i]? = some p → ∃ row, RowIs out.dnn i row ∧ CorrectRow L i p row ∧ ExactRow L i p row) ∧
      Tabled out :=
  Sgl.stored_recompute_tabled (F := F32) hμ.sgl (fun a b h => (hr0 a b h).sgl) h (safe32 h.gr.1 h.gr.2 hsafe) hst0 hbox0
    (fun _ hk => .of ga32 hμ.mpos hk hm) hk hr hp ht

theorem stored_recompute {r : Pt ℚ → Pt ℚ → Prop} (hμ : Fac μ) (hr0 : ∀ a b, r a b → PtAp μ a b)
    (h : FloatSizes hw prm) (hsafe : SafePoints prm.gr (R0.map toF32))
    (hst0 : List.Forall₂ r R0 L0) (hbox0 : ∀ v ∈ L0, InUnitBox v) (hm : AllMarginsBy μ L0) (hk : prm.k < L0.length) (hr : prm.useRecompute = true)
    (hp : (L0.length : Int) + 5 ≤ prm.pm) (ht : 2 * (L0.length : Int) + 6 ≤ prm.tm) :
    ∃ (out : TessOut F32) (R L : List (Pt ℚ)), tesellateCpu 4 hw prm (R0.map toF32) = .ok out ∧
      out.xyz = R.map toF32 ∧ R.Perm R0 ∧ List.Forall₂ r R L ∧ L.Perm L0 ∧
      ∀ i p, L[i]? = some p → ∃ row, RowIs out.dnn i row ∧ CorrectRow L i p row ∧ ExactRow L i p row :=
  Sgl.stored_recompute (F := F32) hμ.sgl (fun a b h => (hr0 a b h).sgl) h (safe32 h.gr.1 h.gr.2 hsafe) hst0 hbox0
    (fun _ hk => .of ga32 hμ.mpos hk hm) hk hr hp ht

end

end Votess
