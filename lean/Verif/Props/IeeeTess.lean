import Verif.Proofs.IeeeStored
/-!
# C67 — whole calls of `tesellate` in single precision

The theorems on the rows returned are about exact arithmetic; the program computes with `float`.  For
points that are not nearly degenerate (`Margins`) the rounding makes no difference: the rows are those
of the true Voronoi cells of the given points.
-/
namespace Votess

section
variable {hw : Nat} {prm : Params} {L0 L : List (Pt ℚ)} {S : Sorted F32}

theorem sorted_box (hsafe : SafePoints prm.gr (L0.map toF32)) (hS : xyzSort 4 prm.gr (L0.map toF32) = .ok S)
    (hL : S.xyz = L.map toF32) : ∀ v ∈ L, InUnitBox v := by
  intro v hv
  have hperm := C01_sort_permutes 4 prm.gr _ S hS
  have : toF32 v ∈ L0.map toF32 := hperm.mem_iff.mp (by rw [hL]; exact List.mem_map.mpr ⟨v, hv, rfl⟩)
  obtain ⟨w, hw, e⟩ := List.mem_map.mp this
  rw [← toF32_inj e]; exact safe_box hsafe w hw

/-- C67: a point with margins never gets the flag for an infinite boundary, also with rounding. -/
theorem C67_no_infinite (h : FloatSizes hw prm) (hsafe : SafePoints prm.gr (L0.map toF32))
    (hS : xyzSort 4 prm.gr (L0.map toF32) = .ok S) (hL : S.xyz = L.map toF32) {a : CCArgs} (ha : SizeOK a)
    {i : Nat} {p : Pt ℚ} (hp : L[i]? = some p) (hm : Margins L i p) (hk : a.k < L0.length) :
    (stateOf S prm.gr a i).get .error_infinite_boundary = false :=
  stored_no_infinite fac_one h hsafe hS hL (Stored.refl L) (sorted_box hsafe hS hL) ha hp hm hk

/-- C67: the row of a point with margins whose cell ended well is correct and exact: it lists exactly
the points whose Voronoi cells touch this one.  The other points need no margins. -/
theorem C67_row (h : FloatSizes hw prm) (hsafe : SafePoints prm.gr (L0.map toF32))
    (hS : xyzSort 4 prm.gr (L0.map toF32) = .ok S) (hL : S.xyz = L.map toF32) {a : CCArgs} (ha : SizeOK a)
    {i : Nat} {p : Pt ℚ} (hp : L[i]? = some p) (hm : Margins L i p) (hk : a.k < L0.length)
    (hok : NoError (stateOf S prm.gr a i))
    (hc : (stateOf S prm.gr a i).get .security_radius_reached = true ∨ L.length - 1 ≤ a.k) :
    CorrectRow L i p (rowOf S prm.gr a i) ∧ ExactRow L i p (rowOf S prm.gr a i) :=
  stored_row fac_one h hsafe hS hL (Stored.refl L) (sorted_box hsafe hS hL) ha hp hm hk hok hc

/-! ### whole calls -/

theorem ptAp_of_eq : ∀ a b : Pt ℚ, a = b → PtAp 1 a b := fun a _ h => h ▸ PtAp.refl a

theorem forall2_eq (L : List (Pt ℚ)) : List.Forall₂ Eq L L := List.forall₂_same.mpr fun _ _ => rfl

/-- C67: a call in single precision for points with margins and fewer candidates than points: if the
report says that every cell reached its security radius, or all other points were candidates and no
buffer overflowed, then every row lists exactly the points whose Voronoi cells touch that of the point
it belongs to. -/
theorem C67_tessellation (h : FloatSizes hw prm) (hsafe : SafePoints prm.gr (L0.map toF32))
    (hm : AllMargins L0) (hk : prm.k < L0.length) (hr : prm.useRecompute = false) :
    ∃ (out : TessOut F32) (L : List (Pt ℚ)), tesellateCpu 4 hw prm (L0.map toF32) = .ok out ∧ out.xyz = L.map toF32 ∧ L.Perm L0 ∧
      out.report.infBoundary = 0 ∧
      ((out.report.srNotReached = 0 ∨ ((L0.length : Int) - 1 ≤ prm.k ∧
          out.report.pOverflow = 0 ∧ out.report.tOverflow = 0)) →
        ∀ i p, L[i]? = some p → ∃ row, RowIs out.dnn i row ∧ CorrectRow L i p row ∧
          ExactRow L i p row) := by
  obtain ⟨out, R, L, h1, h2, -, h3, h4, h5⟩ := stored_tessellation fac_one ptAp_of_eq h hsafe (forall2_eq L0)
    (safe_box hsafe) hm hk hr
  rw [List.forall₂_eq_eq_eq] at h3
  subst h3
  exact ⟨out, _, h1, h2, h4, h5⟩

/-- C67: all other points as candidates and room for their planes and vertices: then a call in single
precision for points with margins returns the exact tessellation.  There is no condition on what happens
during the run. -/
theorem C67_enough_room (h : FloatSizes hw prm) (hsafe : SafePoints prm.gr (L0.map toF32))
    (hm : AllMargins L0) (hk : prm.k = (L0.length : Int) - 1) (hr : prm.useRecompute = false)
    (hp : prm.k + 6 ≤ prm.pm) (ht : 2 * prm.k + 8 ≤ prm.tm) :
    ∃ (out : TessOut F32) (L : List (Pt ℚ)), tesellateCpu 4 hw prm (L0.map toF32) = .ok out ∧ out.xyz = L.map toF32 ∧ L.Perm L0 ∧
      ∀ i p, L[i]? = some p → ∃ row, RowIs out.dnn i row ∧ CorrectRow L i p row ∧ ExactRow L i p row := by
  obtain ⟨out, R, L, h1, h2, -, h3, h4, h5⟩ := stored_enough_room fac_one ptAp_of_eq h hsafe (forall2_eq L0)
    (safe_box hsafe) hm hk hr hp ht
  rw [List.forall₂_eq_eq_eq] at h3
  subst h3
  exact ⟨out, _, h1, h2, h4, h5⟩

/-- C67: with recompute any number of candidates below the number of points will do. -/
theorem C67_recompute (h : FloatSizes hw prm) (hsafe : SafePoints prm.gr (L0.map toF32))
    (hm : AllMargins L0) (hk : prm.k < L0.length) (hr : prm.useRecompute = true)
    (hp : (L0.length : Int) + 5 ≤ prm.pm) (ht : 2 * (L0.length : Int) + 6 ≤ prm.tm) :
    ∃ (out : TessOut F32) (L : List (Pt ℚ)), tesellateCpu 4 hw prm (L0.map toF32) = .ok out ∧ out.xyz = L.map toF32 ∧ L.Perm L0 ∧
      ∀ i p, L[i]? = some p → ∃ row, RowIs out.dnn i row ∧ CorrectRow L i p row ∧ ExactRow L i p row := by
  obtain ⟨out, R, L, h1, h2, -, h3, h4, h5⟩ := stored_recompute fac_one ptAp_of_eq h hsafe (forall2_eq L0)
    (safe_box hsafe) hm hk hr hp ht
  rw [List.forall₂_eq_eq_eq] at h3
  subst h3
  exact ⟨out, _, h1, h2, h4, h5⟩

end

end Votess
