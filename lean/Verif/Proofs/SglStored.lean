import Verif.Proofs.SglAgree
import Verif.Proofs.MarginGeneral
import Verif.Props.IeeeKnn
import Verif.Props.NoInfinite
import Verif.Proofs.RowCount
/-! Whole calls in rounded arithmetic, with or without fused multiply-add. -/
namespace Votess.Sgl

variable {F : Type} [FP F (WithTop ℚ)] [Sgl F]

/-- the rational number; `0` for what is none -/
def ratOf {f : Fmt} : Fl f → ℚ
  | .fin q => q
  | _ => 0

/-- the rational coordinates -/
def ofS (p : Pt F) : Pt ℚ := ⟨ratOf (val p.x), ratOf (val p.y), ratOf (val p.z)⟩

theorem ofS_toS (p : Pt ℚ) : ofS (toS p : Pt F) = p := by
  unfold ofS toS
  simp only [val_emb]
  rfl

theorem sorted_toS {L : List (Pt ℚ)} {l : List (Pt F)} (h : l.Perm (L.map toS)) :
    ∃ L' : List (Pt ℚ), l = L'.map toS ∧ L'.Perm L := by
  refine ⟨l.map ofS, ?_, ?_⟩
  · rw [List.map_map]
    symm
    rw [List.map_eq_iff]
    intro i
    cases hl : l[i]? with
    | none => simp
    | some p =>
      obtain ⟨q, -, rfl⟩ := List.mem_map.mp (h.mem_iff.mp (List.mem_of_getElem? hl))
      simp [ofS_toS]
  · have := h.map ofS
    rw [List.map_map, show ofS ∘ (toS : Pt ℚ → Pt F) = id from funext ofS_toS, List.map_id] at this
    exact this

/-- all points are in the unit box and their cells are in the grid -/
def Safe (F : Type) [FP F (WithTop ℚ)] [Sgl F] (gr : Int) (R0 : List (Pt ℚ)) : Prop := ∀ v ∈ R0, GridF (fmt F) gr v

theorem Safe.box {gr : Int} {R0 : List (Pt ℚ)} (hs : Safe F gr R0) : ∀ v ∈ R0, InUnitBox v :=
  fun v hv => ⟨(hs v hv).x, (hs v hv).y, (hs v hv).z⟩

section
variable {hw : Nat} {prm : Params} {R0 : List (Pt ℚ)}

theorem safe_cells (h : FloatSizes hw prm) (hs : Safe F prm.gr R0) :
    ∀ p ∈ R0.map (toS : Pt ℚ → Pt F), ∃ c, cellId prm.gr p = .ok c ∧ 0 ≤ c ∧ c < prm.gr * prm.gr * prm.gr := by
  intro p hp
  obtain ⟨v, hv, rfl⟩ := List.mem_map.mp hp
  obtain ⟨h1, h2⟩ := h.gr
  have hin := GridF_in h1 (by omega) (hs v hv)
  refine ⟨_, cellId_toS h1 (by omega) (hs v hv), ?_⟩
  have hb := cellOf_range hin
  have e : cellOf prm.gr (gcoordF (fmt F) prm.gr v.x, gcoordF (fmt F) prm.gr v.y, gcoordF (fmt F) prm.gr v.z)
      = gcoordF (fmt F) prm.gr v.x + gcoordF (fmt F) prm.gr v.y * prm.gr + gcoordF (fmt F) prm.gr v.z * prm.gr * prm.gr := by
    unfold cellOf; simp only; ring
  rw [e] at hb
  exact hb

theorem safe_job (h : FloatSizes hw prm) (hs : Safe F prm.gr R0) :
    JobOK 4 hw prm (R0.map (toS : Pt ℚ → Pt F)) := by
  have hc := safe_cells h hs
  obtain ⟨⟨g1, g2⟩, ⟨k1, k2⟩, ⟨p1, p2⟩, ⟨t1, t2⟩, th⟩ := h
  refine ⟨g1, ?_, k1, k2, p1, p2, t1, t2, th⟩
  intro p hp c e
  obtain ⟨c', e', c1, c2⟩ := hc p hp
  rw [e] at e'; cases e'
  refine ⟨c1, c2, lt_of_lt_of_le c2 ?_⟩
  calc prm.gr * prm.gr * prm.gr ≤ 1290 * 1290 * 1290 := by
        have a : prm.gr * prm.gr ≤ 1290 * 1290 := by nlinarith
        nlinarith
    _ ≤ 256 ^ 4 := by norm_num

theorem safe_call [Inhabited F] (h : FloatSizes hw prm) (hs : Safe F prm.gr R0) (hr : prm.useRecompute = false) :
    ∃ S out, xyzSort 4 prm.gr (R0.map (toS : Pt ℚ → Pt F)) = .ok S ∧ S.xyz.Perm (R0.map toS) ∧
      tesellateCpu 4 hw prm (R0.map (toS : Pt ℚ → Pt F)) = .ok out ∧ out.xyz = S.xyz ∧
      ∀ i, i < (R0.map (toS : Pt ℚ → Pt F)).length → RowIs out.dnn i (rowOf S prm.gr prm.args i) := by
  have hc := safe_cells (F := F) h hs
  obtain ⟨S, hS⟩ := (C05_sort_safe_iff 4 prm.gr (R0.map (toS : Pt ℚ → Pt F)) h.gr.1).mpr (fun p hp => by
    obtain ⟨c, a, b, d⟩ := hc p hp; exact ⟨c, a, by omega, d⟩)
  have hp := C01_sort_permutes 4 prm.gr _ S hS
  obtain ⟨out, o1, o2, -, o4⟩ := C32_rows (safe_job h hs) hS hr
  exact ⟨S, out, hS, hp, o1, o2, fun i hi => o4 i (by rw [hp.length_eq]; exact hi)⟩

theorem safe_pts {gr : Int} (hs : Safe F gr R0) :
    ∀ p ∈ R0.map (toS : Pt ℚ → Pt F), ∃ v, p = toS v ∧ GridF (fmt F) gr v := by
  intro p hp
  obtain ⟨v, hv, rfl⟩ := List.mem_map.mp hp
  exact ⟨v, rfl, hs v hv⟩

theorem safe_knn [Inhabited F] {gr : Int} (h1 : 1 ≤ gr) (h2 : gr ≤ 1290)
    (hs : Safe F gr R0) {S : Sorted F} (hS : xyzSort 4 gr (R0.map (toS : Pt ℚ → Pt F)) = .ok S) {index : Nat} {q : Pt ℚ}
    (hq : S.xyz[index]? = some (toS q)) {k : Nat} (hk : 1 ≤ k) :
    ∃ res, knnCompute S.xyz S.id S.offset index k gr (List.replicate k ((0 : Int), (⊤ : WithTop ℚ)))
        = .ok res ∧ res.length = k ∧ res.Pairwise (fun a b => a.2 ≤ b.2) ∧
      ((res.filter fun e => decide (e.2 ≠ ⊤)).map (·.1)).Nodup ∧
      (∀ e ∈ res, e.2 ≠ ⊤ → ∃ j v, IsEntry S.xyz index q e j v) ∧
      ∀ (j : Nat) (v : Pt ℚ), S.xyz[j]? = some (toS v) → j ≠ index →
        (∀ e ∈ res, e.2 ≠ ⊤ → e.1 ≠ j) →
        ∀ e ∈ res, ∃ i w, IsEntry S.xyz index q e i w ∧
          DistLe (ga F / 2 ^ 19) (sqDist w q) (sqDist v q) := by
  have hperm := C01_sort_permutes 4 gr _ S hS
  have hgp := safe_pts (F := F) hs
  have hsz : FloatSizes 4 ⟨1, gr, 6, 8, 1, 0, false, false⟩ :=
    ⟨⟨h1, h2⟩, by simp, by simp, by simp, by simp⟩
  have hj := safe_job (F := F) hsz hs
  exact knn h1 (by omega) S.xyz S.id S.offset (fun p hp => hgp p (hperm.mem_iff.mp hp))
    (hj.grid hS) (C02_ids_right 4 gr _ S hS).2 index q hq k hk

theorem safe_no_padding [Inhabited F] {gr : Int} (h1 : 1 ≤ gr) (h2 : gr ≤ 1290)
    (hs : Safe F gr R0) {S : Sorted F} (hS : xyzSort 4 gr (R0.map (toS : Pt ℚ → Pt F)) = .ok S) {index : Nat} {q : Pt ℚ}
    (hq : S.xyz[index]? = some (toS q)) {k : Nat} (hk : 1 ≤ k) (hn : k < R0.length)
    {res : List (Int × WithTop ℚ)}
    (hres : knnCompute S.xyz S.id S.offset index k gr (List.replicate k ((0 : Int), (⊤ : WithTop ℚ)))
      = .ok res) : ∀ e ∈ res, e.2 ≠ ⊤ := by
  obtain ⟨res', e, hl, -, hnd, -, hmiss⟩ := safe_knn h1 h2 hs hS hq hk
  rw [hres] at e; cases e
  have hperm := C01_sort_permutes 4 gr _ S hS
  have hgp := safe_pts (F := F) hs
  have hlen := hperm.length_eq
  rw [List.length_map] at hlen
  have hi := (List.getElem?_eq_some_iff.mp hq).1
  intro x hx htop
  -- every other point is in the list
  have hall : ∀ j : Nat, j < S.xyz.length → j ≠ index →
      (j : Int) ∈ (res.filter fun e => decide (e.2 ≠ ⊤)).map (·.1) := by
    intro j hj hji
    by_contra hc
    obtain ⟨v, hv, -⟩ := hgp _ (hperm.mem_iff.mp (List.getElem_mem hj))
    obtain ⟨i, w, hw, -⟩ := hmiss j v (by rw [List.getElem?_eq_getElem hj, hv]) hji (by
      intro e he hfin heq
      exact hc (List.mem_map.mpr ⟨e, List.mem_filter.mpr ⟨he, by simpa using hfin⟩, heq⟩)) x hx
    obtain ⟨w1, w2, w3, w4⟩ := hw
    obtain ⟨vq, hvq, gq⟩ := hgp _ (hperm.mem_iff.mp (List.mem_of_getElem? hq))
    obtain ⟨vw, hvw, gw⟩ := hgp _ (hperm.mem_iff.mp (List.mem_of_getElem? w3))
    obtain ⟨D, hD, -⟩ := gridF_dist (F := F) gw gq
    rw [hvq, hvw] at w4
    rw [toD_eq, hD] at w4
    rw [w4] at htop
    exact WithTop.coe_ne_top htop
  have hsub : (((List.range S.xyz.length).erase index).map (fun j : Nat => (j : Int))).length
      ≤ ((res.filter fun e => decide (e.2 ≠ ⊤)).map (·.1)).length := by
    apply List.Subperm.length_le
    apply List.Nodup.subperm
    · rw [List.nodup_map_iff (fun a b h => by exact_mod_cast h)]
      exact List.nodup_range.erase _
    · intro a ha
      obtain ⟨j, hj, rfl⟩ := List.mem_map.mp ha
      rw [List.nodup_range.mem_erase_iff] at hj
      exact hall j (List.mem_range.mp hj.2) hj.1
  rw [List.length_map, List.length_map, List.length_erase_of_mem (List.mem_range.mpr hi),
    List.length_range] at hsub
  have hlt : (res.filter fun e => decide (e.2 ≠ ⊤)).length < res.length := by
    apply List.length_filter_lt_length_iff_exists.mpr
    exact ⟨x, hx, by simpa using htop⟩
  omega

end

section
variable [Inhabited F] {hw : Nat} {prm : Params} {R0 R L0 L : List (Pt ℚ)} {S : Sorted F} {μ : ℚ}

/-- the rounded computation for a point with margins ends like the exact computation -/
theorem stored_cell (hμ : Fac (om F) μ) (h : FloatSizes hw prm) (hsafe : Safe F prm.gr R0)
    (hS : xyzSort 4 prm.gr (R0.map (toS : Pt ℚ → Pt F)) = .ok S) (hR : S.xyz = R.map (toS : Pt ℚ → Pt F))
    (hst : Stored (om F) μ R L) (hbox : ∀ v ∈ L, InUnitBox v) {a : CCArgs} (ha : SizeOK a)
    {i : Nat} {p : Pt ℚ} (hp : L[i]? = some p) (hm : Clear F μ a.k L i p) (hk : a.k < R0.length) :
    ∃ res o, CellJob a L i p res o ∧ stateOf S prm.gr a i = o.s.state ∧
      (NoError o.s.state → rowOf S prm.gr a i = tmpnnRow o.knn) := by
  have hperm := C01_sort_permutes 4 prm.gr _ S hS
  obtain ⟨p', hp', hap⟩ := hst.of hp
  have hpS : S.xyz[i]? = some (toS p') := by rw [hR, List.getElem?_map, hp']; rfl
  have hi := (List.getElem?_eq_some_iff.mp hpS).1
  have hbox0 := hsafe.box
  have hbox' : ∀ v ∈ R, InUnitBox v := by
    intro v hv
    have : toS v ∈ R0.map (toS : Pt ℚ → Pt F) := hperm.mem_iff.mp (by rw [hR]; exact List.mem_map.mpr ⟨v, hv, rfl⟩)
    obtain ⟨w, hw, e⟩ := List.mem_map.mp this
    rw [← toS_inj e]; exact hbox0 w hw
  obtain ⟨res, r1, r2, r3, r4, r5, r6⟩ := safe_knn h.gr.1 h.gr.2 hsafe hS hpS ha.k1
  have hfin := safe_no_padding h.gr.1 h.gr.2 hsafe hS hpS ha.k1 (by simpa using hk) r1
  have hfilter : res.filter (fun e => decide (e.2 ≠ ⊤)) = res := by
    rw [List.filter_eq_self]; intro e he; simpa using hfin e he
  rw [hfilter] at r4
  rw [hR] at r5 r6
  have hli := (List.getElem?_eq_some_iff.mp hp).1
  have hRl : R0.length = L.length := by
    rw [← hst.length_eq, ← List.length_map (f := (toS : Pt ℚ → Pt F)) (as := R), ← hR, hperm.length_eq, List.length_map]
  obtain ⟨E, hspec, hfinE⟩ := exists_knn p hli (hRl ▸ hk)
  obtain ⟨idE, ptE, hview⟩ := knn_view hspec hfinE
  obtain ⟨id, pt, happ⟩ := knnApprox (F := F) hμ hst hbox' hbox hp hp' r2 r3 r4 (fun e he => r5 e he (hfin e he))
    (fun j v hj hji hno e he => r6 j v hj hji (fun e' he' _ => hno e' he') e he)
  obtain ⟨row, o, p'', f1, f2, -, -, f3⟩ := (ready_of_grid ((safe_job h hsafe).grid hS) ha).res hi
  have : row = res := by
    rw [dinf_eq] at f1
    have := f1.symm.trans r1
    injection this
  subst this
  have hin : CellInput a L i (List.replicate a.pm ⟨0, 0, 0, 0⟩) (List.replicate a.tm ⟨0, 0, 0⟩)
      (List.replicate a.pm 0) (E.map (·.1)) (List.replicate a.k kUndefined) := by
    refine ⟨ha.pm6, ha.pm255, ha.tm8, ha.tm, ha.k, by omega, ?_, hview.len, by simp, by simp, by simp, by simp⟩
    intro v hv
    obtain ⟨e, he, rfl⟩ := List.mem_map.mp hv
    rcases knn_entry hspec he with ⟨j, q, h1, h2, -⟩ | rfl
    · have := (List.getElem?_eq_some_iff.mp h2).1
      rw [h1]; omega
    · simp only; omega
  obtain ⟨o1, o', c1, c2, c3, c4⟩ := cell_sgl (F := F) (P := List.replicate a.pm ⟨FP.ofInt 0, FP.ofInt 0, FP.ofInt 0, FP.ofInt 0⟩)
    hμ hin (by simp) (fun v hv => List.eq_of_mem_replicate hv) hst hbox' hbox hp hm hview happ
  rw [← hR] at c1
  have : o1 = o := by
    have := c1.symm.trans f2
    injection this
  subst this
  refine ⟨_, o', ⟨hbox p (List.mem_of_getElem? hp), hp, hspec, ha.pm6, ha.pm255, ha.tm8, ha.tm, ha.k, _, _, _,
    by simp, by simp, by simp, c2⟩, ?_, fun hno => ?_⟩
  · unfold stateOf; rw [f3]; exact c4
  · unfold rowOf tmpnnRow; rw [f3]; simp only; rw [c3 hno]

/-- a point with margins never gets the flag for an infinite boundary, also with rounding. -/
theorem stored_no_infinite (hμ : Fac (om F) μ) (h : FloatSizes hw prm) (hsafe : Safe F prm.gr R0)
    (hS : xyzSort 4 prm.gr (R0.map (toS : Pt ℚ → Pt F)) = .ok S) (hR : S.xyz = R.map (toS : Pt ℚ → Pt F))
    (hst : Stored (om F) μ R L) (hbox : ∀ v ∈ L, InUnitBox v) {a : CCArgs} (ha : SizeOK a)
    {i : Nat} {p : Pt ℚ} (hp : L[i]? = some p) (hm : Clear F μ a.k L i p) (hk : a.k < R0.length) :
    (stateOf S prm.gr a i).get .error_infinite_boundary = false := by
  obtain ⟨res, o, h1, h3, -⟩ := stored_cell hμ h hsafe hS hR hst hbox ha hp hm hk
  obtain ⟨P, T, dR, e1, e2, e3, e4⟩ := h1.run
  rw [h3]
  refine C27_no_infinite_boundary (h1.input e1 e2 e3) ?_ h1.box e4
  rw [rdI_eq_ok]
  exact ⟨by omega, by simpa using hp⟩

/-- the row of a point with margins whose cell ended well is correct and exact: it lists exactly
the points whose Voronoi cells touch this one.  The other points need no margins. -/
theorem stored_row (hμ : Fac (om F) μ) (h : FloatSizes hw prm) (hsafe : Safe F prm.gr R0)
    (hS : xyzSort 4 prm.gr (R0.map (toS : Pt ℚ → Pt F)) = .ok S) (hR : S.xyz = R.map (toS : Pt ℚ → Pt F))
    (hst : Stored (om F) μ R L) (hbox : ∀ v ∈ L, InUnitBox v) {a : CCArgs} (ha : SizeOK a)
    {i : Nat} {p : Pt ℚ} (hp : L[i]? = some p) (hm : Clear F μ a.k L i p) (hk : a.k < R0.length)
    (hok : NoError (stateOf S prm.gr a i))
    (hc : (stateOf S prm.gr a i).get .security_radius_reached = true ∨ L.length - 1 ≤ a.k) :
    CorrectRow L i p (rowOf S prm.gr a i) ∧ ExactRow L i p (rowOf S prm.gr a i) := by
  obtain ⟨res, o, h1, h3, h2⟩ := stored_cell hμ h hsafe hS hR hst hbox ha hp hm hk
  have hcomp : Complete a L o := by
    rw [h3] at hok hc; exact ⟨hok, hc⟩
  rw [h2 hcomp.1]
  exact ⟨⟨C24_complete_cell h1 hcomp, C25_returned_touch h1 hcomp, row_nodup h1 hcomp.1,
    fun w hw x hx => C25_missing_irrelevant h1 hcomp w hw x hx⟩,
    C26_exact_neighbours h1 hcomp (MarginsBy.general hμ.mpos hbox hp hm.1)⟩

/-! ### whole calls -/

theorem stateOf_noError (h : JobOK 4 hw prm (R0.map (toS : Pt ℚ → Pt F))) (hS : xyzSort 4 prm.gr (R0.map (toS : Pt ℚ → Pt F)) = .ok S)
    {a : CCArgs} (ha : SizeOK a) {i : Nat} (hi : i < S.xyz.length)
    (hr : (stateOf S prm.gr a i).get .security_radius_reached = true) : NoError (stateOf S prm.gr a i) := by
  obtain ⟨row, o, p', f1, f2, -, f4, f3⟩ := (ready_of_grid (h.grid hS) ha).res hi
  unfold stateOf at hr ⊢
  rw [f3] at hr ⊢
  rcases f4.res with ⟨hf, -⟩ | ⟨-, -, hf, -⟩
  · rcases hf with h' | h' | h' <;> · rw [h'] at hr; simp at hr
  · rcases hf with h' | h'
    · exact ⟨h' _, h' _, h' _⟩
    · exact ⟨h' _, h' _, h' _⟩

/-- a call with fewer candidates than points: if the report says that every cell reached its security
radius, or all other points were candidates and no buffer overflowed, then the row of every point with
margins lists exactly the points whose Voronoi cells touch that of the point.  Whether the other points
have margins does not matter. -/
theorem stored_tessellation_local {r : Pt ℚ → Pt ℚ → Prop} (hμ : Fac (om F) μ) (hr0 : ∀ a b, r a b → PtAp (om F) μ a b)
    (h : FloatSizes hw prm) (hsafe : Safe F prm.gr R0)
    (hst0 : List.Forall₂ r R0 L0) (hbox0 : ∀ v ∈ L0, InUnitBox v) (hk : prm.k < L0.length) (hr : prm.useRecompute = false) :
    ∃ (out : TessOut F) (R L : List (Pt ℚ)), tesellateCpu 4 hw prm (R0.map (toS : Pt ℚ → Pt F)) = .ok out ∧
      out.xyz = R.map (toS : Pt ℚ → Pt F) ∧ R.Perm R0 ∧ List.Forall₂ r R L ∧ L.Perm L0 ∧
      (AllClear F μ prm.k.toNat L0 → out.report.infBoundary = 0) ∧
      ((out.report.srNotReached = 0 ∨ ((L0.length : Int) - 1 ≤ prm.k ∧
          out.report.pOverflow = 0 ∧ out.report.tOverflow = 0)) →
        ∀ i p, L[i]? = some p → Clear F μ prm.k.toNat L i p → ∃ row, RowIs out.dnn i row ∧ CorrectRow L i p row ∧
          ExactRow L i p row) := by
  have hj := safe_job (F := F) h hsafe
  obtain ⟨S, out, hS, hperm, o1, o2, o3⟩ := safe_call (F := F) h hsafe hr
  obtain ⟨R, hR, hRp⟩ := sorted_toS hperm
  obtain ⟨L, hLp, hrr⟩ := forall2_perm hRp hst0
  have hst : Stored (om F) μ R L := hrr.imp hr0
  have hbox : ∀ v ∈ L, InUnitBox v := fun v hv => hbox0 v (hLp.mem_iff.mp hv)
  have hlen := hLp.length_eq
  have hlR : R.length = L.length := hst.length_eq
  have hlR0 := hst0.length_eq
  have hSl : S.xyz.length = L.length := by rw [hR, List.length_map, hlR]
  have hka : prm.args.k < R0.length := by simp only [Params.args]; have := h.k; omega
  obtain ⟨out', e1, e2⟩ := C39_counters hj hS hr
  rw [o1] at e1; cases e1
  obtain ⟨c1, c2, -, -, c3, c4, -⟩ := e2
  simp only at c1 c2 c3 c4
  have hinf : ∀ i p, L[i]? = some p → Clear F μ prm.k.toNat L i p →
      (stateOf S prm.gr prm.args i).get .error_infinite_boundary = false := fun i p hp hc =>
    stored_no_infinite hμ h hsafe hS hR hst hbox hj.size hp hc hka
  refine ⟨out, R, L, o1, by rw [o2, hR], hRp, hrr, hLp, ?_, ?_⟩
  · intro hm
    rw [c2, List.countP_eq_zero]
    intro i hi
    have hiL : i < L.length := by have := List.mem_range.mp hi; omega
    have hp := List.getElem?_eq_getElem hiL
    rw [hinf i _ hp (hm.perm hLp.symm i _ hp)]
    decide
  intro hw' i p hp hcl
  have hi := (List.getElem?_eq_some_iff.mp hp).1
  have hiS : i < S.xyz.length := by omega
  refine ⟨_, o3 i (by rw [List.length_map]; omega), ?_⟩
  rcases hw' with hw' | ⟨w1, w3, w4⟩
  · have hsr : (stateOf S prm.gr prm.args i).get .security_radius_reached = true := by
      have hc : (List.range S.xyz.length).countP (fun i =>
          (stateOf S prm.gr prm.args i).get .security_radius_reached)
            = (List.range S.xyz.length).length := by
        rw [List.length_range]; omega
      exact List.countP_eq_length.mp hc i (List.mem_range.mpr hiS)
    exact stored_row hμ h hsafe hS hR hst hbox hj.size hp hcl hka (stateOf_noError hj hS hj.size hiS hsr) (Or.inl hsr)
  · rw [c3] at w3; rw [c4] at w4
    exact stored_row hμ h hsafe hS hR hst hbox hj.size hp hcl hka
      ⟨countP_zero_range w3 hiS, countP_zero_range w4 hiS, hinf i p hp hcl⟩
      (Or.inr (by simp only [Params.args]; omega))

/-- a call for points with margins -/
theorem stored_tessellation {r : Pt ℚ → Pt ℚ → Prop} (hμ : Fac (om F) μ) (hr0 : ∀ a b, r a b → PtAp (om F) μ a b)
    (h : FloatSizes hw prm) (hsafe : Safe F prm.gr R0)
    (hst0 : List.Forall₂ r R0 L0) (hbox0 : ∀ v ∈ L0, InUnitBox v) (hm : AllClear F μ prm.k.toNat L0) (hk : prm.k < L0.length) (hr : prm.useRecompute = false) :
    ∃ (out : TessOut F) (R L : List (Pt ℚ)), tesellateCpu 4 hw prm (R0.map (toS : Pt ℚ → Pt F)) = .ok out ∧
      out.xyz = R.map (toS : Pt ℚ → Pt F) ∧ R.Perm R0 ∧ List.Forall₂ r R L ∧ L.Perm L0 ∧
      out.report.infBoundary = 0 ∧
      ((out.report.srNotReached = 0 ∨ ((L0.length : Int) - 1 ≤ prm.k ∧
          out.report.pOverflow = 0 ∧ out.report.tOverflow = 0)) →
        ∀ i p, L[i]? = some p → ∃ row, RowIs out.dnn i row ∧ CorrectRow L i p row ∧
          ExactRow L i p row) := by
  obtain ⟨out, R, L, h1, h2, h3, h4, h5, h6, h7⟩ := stored_tessellation_local (F := F) hμ hr0 h hsafe hst0 hbox0 hk hr
  exact ⟨out, R, L, h1, h2, h3, h4, h5, h6 hm, fun hc i p hp => h7 hc i p hp (hm.perm h5.symm i p hp)⟩

/-- enough room: no buffer overflows, with or without margins -/
theorem stored_fits (h : FloatSizes hw prm) (hsafe : Safe F prm.gr R0)
    (hS : xyzSort 4 prm.gr (R0.map (toS : Pt ℚ → Pt F)) = .ok S) {a : CCArgs} (ha : SizeOK a) {i : Nat}
    (hi : i < S.xyz.length) (hpm : a.k + 6 ≤ a.pm) (ht : 2 * a.k + 8 ≤ a.tm) :
    (stateOf S prm.gr a i).get .error_p_overflow = false ∧ (stateOf S prm.gr a i).get .error_t_overflow = false := by
  have hg := (safe_job h hsafe).grid hS
  refine ⟨no_plane_overflow hg ha hpm hi, ?_⟩
  cases hh : (stateOf S prm.gr a i).get .error_t_overflow with
  | false => rfl
  | true => have := (ready_of_grid hg ha).tover hi hh; have := ha.pm6; omega

theorem stored_room (hμ : Fac (om F) μ) (h : FloatSizes hw prm) (hsafe : Safe F prm.gr R0)
    (hS : xyzSort 4 prm.gr (R0.map (toS : Pt ℚ → Pt F)) = .ok S) (hR : S.xyz = R.map (toS : Pt ℚ → Pt F))
    (hst : Stored (om F) μ R L) (hbox : ∀ v ∈ L, InUnitBox v) {a : CCArgs} (ha : SizeOK a)
    {i : Nat} {p : Pt ℚ} (hp : L[i]? = some p) (hm : Clear F μ a.k L i p) (hk : a.k < R0.length)
    (hpm : a.k + 6 ≤ a.pm) (ht : 2 * a.k + 8 ≤ a.tm) : NoError (stateOf S prm.gr a i) := by
  have hi : i < S.xyz.length := by
    rw [hR, List.length_map, hst.length_eq]; exact (List.getElem?_eq_some_iff.mp hp).1
  obtain ⟨h1, h2⟩ := stored_fits h hsafe hS ha hi hpm ht
  exact ⟨h1, h2, stored_no_infinite hμ h hsafe hS hR hst hbox ha hp hm hk⟩

/-- all other points as candidates and room for their planes and vertices: then a call
returns the exact rows of the points with margins.  There is no condition on what happens
during the run, nor on the other points. -/
theorem stored_enough_room_local {r : Pt ℚ → Pt ℚ → Prop} (hμ : Fac (om F) μ) (hr0 : ∀ a b, r a b → PtAp (om F) μ a b)
    (h : FloatSizes hw prm) (hsafe : Safe F prm.gr R0)
    (hst0 : List.Forall₂ r R0 L0) (hbox0 : ∀ v ∈ L0, InUnitBox v) (hk : prm.k = (L0.length : Int) - 1) (hr : prm.useRecompute = false)
    (hp : prm.k + 6 ≤ prm.pm) (ht : 2 * prm.k + 8 ≤ prm.tm) :
    ∃ (out : TessOut F) (R L : List (Pt ℚ)), tesellateCpu 4 hw prm (R0.map (toS : Pt ℚ → Pt F)) = .ok out ∧
      out.xyz = R.map (toS : Pt ℚ → Pt F) ∧ R.Perm R0 ∧ List.Forall₂ r R L ∧ L.Perm L0 ∧
      ∀ i p, L[i]? = some p → MarginsBy μ L i p → ∃ row, RowIs out.dnn i row ∧ CorrectRow L i p row ∧ ExactRow L i p row := by
  have hj := safe_job (F := F) h hsafe
  obtain ⟨S, out, hS, hperm, o1, o2, o3⟩ := safe_call (F := F) h hsafe hr
  obtain ⟨R, hR, hRp⟩ := sorted_toS hperm
  obtain ⟨L, hLp, hrr⟩ := forall2_perm hRp hst0
  have hst : Stored (om F) μ R L := hrr.imp hr0
  have hbox : ∀ v ∈ L, InUnitBox v := fun v hv => hbox0 v (hLp.mem_iff.mp hv)
  have hlen := hLp.length_eq
  have hlR : R.length = L.length := hst.length_eq
  have hlR0 := hst0.length_eq
  have h1 := h.k; have h2 := h.pm
  have hka : prm.args.k < R0.length := by simp only [Params.args]; omega
  refine ⟨out, R, L, o1, by rw [o2, hR], hRp, hrr, hLp, fun i p hpi hm => ?_⟩
  have hmL : Clear F μ prm.args.k L i p := ⟨hm, CutBy.of_all (by simp only [Params.args]; omega)⟩
  have hi := (List.getElem?_eq_some_iff.mp hpi).1
  exact ⟨_, o3 i (by rw [List.length_map]; omega), stored_row hμ h hsafe hS hR hst hbox hj.size hpi hmL hka
    (stored_room hμ h hsafe hS hR hst hbox hj.size hpi hmL hka (by simp only [Params.args]; omega)
      (by simp only [Params.args]; omega)) (Or.inr (by simp only [Params.args]; omega))⟩

theorem stored_enough_room {r : Pt ℚ → Pt ℚ → Prop} (hμ : Fac (om F) μ) (hr0 : ∀ a b, r a b → PtAp (om F) μ a b)
    (h : FloatSizes hw prm) (hsafe : Safe F prm.gr R0)
    (hst0 : List.Forall₂ r R0 L0) (hbox0 : ∀ v ∈ L0, InUnitBox v) (hm : AllMarginsBy μ L0) (hk : prm.k = (L0.length : Int) - 1) (hr : prm.useRecompute = false)
    (hp : prm.k + 6 ≤ prm.pm) (ht : 2 * prm.k + 8 ≤ prm.tm) :
    ∃ (out : TessOut F) (R L : List (Pt ℚ)), tesellateCpu 4 hw prm (R0.map (toS : Pt ℚ → Pt F)) = .ok out ∧
      out.xyz = R.map (toS : Pt ℚ → Pt F) ∧ R.Perm R0 ∧ List.Forall₂ r R L ∧ L.Perm L0 ∧
      ∀ i p, L[i]? = some p → ∃ row, RowIs out.dnn i row ∧ CorrectRow L i p row ∧ ExactRow L i p row := by
  obtain ⟨out, R, L, h1, h2, h3, h4, h5, h6⟩ := stored_enough_room_local (F := F) hμ hr0 h hsafe hst0 hbox0 hk hr hp ht
  exact ⟨out, R, L, h1, h2, h3, h4, h5, fun i p hpi => h6 i p hpi (hm.perm h5.symm i p hpi)⟩

/-- with recompute any number of candidates below the number of points will do for the
points with margins. -/
theorem stored_recompute_local {r : Pt ℚ → Pt ℚ → Prop} (hμ : Fac (om F) μ) (hr0 : ∀ a b, r a b → PtAp (om F) μ a b)
    (h : FloatSizes hw prm) (hsafe : Safe F prm.gr R0)
    (hst0 : List.Forall₂ r R0 L0) (hbox0 : ∀ v ∈ L0, InUnitBox v) (hk : prm.k < L0.length) (hr : prm.useRecompute = true)
    (hp : (L0.length : Int) + 5 ≤ prm.pm) (ht : 2 * (L0.length : Int) + 6 ≤ prm.tm) :
    ∃ (out : TessOut F) (R L : List (Pt ℚ)), tesellateCpu 4 hw prm (R0.map (toS : Pt ℚ → Pt F)) = .ok out ∧
      out.xyz = R.map (toS : Pt ℚ → Pt F) ∧ R.Perm R0 ∧ List.Forall₂ r R L ∧ L.Perm L0 ∧
      (∀ i p, L[i]? = some p → (∀ k, 1 ≤ k → Clear F μ k L i p) → ∃ row, RowIs out.dnn i row ∧ CorrectRow L i p row ∧ ExactRow L i p row) ∧
      Tabled out := by
  have hj := safe_job (F := F) h hsafe
  obtain ⟨S, hS⟩ : ∃ S, xyzSort 4 prm.gr (R0.map (toS : Pt ℚ → Pt F)) = .ok S :=
    (C05_sort_safe_iff 4 prm.gr _ h.gr.1).mpr (fun p hp => by
      obtain ⟨c, a, b, d⟩ := safe_cells h hsafe p hp; exact ⟨c, a, by omega, d⟩)
  have hperm := C01_sort_permutes 4 prm.gr _ S hS
  obtain ⟨R, hR, hRp⟩ := sorted_toS hperm
  obtain ⟨L, hLp, hrr⟩ := forall2_perm hRp hst0
  have hst : Stored (om F) μ R L := hrr.imp hr0
  have hbox : ∀ v ∈ L, InUnitBox v := fun v hv => hbox0 v (hLp.mem_iff.mp hv)
  have hlen := hLp.length_eq
  have hlR : R.length = L.length := hst.length_eq
  have hlR0 := hst0.length_eq
  have hSl : S.xyz.length = L.length := by rw [hR, List.length_map, hlR]
  have h1 := h.k; have h2 := h.pm
  have e : prm.args.k = prm.k.toNat ∧ prm.args.pm = prm.pm.toNat ∧ prm.args.tm = prm.tm.toNat :=
    ⟨rfl, rfl, rfl⟩
  obtain ⟨ek, ep, et⟩ := e
  have hn : 2 ≤ S.xyz.length := by omega
  have hno : ∀ b, SizeOK b → b.k ≤ max prm.args.k (S.xyz.length - 1) ∧ b.pm = prm.args.pm ∧
      b.tm = prm.args.tm → ∀ i, i < S.xyz.length →
        (stateOf S prm.gr b i).get .error_p_overflow = false ∧ (stateOf S prm.gr b i).get .error_t_overflow = false := by
    rintro b hb ⟨q1, q2, q3⟩ i hi
    exact stored_fits h hsafe hS hb hi (by omega) (by omega)
  obtain ⟨t', s', r1, r2, r3, r4⟩ := cpuRecompute_gen hj.ccArgs hj.size (hj.grid hS) hn
    (fun b r ixs hi => hi.keep hn (by omega) hno)
    (⟨Nat.le_max_left _ _, rfl, rfl⟩ : prm.args.k ≤ max prm.args.k (S.xyz.length - 1) ∧
      prm.args.pm = prm.args.pm ∧ prm.args.tm = prm.args.tm)
  have r1' := r1 hw prm.nthreads hj.nth
  have hns : NoSentinel t' := by
    intro r hr v hv
    obtain ⟨i, hi, rfl⟩ := List.getElem_of_mem hr
    obtain ⟨a, -, -, e, -⟩ := r4 i (by omega)
    rw [List.getElem?_eq_getElem hi] at e
    injection e with e
    rw [e] at hv
    exact rowOf_noSentinel S prm.gr a i v hv
  have hshort : ∀ i a, i < S.xyz.length → SizeOK a → (rowOf S prm.gr a i).length < 2 ^ 64 := by
    intro i a hi g1
    have := (ready_of_grid (hj.grid hS) g1).row_length hi
    have := g1.k
    omega
  refine ⟨_, R, L, hj.recomputed hS hr r1', hR, hRp, hrr, hLp, ?_, t', rfl, r3, hns, ?_⟩
  on_goal 2 =>
    intro r hr
    obtain ⟨i, hi, rfl⟩ := List.getElem_of_mem hr
    obtain ⟨a, g1, -, e, -⟩ := r4 i (by omega)
    rw [List.getElem?_eq_getElem hi] at e
    injection e with e
    rw [e]
    exact hshort i a (by omega) g1
  simp only [mkOut]
  intro i p hpi hcl
  have hi := (List.getElem?_eq_some_iff.mp hpi).1
  have hiS : i < S.xyz.length := by omega
  obtain ⟨a, g1, g0, g2, g3⟩ := r4 i hiS
  exact ⟨_, rowIs_getDnn hns g2 (hshort i a hiS g1), stored_row hμ h hsafe hS hR hst hbox g1 hpi (hcl a.k g1.k1) (by omega)
    ⟨(hno a g1 g0 i hiS).1, (hno a g1 g0 i hiS).2, stored_no_infinite hμ h hsafe hS hR hst hbox g1 hpi (hcl a.k g1.k1) (by omega)⟩ (by rw [← hSl]; exact g3)⟩

theorem stored_recompute_tabled {r : Pt ℚ → Pt ℚ → Prop} (hμ : Fac (om F) μ) (hr0 : ∀ a b, r a b → PtAp (om F) μ a b)
    (h : FloatSizes hw prm) (hsafe : Safe F prm.gr R0)
    (hst0 : List.Forall₂ r R0 L0) (hbox0 : ∀ v ∈ L0, InUnitBox v) (hm : ∀ k, 1 ≤ k → AllClear F μ k L0) (hk : prm.k < L0.length) (hr : prm.useRecompute = true)
    (hp : (L0.length : Int) + 5 ≤ prm.pm) (ht : 2 * (L0.length : Int) + 6 ≤ prm.tm) :
    ∃ (out : TessOut F) (R L : List (Pt ℚ)), tesellateCpu 4 hw prm (R0.map (toS : Pt ℚ → Pt F)) = .ok out ∧
      out.xyz = R.map (toS : Pt ℚ → Pt F) ∧ R.Perm R0 ∧ List.Forall₂ r R L ∧ L.Perm L0 ∧
      (∀ i p, L[i]? = some p → ∃ row, RowIs out.dnn i row ∧ CorrectRow L i p row ∧ ExactRow L i p row) ∧
      Tabled out := by
  obtain ⟨out, R, L, h1, h2, h3, h4, h5, h6, h7⟩ := stored_recompute_local (F := F) hμ hr0 h hsafe hst0 hbox0 hk hr hp ht
  exact ⟨out, R, L, h1, h2, h3, h4, h5, fun i p hpi => h6 i p hpi fun k hk => (hm k hk).perm h5.symm i p hpi, h7⟩

theorem stored_recompute {r : Pt ℚ → Pt ℚ → Prop} (hμ : Fac (om F) μ) (hr0 : ∀ a b, r a b → PtAp (om F) μ a b)
    (h : FloatSizes hw prm) (hsafe : Safe F prm.gr R0)
    (hst0 : List.Forall₂ r R0 L0) (hbox0 : ∀ v ∈ L0, InUnitBox v) (hm : ∀ k, 1 ≤ k → AllClear F μ k L0) (hk : prm.k < L0.length) (hr : prm.useRecompute = true)
    (hp : (L0.length : Int) + 5 ≤ prm.pm) (ht : 2 * (L0.length : Int) + 6 ≤ prm.tm) :
    ∃ (out : TessOut F) (R L : List (Pt ℚ)), tesellateCpu 4 hw prm (R0.map (toS : Pt ℚ → Pt F)) = .ok out ∧
      out.xyz = R.map (toS : Pt ℚ → Pt F) ∧ R.Perm R0 ∧ List.Forall₂ r R L ∧ L.Perm L0 ∧
      ∀ i p, L[i]? = some p → ∃ row, RowIs out.dnn i row ∧ CorrectRow L i p row ∧ ExactRow L i p row := by
  obtain ⟨out, R, L, h1, h2, h3, h4, h5, h6, -⟩ := stored_recompute_tabled (F := F) hμ hr0 h hsafe hst0 hbox0 hm hk hr hp ht
  exact ⟨out, R, L, h1, h2, h3, h4, h5, h6⟩

end

end Votess.Sgl
