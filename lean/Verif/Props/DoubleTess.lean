import Verif.Proofs.SglInput
import Verif.Props.IeeeFma
import Verif.Props.Double
/-!
# C77 — the tessellation of double precision coordinates

How much further than in single precision can the points approach a degenerate situation when the program is
instantiated with `double`?  The margins shrink by the factor `2^29` between the two formats.  On the CPU the
candidates that matter must nevertheless be as clearly closer than the points left out as for `float`, because the
exit test of the search compares with a `float` product (C76).  Nothing like that is needed if all other points are
candidates, or on the GPU.
-/
namespace Votess

open Sgl (toS)

/-- the point as the program stores it, rounded to `double` -/
def storeDbl (p : Pt ℚ) : Pt Dbl := ⟨.dbl (Fl.round b64 p.x), .dbl (Fl.round b64 p.y), .dbl (Fl.round b64 p.z)⟩

section
variable {hw : Nat} {prm : Params} {X : List (Pt ℚ)}

theorem dbl_two : 2 * Sgl.om Dbl = 2 / 2 ^ 29 := by
  show (2 : ℚ) * (1 / 2 ^ 29) = _
  norm_num

theorem dbl_clear {k : Nat} (hm : AllMarginsBy (2 / 2 ^ 29) X) (hs : AllCutBy (1 + 1 / 2 ^ 29) k X) :
    Sgl.AllClear Dbl (2 * Sgl.om Dbl) k X := by
  have e2 : Sgl.ga Dbl + (2 * Sgl.om Dbl - Sgl.om Dbl) = 1 + 1 / 2 ^ 29 := by
    show (1 : ℚ) + (2 * (1 / 2 ^ 29) - 1 / 2 ^ 29) = _
    norm_num
  intro i p hp
  refine ⟨?_, ?_⟩
  · rw [dbl_two]; exact hm i p hp
  · rw [e2]; exact hs i p hp

theorem dbl_clear_exact {k : Nat} (hm : AllMarginsBy (1 / 2 ^ 29) X) (hs : AllCutBy 1 k X) :
    Sgl.AllClear Dbl (Sgl.om Dbl) k X := by
  have e2 : Sgl.ga Dbl + (Sgl.om Dbl - Sgl.om Dbl) = 1 := by
    show (1 : ℚ) + (1 / 2 ^ 29 - 1 / 2 ^ 29) = _
    norm_num
  intro i p hp
  refine ⟨hm i p hp, ?_⟩
  rw [e2]; exact hs i p hp

theorem fm64_two (ch : Choice b64) : 2 * Sgl.om (Fm ch) = 2 / 2 ^ 29 := by
  show (2 : ℚ) * (1 / 2 ^ 29) = _
  norm_num

/-- C77: a call for points with margins, stored as `double`, reports no infinite boundary, and if every cell
reached its security radius, or all other points were candidates and no buffer overflowed, the rows are exactly
those of the points as given. -/
theorem C77_tessellation (h : FloatSizes hw prm) (hX : InputOK X) (hm : AllMarginsBy (2 / 2 ^ 29) X)
    (hs : AllCutBy (1 + 1 / 2 ^ 29) prm.k.toNat X) (hk : prm.k < X.length) (hr : prm.useRecompute = false) :
    ∃ (out : TessOut Dbl) (L : List (Pt ℚ)), tesellateCpu 4 hw prm (X.map storeDbl) = .ok out ∧
      out.xyz = L.map storeDbl ∧ L.Perm X ∧ out.report.infBoundary = 0 ∧
      ((out.report.srNotReached = 0 ∨ ((X.length : Int) - 1 ≤ prm.k ∧
          out.report.pOverflow = 0 ∧ out.report.tOverflow = 0)) →
        ∀ i p, L[i]? = some p → ∃ row, RowIs out.dnn i row ∧ CorrectRow L i p row ∧ ExactRow L i p row) :=
  Sgl.in_tessellation (F := Dbl) h hX (dbl_clear hm hs) hk hr

/-- C77: with all other points as candidates and room for their planes and vertices there is no condition on what
happens during the run. -/
theorem C77_enough_room (h : FloatSizes hw prm) (hX : InputOK X) (hm : AllMarginsBy (2 / 2 ^ 29) X)
    (hroom : Roomy prm X.length) :
    ∃ (out : TessOut Dbl) (L : List (Pt ℚ)), tesellateCpu 4 hw prm (X.map storeDbl) = .ok out ∧
      out.xyz = L.map storeDbl ∧ L.Perm X ∧
      ∀ i p, L[i]? = some p → ∃ row, RowIs out.dnn i row ∧ CorrectRow L i p row ∧ ExactRow L i p row :=
  Sgl.in_enough_room (F := Dbl) h hX (by rw [dbl_two]; exact hm) hroom

/-- C77: with recompute any number of candidates below the number of points will do. -/
theorem C77_recompute (h : FloatSizes hw prm) (hX : InputOK X) (hm : AllMarginsBy (2 / 2 ^ 29) X)
    (hs : ∀ k, 1 ≤ k → AllCutBy (1 + 1 / 2 ^ 29) k X) (hk : prm.k < X.length) (hr : prm.useRecompute = true)
    (hp : (X.length : Int) + 5 ≤ prm.pm) (ht : 2 * (X.length : Int) + 6 ≤ prm.tm) :
    ∃ (out : TessOut Dbl) (L : List (Pt ℚ)), tesellateCpu 4 hw prm (X.map storeDbl) = .ok out ∧
      out.xyz = L.map storeDbl ∧ L.Perm X ∧
      ∀ i p, L[i]? = some p → ∃ row, RowIs out.dnn i row ∧ CorrectRow L i p row ∧ ExactRow L i p row :=
  Sgl.in_recompute (F := Dbl) h hX (fun k hk => dbl_clear hm (hs k hk)) hk hr hp ht

/-! ### coordinates that are doubles -/

theorem safeDoubles_safe {gr : Int} (h1 : 1 ≤ gr) (h2 : gr ≤ 2 ^ 24) {L : List (Pt ℚ)} (hs : SafeDoubles gr L) :
    Sgl.Safe Dbl gr L := by
  intro p hp
  rcases hs with hs | ⟨hg, hs⟩
  · obtain ⟨hx, hy, hz⟩ := hs p hp
    have key : ∀ {x : ℚ}, 0 ≤ x ∧ x ≤ 1 - 1 / 2 ^ 23 → (0 ≤ x ∧ x ≤ 1) ∧ gcoordF b64 gr x < gr :=
      fun h => ⟨⟨h.1, h.2.trans (by norm_num)⟩, wide64.gcoord_lt h1 h2 h.1 h.2⟩
    exact ⟨(key hx).1, (key hy).1, (key hz).1, (key hx).2, (key hy).2, (key hz).2⟩
  · obtain ⟨hx, hy, hz⟩ := hs p hp
    have key : ∀ {x : ℚ}, IsFl b64 x ∧ 0 ≤ x ∧ x < 1 → (0 ≤ x ∧ x ≤ 1) ∧ gcoordF b64 gr x < gr := by
      rintro x ⟨a, b, c⟩
      obtain ⟨d, d1, -, d2⟩ := (C76_grid_iff h1 h2).mpr hg x a b c
      rw [gridCoordDbl h1 h2 b c.le] at d1
      cases d1
      exact ⟨⟨b, c.le⟩, d2⟩
    exact ⟨(key hx).1, (key hy).1, (key hz).1, (key hx).2, (key hy).2, (key hz).2⟩

theorem eq_ptAp {ω : ℚ} : ∀ a b : Pt ℚ, a = b → Sgl.PtAp ω ω a b := by
  rintro a b rfl
  have e : ∀ x : ℚ, |x - x| ≤ (ω - ω) / 2 / 2 ^ 24 := fun x => by simp
  exact ⟨e _, e _, e _⟩

/-- C77: if the coordinates are `double` values, a quarter of the margins is enough. -/
theorem C77_doubles (h : FloatSizes hw prm) (hsafe : SafeDoubles prm.gr X) (hm : AllMarginsBy (1 / 2 ^ 29) X)
    (hs : AllCutBy 1 prm.k.toNat X) (hk : prm.k < X.length) (hr : prm.useRecompute = false) :
    ∃ (out : TessOut Dbl) (L : List (Pt ℚ)), tesellateCpu 4 hw prm (X.map toDbl) = .ok out ∧
      out.xyz = L.map toDbl ∧ L.Perm X ∧ out.report.infBoundary = 0 ∧
      ((out.report.srNotReached = 0 ∨ ((X.length : Int) - 1 ≤ prm.k ∧
          out.report.pOverflow = 0 ∧ out.report.tOverflow = 0)) →
        ∀ i p, L[i]? = some p → ∃ row, RowIs out.dnn i row ∧ CorrectRow L i p row ∧ ExactRow L i p row) := by
  have hS := safeDoubles_safe h.gr.1 (by have := h.gr.2; omega) hsafe
  obtain ⟨out, R, L, h1, h2, -, h3, h4, h5⟩ := Sgl.stored_tessellation (F := Dbl) Sgl.fac_exact eq_ptAp h
    hS (List.forall₂_eq_eq_eq ▸ rfl) hS.box (dbl_clear_exact hm hs) hk hr
  rw [List.forall₂_eq_eq_eq] at h3
  subst h3
  exact ⟨out, R, h1, h2, h4, h5⟩

/-- C77: the same with room for all candidates. -/
theorem C77_doubles_room (h : FloatSizes hw prm) (hsafe : SafeDoubles prm.gr X) (hm : AllMarginsBy (1 / 2 ^ 29) X)
    (hroom : Roomy prm X.length) :
    ∃ (out : TessOut Dbl) (L : List (Pt ℚ)), tesellateCpu 4 hw prm (X.map toDbl) = .ok out ∧
      out.xyz = L.map toDbl ∧ L.Perm X ∧
      ∀ i p, L[i]? = some p → ∃ row, RowIs out.dnn i row ∧ CorrectRow L i p row ∧ ExactRow L i p row := by
  have hS := safeDoubles_safe h.gr.1 (by have := h.gr.2; omega) hsafe
  obtain ⟨out, R, L, h1, h2, -, h3, h4, h5⟩ := Sgl.stored_enough_room (F := Dbl) Sgl.fac_exact eq_ptAp h
    hS (List.forall₂_eq_eq_eq ▸ rfl) hS.box hm hroom.k hroom.plain hroom.pm hroom.tm
  rw [List.forall₂_eq_eq_eq] at h3
  subst h3
  exact ⟨out, R, h1, h2, h4, h5⟩

/-! ### on a GPU -/

/-- C77: every execution on a GPU, whatever is fused, returns the right rows; no further condition on the
distances. -/
theorem C77_gpu (ch : Choice b64) {ndsize : Int} (h : FloatSizes hw prm) (hX : InputOK X)
    (hm : AllMarginsBy (2 / 2 ^ 29) X) (hroom : Roomy prm X.length) (hgr : prm.gr ≤ 255) (htm : prm.tm ≤ 254)
    (hu : Unchunked prm X.length) {out : TessOut (Fm ch)}
    (ho : TesellateGpu 4 hw ndsize true prm (X.map (storeFm ch)) out) :
    ∃ L : List (Pt ℚ), out.xyz = L.map (storeFm ch) ∧ L.Perm X ∧
      ∀ i p, L[i]? = some p → ∃ row, RowIs out.dnn i row ∧ CorrectRow L i p row ∧ ExactRow L i p row :=
  Sgl.in_gpu (F := Fm ch) h hX (by rw [fm64_two]; exact hm) hroom hgr htm hu ho

/-- C77: there are such executions if the work-group size divides the number of points. -/
theorem C77_gpu_possible (ch : Choice b64) {ndsize : Int} (h : FloatSizes hw prm) (hX : InputOK X)
    (hroom : Roomy prm X.length) (hgr : prm.gr ≤ 255) (htm : prm.tm ≤ 254)
    (hu : Unchunked prm X.length) (h0 : 0 < ndsize) (hd : ndsize ∣ X.length) :
    ∃ out : TessOut (Fm ch), TesellateGpu 4 hw ndsize true prm (X.map (storeFm ch)) out :=
  Sgl.in_gpu_possible (F := Fm ch) h hX hroom hgr htm hu h0 hd

/-! ### compared with single precision -/

theorem AllMarginsBy.mono {μ ν : ℚ} (h0 : 0 ≤ ν) (hμ : ν ≤ μ) (h : AllMarginsBy μ X) : AllMarginsBy ν X :=
  fun i p hp => (h i p hp).mono h0 hμ

/-- margins of single precision include the condition on the candidates -/
theorem AllMarginsBy.allCut {s : ℚ} {k : Nat} (hk : 1 ≤ k) (h0 : 0 ≤ s) (h : AllMarginsBy s X) : AllCutBy s k X :=
  fun i p hp => CutBy.of_margins hk h0 hp (h i p hp)

/-- C77: for points with the margins of single precision the calls with `float` and with `double` find the same
neighbours of every point, even for other parameters. -/
theorem C77_same_as_float {hw' : Nat} {prm' : Params} (h : FloatSizes hw prm) (hroom : Roomy prm X.length)
    (h' : FloatSizes hw' prm') (hroom' : Roomy prm' X.length) (hX : InputOK X) (hm : AllMarginsBy 2 X)
    {out : TessOut Dbl} {out' : TessOut F32} (ho : tesellateCpu 4 hw prm (X.map storeDbl) = .ok out)
    (ho' : tesellateCpu 4 hw' prm' (X.map storePt) = .ok out') :
    ∃ L L' : List (Pt ℚ), out.xyz = L.map storeDbl ∧ out'.xyz = L'.map storePt ∧ L.Perm X ∧ L'.Perm X ∧
      ∀ i i' p row row', L[i]? = some p → L'[i']? = some p → RowIs out.dnn i row →
        RowIs out'.dnn i' row' → ∀ q, q ∈ sitesOf L row ↔ q ∈ sitesOf L' row' := by
  obtain ⟨o1, L, e1, e2, e3, e4⟩ := C77_enough_room h hX (hm.mono (by norm_num) (by norm_num)) hroom
  rw [ho] at e1; cases e1
  obtain ⟨o2, L', f1, f2, f3, f4⟩ := C71_enough_room h' hX hm hroom'
  rw [ho'] at f1; cases f1
  refine ⟨L, L', e2, f2, e3, f3, fun i i' p row row' hp hp' hr hr' => ?_⟩
  obtain ⟨r, a1, a2, a3⟩ := e4 i p hp
  obtain ⟨r', b1, b2, b3⟩ := f4 i' p hp'
  rw [hr.unique a1, hr'.unique b1]
  exact same_sites (e3.trans f3.symm) hp hp' a2 a3 b2 b3

end

set_option maxRecDepth 100000 in
theorem nearPts_margins : AllMarginsBy (1 / 2 ^ 29) nearPts :=
  (allMarginsB_sound (by decide +kernel)).margins (by norm_num) fun p hp => by
    simp only [nearPts, List.mem_cons, List.not_mem_nil, or_false] at hp
    rcases hp with rfl | rfl | rfl <;> norm_num [InUnitBox]

/-- C77: the gain is real.  For the three points of C68 the call with `float` reports nothing and leaves out a
neighbour; the call with `double` and the same parameters returns the right rows. -/
theorem C77_better (hw : Nat) :
    (∃ out : TessOut F32, tesellateCpu 4 hw (onePrm 2) (nearPts.map toF32) = .ok out ∧ out.xyz = nearPts.map toF32 ∧
      RowIs out.dnn 1 [2] ∧ ¬ CorrectRow nearPts 1 ⟨7/8, 1/4, 5/8⟩ [2]) ∧
    ∃ (out : TessOut Dbl) (L : List (Pt ℚ)), tesellateCpu 4 hw (onePrm 2) (nearPts.map toDbl) = .ok out ∧
      out.xyz = L.map toDbl ∧ L.Perm nearPts ∧
      ∀ i p, L[i]? = some p → ∃ row, RowIs out.dnn i row ∧ CorrectRow L i p row ∧ ExactRow L i p row := by
  obtain ⟨-, out, h1, h2, -, -, -, h6, h7, -⟩ := C68_missing hw
  refine ⟨⟨out, h1, h2, h6, h7⟩, ?_⟩
  refine C77_doubles_room (onePrm_sizes (by decide) (by decide) hw) (.inl ?_) nearPts_margins
    ⟨by decide, by decide, by decide, rfl⟩
  unfold InCube
  decide +kernel

/-! ### examples -/

/-- coordinates in tenths, rounded to `double` -/
example : ∃ (out : TessOut Dbl) (L : List (Pt ℚ)),
    tesellateCpu 4 8 ⟨3, 3, 9, 14, 0, 0, false, false⟩ (tenths.map storeDbl) = .ok out ∧
    out.xyz = L.map storeDbl ∧ L.Perm tenths ∧
    ∀ i p, L[i]? = some p → ∃ row, RowIs out.dnn i row ∧ CorrectRow L i p row ∧ ExactRow L i p row :=
  C77_enough_room (hw := 8) (prm := ⟨3, 3, 9, 14, 0, 0, false, false⟩)
    ⟨by decide, by decide, by decide, by decide, by decide⟩ tenths_input (tenths_margins.mono (by norm_num) (by norm_num))
    ⟨by decide, by decide, by decide, rfl⟩

/-- recompute from one candidate -/
example : ∃ (out : TessOut Dbl) (L : List (Pt ℚ)),
    tesellateCpu 4 8 ⟨1, 3, 9, 14, 0, 0, false, true⟩ (tenths.map storeDbl) = .ok out ∧
    out.xyz = L.map storeDbl ∧ L.Perm tenths ∧
    ∀ i p, L[i]? = some p → ∃ row, RowIs out.dnn i row ∧ CorrectRow L i p row ∧ ExactRow L i p row :=
  C77_recompute (hw := 8) (prm := ⟨1, 3, 9, 14, 0, 0, false, true⟩)
    ⟨by decide, by decide, by decide, by decide, by decide⟩ tenths_input (tenths_margins.mono (by norm_num) (by norm_num))
    (fun _ hk => (tenths_margins.mono (by norm_num) (by norm_num)).allCut hk (by norm_num)) (by decide) rfl (by decide) (by decide)

/-- fewer candidates, the report decides -/
example : ∃ (out : TessOut Dbl) (L : List (Pt ℚ)),
    tesellateCpu 4 8 ⟨2, 3, 9, 14, 0, 0, false, false⟩ (tenths.map storeDbl) = .ok out ∧
      out.xyz = L.map storeDbl ∧ L.Perm tenths ∧ out.report.infBoundary = 0 ∧
      ((out.report.srNotReached = 0 ∨ ((tenths.length : Int) - 1 ≤ 2 ∧
          out.report.pOverflow = 0 ∧ out.report.tOverflow = 0)) →
        ∀ i p, L[i]? = some p → ∃ row, RowIs out.dnn i row ∧ CorrectRow L i p row ∧ ExactRow L i p row) :=
  C77_tessellation (hw := 8) (prm := ⟨2, 3, 9, 14, 0, 0, false, false⟩)
    ⟨by decide, by decide, by decide, by decide, by decide⟩ tenths_input (tenths_margins.mono (by norm_num) (by norm_num))
    ((tenths_margins.mono (by norm_num) (by norm_num)).allCut (by decide) (by norm_num)) (by decide) rfl

/-- on a GPU -/
example (ch : Choice b64) :
    (∃ out : TessOut (Fm ch), TesellateGpu 4 8 2 true ⟨3, 3, 9, 14, 0, 0, false, false⟩ (tenths.map (storeFm ch)) out) ∧
    ∀ out : TessOut (Fm ch), TesellateGpu 4 8 2 true ⟨3, 3, 9, 14, 0, 0, false, false⟩ (tenths.map (storeFm ch)) out →
      ∃ L : List (Pt ℚ), out.xyz = L.map (storeFm ch) ∧ L.Perm tenths ∧
        ∀ i p, L[i]? = some p → ∃ row, RowIs out.dnn i row ∧ CorrectRow L i p row ∧ ExactRow L i p row := by
  have hsz : FloatSizes 8 ⟨3, 3, 9, 14, 0, 0, false, false⟩ :=
    ⟨by decide, by decide, by decide, by decide, by decide⟩
  have hroom : Roomy ⟨3, 3, 9, 14, 0, 0, false, false⟩ tenths.length := ⟨by decide, by decide, by decide, rfl⟩
  have hm : AllMarginsBy (2 / 2 ^ 29) tenths := tenths_margins.mono (by norm_num) (by norm_num)
  exact ⟨C77_gpu_possible ch hsz tenths_input hroom (by decide) (by decide) (.inl rfl) (by decide) (by decide),
    fun out ho => C77_gpu ch hsz tenths_input hm hroom (by decide) (by decide) (.inl rfl) ho⟩

end Votess
