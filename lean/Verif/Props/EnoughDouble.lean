import Verif.Props.Enough
/-!
# C81 — enough candidates, with double precision and on builds that contract

With `double` coordinates the margins are those of C77.  The search on the CPU still stops at a bound computed in single
precision (Model/Double), so the `k`-th candidate has to be clearly nearer than the next one as far as it matters (`CutBy`).
-/
namespace Votess

section
variable {hw : Nat} {prm : Params} {X : List (Pt ℚ)}

theorem clearDbl {k : Nat} {L : List (Pt ℚ)} {i : Nat} {p : Pt ℚ} (hm : MarginsBy (2 / 2 ^ 29) L i p)
    (hs : CutBy (1 + 1 / 2 ^ 29) k L i p) : Sgl.Clear Dbl (2 * Sgl.om Dbl) k L i p := by
  have e2 : Sgl.ga Dbl + (2 * Sgl.om Dbl - Sgl.om Dbl) = 1 + 1 / 2 ^ 29 := by
    show (1 : ℚ) + (2 * (1 / 2 ^ 29) - 1 / 2 ^ 29) = _
    norm_num
  refine ⟨?_, ?_⟩
  · rw [dbl_two]; exact hm
  · rw [e2]; exact hs

/-- C81: double precision.  Whatever the points are, the call succeeds, and the rows of all points that have margins, whose
`k`-th candidate is clear and for which `k` candidates are enough are exact. -/
theorem C81_double (h : FloatSizes hw prm) (hX : InputOK X) (hroom : RoomyFew prm X.length) :
    ∃ (out : TessOut Dbl) (L : List (Pt ℚ)), tesellateCpu 4 hw prm (X.map storeDbl) = .ok out ∧
      out.xyz = L.map storeDbl ∧ L.Perm X ∧
      ∀ j p, X[j]? = some p → MarginsBy (2 / 2 ^ 29) X j p → CutBy (1 + 1 / 2 ^ 29) prm.k.toNat X j p →
        Enough prm.k.toNat X j p → ∀ i, L[i]? = some p →
          ∃ row, RowIs out.dnn i row ∧ CorrectRow L i p row ∧ ExactRow L i p row := by
  obtain ⟨out, L, h1, h2, h3, h4, -⟩ := Sgl.in_enough_local (F := Dbl) h hX hroom.k hroom.plain hroom.pm hroom.tm
  exact ⟨out, L, h1, h2, h3, fun j p hj hm hs he i hi => h4 i p hi
    (clearDbl (MarginsBy.perm h3.symm hj hi hm) (CutBy.perm h3.symm hj hi hs)) (he.perm h3.symm hj hi)⟩

/-- C81: double precision, all points with margins and a clear `k`-th candidate.  The report says that all security radii were
reached if and only if `k` candidates are enough for all points. -/
theorem C81_double_report (h : FloatSizes hw prm) (hX : InputOK X) (hm : AllMarginsBy (2 / 2 ^ 29) X)
    (hs : AllCutBy (1 + 1 / 2 ^ 29) prm.k.toNat X) (hroom : RoomyFew prm X.length) {out : TessOut Dbl}
    (ho : tesellateCpu 4 hw prm (X.map storeDbl) = .ok out) :
    (out.report.srNotReached = 0 ↔ AllEnough prm.k.toNat X) ∧ out.report.infBoundary = 0 ∧
      out.report.pOverflow = 0 ∧ out.report.tOverflow = 0 := by
  obtain ⟨out', L, h1, h2, h3, -, h5⟩ := Sgl.in_enough_local (F := Dbl) h hX hroom.k hroom.plain hroom.pm hroom.tm
  have e := h1.symm.trans ho
  injection e with e
  subst e
  exact h5 (dbl_clear hm hs)

/-- C81: whatever the compiler contracts, the report is right. -/
theorem C81_fused_report (ch : Choice b32) (h : FloatSizes hw prm) (hX : InputOK X) (hm : AllMarginsBy 2 X)
    (hroom : RoomyFew prm X.length) {out : TessOut (Fm ch)} (ho : tesellateCpu 4 hw prm (X.map (storeFm ch)) = .ok out) :
    (out.report.srNotReached = 0 ↔ AllEnough prm.k.toNat X) ∧ out.report.infBoundary = 0 ∧
      out.report.pOverflow = 0 ∧ out.report.tOverflow = 0 := by
  obtain ⟨out', L, h1, h2, h3, -, h5⟩ := Sgl.in_enough_local (F := Fm ch) h hX hroom.k hroom.plain hroom.pm hroom.tm
  have e := h1.symm.trans ho
  injection e with e
  subst e
  exact h5 fun i p hp => clearFm (by have := h.k.1; omega) hp (hm i p hp)

/-- C81: every execution on a GPU with `double`, where the bound of the search is double precision as well. -/
theorem C81_gpu_double (ch : Choice b64) {ndsize : Int} (h : FloatSizes hw prm) (hX : InputOK X) (hroom : RoomyFew prm X.length)
    (hgr : prm.gr ≤ 255) (htm : prm.tm ≤ 254) (hu : Unchunked prm X.length) {out : TessOut (Fm ch)}
    (ho : TesellateGpu 4 hw ndsize true prm (X.map (storeFm ch)) out) :
    ∃ L : List (Pt ℚ), out.xyz = L.map (storeFm ch) ∧ L.Perm X ∧ ServedRows (2 / 2 ^ 29) prm.k.toNat X L out.dnn := by
  obtain ⟨L, h2, h3, h4⟩ := Sgl.in_enough_gpu (F := Fm ch) h hX hroom.k hroom.plain hroom.pm hroom.tm hgr htm hu ho
  refine ⟨L, h2, h3, .of h3 fun i p hp hm => h4 i p hp ?_⟩
  rw [fm64_two]
  exact .of rfl (by norm_num) (by have := h.k.1; omega) hp hm

end

/-! ### examples: the fifteen points of `Props/Enough` -/

theorem fifteen_room : RoomyFew ⟨11, 3, 17, 30, 0, 0, false, false⟩ fifteen.length := ⟨by decide, by decide, by decide, rfl⟩

theorem fifteen_sizes : FloatSizes 8 ⟨11, 3, 17, 30, 0, 0, false, false⟩ := ⟨by decide, by decide, by decide, by decide, by decide⟩

/-- all rows are exact and the report is clean -/
example : ∃ (out : TessOut Dbl) (L : List (Pt ℚ)),
    tesellateCpu 4 8 ⟨11, 3, 17, 30, 0, 0, false, false⟩ (fifteen.map storeDbl) = .ok out ∧ out.report.srNotReached = 0 ∧
    out.xyz = L.map storeDbl ∧ L.Perm fifteen ∧
    ∀ i p, L[i]? = some p → ∃ row, RowIs out.dnn i row ∧ ExactRow L i p row := by
  have hm : AllMarginsBy (2 / 2 ^ 29) fifteen := fifteen_margins.mono (by norm_num) (by norm_num)
  have hs : AllCutBy (1 + 1 / 2 ^ 29) 11 fifteen :=
    (fifteen_margins.mono (ν := 1 + 1 / 2 ^ 29) (by norm_num) (by norm_num)).allCut (by decide) (by norm_num)
  obtain ⟨out, L, h1, h2, h3, h4⟩ := C81_double fifteen_sizes fifteen_input fifteen_room
  refine ⟨out, L, h1, (C81_double_report fifteen_sizes fifteen_input hm hs fifteen_room h1).1.mpr fifteen_enough, h2, h3,
    fun i p hp => ?_⟩
  obtain ⟨j, hj⟩ := List.getElem?_of_mem (h3.mem_iff.mp (List.mem_of_getElem? hp))
  obtain ⟨row, a, -, b⟩ := h4 j p hj (hm j p hj) (hs j p hj) (fifteen_enough j p hj) i hp
  exact ⟨row, a, b⟩

example (ch : Choice b32) {out : TessOut (Fm ch)}
    (ho : tesellateCpu 4 8 ⟨11, 3, 17, 30, 0, 0, false, false⟩ (fifteen.map (storeFm ch)) = .ok out) :
    out.report.srNotReached = 0 :=
  (C81_fused_report ch fifteen_sizes fifteen_input (fifteen_margins.mono (by norm_num) (by norm_num)) fifteen_room ho).1.mpr
    fifteen_enough

end Votess
