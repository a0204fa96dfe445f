import Verif.Proofs.SglEnough
import Verif.Proofs.IntEnough
import Verif.Props.Local
import Verif.Props.PyFloat
/-!
# C81 — a number of candidates that suffices in principle suffices in practice

The result of a call with `k` candidates is certain where the security radius was reached, and the user is told how
often it was not.  These theorems say when it is reached.  `Enough k` is a condition on the points alone: one of the
`k` nearest points is beyond the cell cut out by the closer ones.  If it holds for a point and there is room, the
security radius is reached and the row is right; without ties the converse holds as well, so there is neither a false
alarm nor a false assurance.
-/
namespace Votess

section exact
variable {K : Type} [Field K] [LinearOrder K] [IsStrictOrderedRing K] [FloorRing K]
variable {nb hw : Nat} {prm : Params} {xyz : List (Pt K)}

/-- C81: one cell.  Without errors and ties the flag is set if and only if `k` candidates are enough. -/
theorem C81_radius_iff {a : CCArgs} {index : Nat} {p : Pt K} {res : List (Int × WithTop K)} {o : CCOut K}
    (h : CellJob a xyz index p res o) (hk : a.k < xyz.length) (hok : NoError o.s.state) (ht : NoTies xyz index p) :
    o.s.state.get .security_radius_reached = true ↔ Enough a.k xyz index p :=
  ⟨enough_of_reached h hk hok ht, reached_of_enough h hk hok⟩

variable [Inhabited K]

/-- C81: a call in exact arithmetic.  Every point for which `k` candidates are enough gets the right row, whatever the
report says about other points. -/
theorem C81_exact (h : ExactJob nb hw prm xyz) (hr : prm.useRecompute = false) (hk : prm.k < xyz.length)
    (hp : prm.k + 6 ≤ prm.pm) (ht : 2 * prm.k + 8 ≤ prm.tm) :
    ∃ out, tesellateCpu nb hw prm xyz = .ok out ∧ out.xyz.Perm xyz ∧
      ∀ i p, out.xyz[i]? = some p → Enough prm.k.toNat out.xyz i p → ∃ row, RowIs out.dnn i row ∧
        CorrectRow out.xyz i p row ∧ (GeneralAt out.xyz i p → ExactRow out.xyz i p row) := by
  obtain ⟨S, hs⟩ := h.sorts
  have h1 := h.k1; have h2 := h.pm6
  obtain ⟨out, e1, e2, -, e3⟩ := C32_rows h.job hs hr
  have hperm := C01_sort_permutes nb prm.gr xyz S hs
  refine ⟨out, e1, by rw [e2]; exact hperm, fun i p hpi he => ?_⟩
  rw [e2] at hpi he ⊢
  have hi := (List.getElem?_eq_some_iff.mp hpi).1
  have hno := room_no_error h hs h.job.size (a := prm.args) (by simp only [Params.args]; omega)
    (by simp only [Params.args]; omega) hi
  obtain ⟨res, o, j1, j2, j3⟩ := h.cell hs h.job.size hpi
  have hc : Certain S prm.gr prm.args i := by
    refine ⟨hno, Or.inl ?_⟩
    rw [j3] at hno ⊢
    exact reached_of_enough j1 (by simp only [Params.args]; rw [hperm.length_eq]; omega) hno he
  exact ⟨_, e3 i hi, C24_row h hs h.job.size hpi hc, C26_row h hs h.job.size hpi hc⟩

/-- C81: if `k` candidates are enough for all points, no security radius is reported as not reached; without ties
only then. -/
theorem C81_report (h : ExactJob nb hw prm xyz) (hr : prm.useRecompute = false) (hk : prm.k < xyz.length)
    (hp : prm.k + 6 ≤ prm.pm) (ht : 2 * prm.k + 8 ≤ prm.tm) :
    ∃ out, tesellateCpu nb hw prm xyz = .ok out ∧ (AllEnough prm.k.toNat xyz → out.report.srNotReached = 0) ∧
      ((∀ i p, xyz[i]? = some p → NoTies xyz i p) → out.report.srNotReached = 0 → AllEnough prm.k.toNat xyz) := by
  obtain ⟨S, hs⟩ := h.sorts
  have h1 := h.k1; have h2 := h.pm6
  obtain ⟨out, e1, e2⟩ := C39_counters h.job hs hr
  have hperm := C01_sort_permutes nb prm.gr xyz S hs
  have c1 := e2.1
  simp only at c1
  have cell : ∀ i p, S.xyz[i]? = some p → ∃ res o, CellJob prm.args S.xyz i p res o ∧ NoError o.s.state ∧
      stateOf S prm.gr prm.args i = o.s.state := by
    intro i p hpi
    obtain ⟨res, o, j1, -, j3⟩ := h.cell hs h.job.size hpi
    refine ⟨res, o, j1, ?_, j3⟩
    rw [← j3]
    exact room_no_error h hs h.job.size (by simp only [Params.args]; omega) (by simp only [Params.args]; omega)
      (List.getElem?_eq_some_iff.mp hpi).1
  have hkS : prm.args.k < S.xyz.length := by simp only [Params.args]; rw [hperm.length_eq]; omega
  refine ⟨out, e1, fun he => ?_, fun hn hz => ?_⟩
  · have hc : (List.range S.xyz.length).countP (fun i =>
        (stateOf S prm.gr prm.args i).get .security_radius_reached) = (List.range S.xyz.length).length := by
      rw [List.countP_eq_length]
      intro i hi
      have hi := List.mem_range.mp hi
      have hpi : S.xyz[i]? = some S.xyz[i] := List.getElem?_eq_getElem hi
      obtain ⟨res, o, j1, j2, j3⟩ := cell i _ hpi
      rw [j3]
      exact reached_of_enough j1 hkS j2 (he.perm hperm.symm i _ hpi)
    rw [List.length_range] at hc
    omega
  · refine AllEnough.perm hperm fun i p hpi => ?_
    have hc : (List.range S.xyz.length).countP (fun i =>
        (stateOf S prm.gr prm.args i).get .security_radius_reached) = (List.range S.xyz.length).length := by
      rw [List.length_range]; omega
    have := List.countP_eq_length.mp hc i (List.mem_range.mpr (List.getElem?_eq_some_iff.mp hpi).1)
    obtain ⟨res, o, j1, j2, j3⟩ := cell i p hpi
    rw [j3] at this
    obtain ⟨j, hj⟩ := List.getElem?_of_mem (hperm.mem_iff.mp (List.mem_of_getElem? hpi))
    exact enough_of_reached j1 hkS j2 ((hn j p hj).perm hperm.symm hj hpi) this

end exact

section
variable {hw : Nat} {prm : Params} {X : List (Pt ℚ)}

/-- the rows of all points that have margins and for which `k` candidates are enough -/
def ServedRows (m : ℚ) (k : Nat) (X L : List (Pt ℚ)) (dnn : Dnn) : Prop :=
  ∀ j p, X[j]? = some p → MarginsBy m X j p → Enough k X j p → ∀ i, L[i]? = some p →
    ∃ row, RowIs dnn i row ∧ CorrectRow L i p row ∧ ExactRow L i p row

theorem ServedRows.of {m : ℚ} {k : Nat} {L : List (Pt ℚ)} {dnn : Dnn} (hperm : L.Perm X)
    (h : ∀ i p, L[i]? = some p → MarginsBy m L i p → Enough k L i p →
      ∃ row, RowIs dnn i row ∧ CorrectRow L i p row ∧ ExactRow L i p row) : ServedRows m k X L dnn :=
  fun _ p hj hm he i hi => h i p hi (MarginsBy.perm hperm.symm hj hi hm) (he.perm hperm.symm hj hi)

/-- C81: single precision.  Whatever the points are, the call succeeds, and the rows of all points that have margins
and for which `k` candidates are enough are exact.  There is no condition on the report. -/
theorem C81_float (h : FloatSizes hw prm) (hX : InputOK X) (hroom : RoomyFew prm X.length) :
    ∃ (out : TessOut F32) (L : List (Pt ℚ)), tesellateCpu 4 hw prm (X.map storePt) = .ok out ∧
      out.xyz = L.map storePt ∧ L.Perm X ∧ ServedRows 2 prm.k.toNat X L out.dnn := by
  obtain ⟨out, L, h1, h2, h3, h4, -⟩ := Sgl.in_enough_local (F := F32) h hX hroom.k hroom.plain hroom.pm hroom.tm
  exact ⟨out, L, h1, h2, h3, .of h3 fun i p hp hm => h4 i p hp (clear32 (by have := h.k.1; omega) hp hm)⟩

/-- C81: single precision, all points with margins.  The report says that all security radii were reached if and only
if `k` candidates are enough for all points. -/
theorem C81_float_report (h : FloatSizes hw prm) (hX : InputOK X) (hm : AllMarginsBy 2 X)
    (hroom : RoomyFew prm X.length) {out : TessOut F32} (ho : tesellateCpu 4 hw prm (X.map storePt) = .ok out) :
    (out.report.srNotReached = 0 ↔ AllEnough prm.k.toNat X) ∧ out.report.infBoundary = 0 ∧
      out.report.pOverflow = 0 ∧ out.report.tOverflow = 0 := by
  obtain ⟨out', L, h1, h2, h3, -, h5⟩ := Sgl.in_enough_local (F := F32) h hX hroom.k hroom.plain hroom.pm hroom.tm
  have e := h1.symm.trans ho
  injection e with e
  subst e
  exact h5 fun i p hp => clear32 (by have := h.k.1; omega) hp (hm i p hp)

theorem clearFm {ch : Choice b32} {k : Nat} (hk : 1 ≤ k) {L : List (Pt ℚ)} {i : Nat} {p : Pt ℚ} (hp : L[i]? = some p)
    (hm : MarginsBy 2 L i p) : Sgl.Clear (Fm ch) (2 * Sgl.om (Fm ch)) k L i p := by
  rw [fm32_two]
  exact .of rfl (by norm_num) hk hp hm

/-- C81: whatever the compiler contracts. -/
theorem C81_fused (ch : Choice b32) (h : FloatSizes hw prm) (hX : InputOK X) (hroom : RoomyFew prm X.length) :
    ∃ (out : TessOut (Fm ch)) (L : List (Pt ℚ)), tesellateCpu 4 hw prm (X.map (storeFm ch)) = .ok out ∧
      out.xyz = L.map (storeFm ch) ∧ L.Perm X ∧ ServedRows 2 prm.k.toNat X L out.dnn := by
  obtain ⟨out, L, h1, h2, h3, h4, -⟩ := Sgl.in_enough_local (F := Fm ch) h hX hroom.k hroom.plain hroom.pm hroom.tm
  exact ⟨out, L, h1, h2, h3, .of h3 fun i p hp hm => h4 i p hp (clearFm (by have := h.k.1; omega) hp hm)⟩

/-- C81: every execution on a GPU. -/
theorem C81_gpu (ch : Choice b32) {ndsize : Int} (h : FloatSizes hw prm) (hX : InputOK X) (hroom : RoomyFew prm X.length)
    (hgr : prm.gr ≤ 255) (htm : prm.tm ≤ 254) (hu : Unchunked prm X.length) {out : TessOut (Fm ch)}
    (ho : TesellateGpu 4 hw ndsize true prm (X.map (storeFm ch)) out) :
    ∃ L : List (Pt ℚ), out.xyz = L.map (storeFm ch) ∧ L.Perm X ∧ ServedRows 2 prm.k.toNat X L out.dnn := by
  obtain ⟨L, h2, h3, h4⟩ := Sgl.in_enough_gpu (F := Fm ch) h hX hroom.k hroom.plain hroom.pm hroom.tm hgr htm hu ho
  exact ⟨L, h2, h3, .of h3 fun i p hp hm => h4 i p hp (clearFm (by have := h.k.1; omega) hp hm)⟩

end

/-! ### examples -/

/-- fifteen points, roughly the centre, the middles of the faces and the corners of the cube -/
def fifteenInt : List (Pt Int) :=
  [⟨50, 51, 51⟩, ⟨12, 53, 52⟩, ⟨87, 48, 50⟩, ⟨49, 14, 52⟩, ⟨50, 89, 48⟩, ⟨51, 53, 7⟩, ⟨50, 49, 91⟩, ⟨3, 2, 6⟩,
    ⟨3, 6, 98⟩, ⟨6, 98, 7⟩, ⟨2, 93, 96⟩, ⟨95, 1, 8⟩, ⟨96, 4, 95⟩, ⟨92, 95, 2⟩, ⟨96, 99, 93⟩]

def fifteen : List (Pt ℚ) := fifteenInt.map (IntM.scale 100)

theorem fifteen_input : InputOK fifteen := by
  intro p hp
  obtain ⟨P, hP, rfl⟩ := List.mem_map.mp hp
  simp only [fifteenInt, List.mem_cons, List.not_mem_nil, or_false] at hP
  rcases hP with rfl | rfl | rfl | rfl | rfl | rfl | rfl | rfl | rfl | rfl | rfl | rfl | rfl | rfl | rfl <;>
    norm_num [IntM.scale]

set_option maxRecDepth 100000 in
theorem fifteen_margins : AllMarginsBy (9 / 4) fifteen := by
  have h := IntM.allMarginsI_sound (S := 100) (m := 9) (u := 4) (by norm_num) (by norm_num) (by norm_num)
    (M := fifteenInt) (by decide +kernel)
  have e : (((9 : Int) : ℚ) / ((4 : Int) : ℚ)) = 9 / 4 := by norm_num
  rw [e] at h
  exact h.margins (by norm_num) (input_box fifteen_input)

set_option maxRecDepth 100000 in
theorem fifteen_enough : AllEnough 11 fifteen :=
  IntM.allEnoughI_sound (S := 100) (by norm_num) (M := fifteenInt) (by decide +kernel)

/-- 11 of the 14 other points as candidates are enough for all rows -/
theorem fifteen_call : ∃ (out : TessOut F32) (L : List (Pt ℚ)),
    tesellateCpu 4 8 ⟨11, 3, 17, 30, 0, 0, false, false⟩ (fifteen.map storePt) = .ok out ∧ out.report.srNotReached = 0 ∧
    out.xyz = L.map storePt ∧ L.Perm fifteen ∧
    ∀ i p, L[i]? = some p → ∃ row, RowIs out.dnn i row ∧ ExactRow L i p row := by
  have hs : FloatSizes 8 ⟨11, 3, 17, 30, 0, 0, false, false⟩ := ⟨by decide, by decide, by decide, by decide, by decide⟩
  have hm : AllMarginsBy 2 fifteen := fun i p hp => (fifteen_margins i p hp).mono (by norm_num) (by norm_num)
  have hroom : RoomyFew ⟨11, 3, 17, 30, 0, 0, false, false⟩ fifteen.length := ⟨by decide, by decide, by decide, rfl⟩
  obtain ⟨out, L, h1, h2, h3, h4⟩ := C81_float hs fifteen_input hroom
  refine ⟨out, L, h1, (C81_float_report hs fifteen_input hm hroom h1).1.mpr fifteen_enough, h2, h3, fun i p hp => ?_⟩
  obtain ⟨j, hj⟩ := List.getElem?_of_mem (h3.mem_iff.mp (List.mem_of_getElem? hp))
  obtain ⟨row, a, -, b⟩ := h4 j p hj (hm j p hj) (fifteen_enough j p hj) i hp
  exact ⟨row, a, b⟩

theorem fifteen_exact : ExactJob 4 8 ⟨11, 3, 17, 30, 0, 0, false, false⟩ fifteen :=
  ⟨by decide, by decide, fun p hp => by
    obtain ⟨hx, hy, hz⟩ := fifteen_input p hp
    exact ⟨⟨hx.1, by linarith [hx.2]⟩, ⟨hy.1, by linarith [hy.2]⟩, hz.1, by linarith [hz.2]⟩, by decide, by decide, by decide,
    by decide, by decide, by decide, by decide⟩

example : ∃ out, tesellateCpu 4 8 ⟨11, 3, 17, 30, 0, 0, false, false⟩ fifteen = .ok out ∧ out.report.srNotReached = 0 := by
  obtain ⟨out, h1, h2, -⟩ := C81_report fifteen_exact rfl (by decide) (by decide) (by decide)
  exact ⟨out, h1, h2 fifteen_enough⟩

/-- the same points from Python, with 11 candidates, on any device -/
example (ch : Choice b32) (found : Bool) (dev : Device) {m : ArgMap} (hp : m.params = .ok ⟨11, 1, 17, 30, 0, 0, false, false⟩)
    {d : Dnn} (hd : PyResult ch 8 found dev m (fifteen.map pyLit) d) :
    ∀ i p, fifteen[i]? = some p → ∃ row, PyRow d i row ∧ ExactRow fifteen i p row := by
  obtain ⟨L, -, h2, -, h4⟩ := C79_any_device (ch := ch) hp ⟨by decide, by decide, by decide, by decide, by decide⟩ fifteen_input
    (fun i p hp => (fifteen_margins i p hp).mono (by norm_num) (by norm_num))
    (.inr (.inr ⟨⟨by decide, by decide, by decide, rfl⟩, fifteen_enough⟩)) (by decide) rfl (by decide) (by decide) (.inl rfl) hd
  rw [h2 (C79_one_cell ch fifteen_input)] at h4
  intro i p hp
  obtain ⟨row, a, -, b⟩ := h4 i p hp
  exact ⟨row, a, b⟩

set_option maxRecDepth 100000 in
/-- four candidates are enough for the first of the eight points above -/
theorem spoilt_enough : Enough 4 spoilt 0 ⟨1/10, 1/10, 1/10⟩ := by
  refine ⟨⟨4/5, 1/5, 1/10⟩, by decide +kernel, ?_, by decide +kernel⟩
  rw [← beyondB_iff]
  decide +kernel

end Votess
