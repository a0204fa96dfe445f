import Verif.Props.IeeeGpu
import Verif.Props.IeeeCompare
/-!
# C71 — coordinates that are not single precision numbers

The caller's coordinates are decimal numbers in a file or `double` values in Python; the program
stores the nearest `float`.  If the points are clear enough of degenerate situations, twice the
margins of C67, the rows returned are still those of the points the caller meant.
-/
namespace Votess

/-- The point as the program stores it: every coordinate is converted to `float`, rounding to nearest.
`src/main.cpp:207-209` reads the coordinates with `>>` into `float`; `src/pybind11/pyvotess.cpp:76`
converts the numbers given in Python. -/
def storePt (p : Pt ℚ) : Pt F32 := ⟨Fl.round b32 p.x, Fl.round b32 p.y, Fl.round b32 p.z⟩

/-- the coordinates lie between 0 and `1 - 2^-22` -/
def InputOK (L : List (Pt ℚ)) : Prop := ∀ p ∈ L,
  (0 ≤ p.x ∧ p.x ≤ 1 - 1 / 2 ^ 22) ∧ (0 ≤ p.y ∧ p.y ≤ 1 - 1 / 2 ^ 22) ∧ (0 ≤ p.z ∧ p.z ≤ 1 - 1 / 2 ^ 22)

/-- the values stored -/
def roundPt (p : Pt ℚ) : Pt ℚ := ⟨rnd b32 p.x, rnd b32 p.y, rnd b32 p.z⟩

theorem round_coord {x : ℚ} (h : 0 ≤ x ∧ x ≤ 1 - 1 / 2 ^ 22) :
    Fl.round b32 x = .fin (rnd b32 x) ∧ (0 ≤ rnd b32 x ∧ rnd b32 x ≤ 1 - 1 / 2 ^ 23) ∧
      |rnd b32 x - x| ≤ (2 - 1) / 2 / 2 ^ 24 := by
  have e := fine32.err_unit (show |x| < 1 by rw [abs_of_nonneg h.1]; linarith [h.2])
  have e' := abs_le.mp e
  have n := rnd_nonneg b32 h.1
  refine ⟨Fl.round_fin ?_ ?_, ⟨n, ?_⟩, e.trans ?_⟩
  · linarith
  · linarith [e'.2, h.2]
  · linarith [e'.2, h.2]
  · linarith

theorem storePt_eq {L : List (Pt ℚ)} (h : InputOK L) : L.map storePt = (L.map roundPt).map toF32 := by
  rw [List.map_map]
  refine List.map_congr_left fun p hp => ?_
  obtain ⟨hx, hy, hz⟩ := h p hp
  simp only [storePt, Function.comp, roundPt, toF32, (round_coord hx).1, (round_coord hy).1, (round_coord hz).1]

theorem store_safe {L : List (Pt ℚ)} (h : InputOK L) (gr : Int) : SafePoints gr ((L.map roundPt).map toF32) := by
  left
  intro q hq
  rw [List.map_map] at hq
  obtain ⟨p, hp, rfl⟩ := List.mem_map.mp hq
  obtain ⟨hx, hy, hz⟩ := h p hp
  exact ⟨_, _, _, rfl, (round_coord hx).2.1, (round_coord hy).2.1, (round_coord hz).2.1⟩

/-- the point stored for the point meant -/
def StoredAs (q p : Pt ℚ) : Prop :=
  q = roundPt p ∧ (0 ≤ p.x ∧ p.x ≤ 1 - 1 / 2 ^ 22) ∧ (0 ≤ p.y ∧ p.y ≤ 1 - 1 / 2 ^ 22) ∧
    (0 ≤ p.z ∧ p.z ≤ 1 - 1 / 2 ^ 22)

theorem storedAs_ptAp : ∀ q p, StoredAs q p → PtAp 2 q p := by
  rintro q p ⟨rfl, hx, hy, hz⟩
  exact ⟨(round_coord hx).2.2, (round_coord hy).2.2, (round_coord hz).2.2⟩

theorem storedAs_all {L : List (Pt ℚ)} (h : InputOK L) : List.Forall₂ StoredAs (L.map roundPt) L := by
  rw [List.forall₂_map_left_iff]
  exact List.forall₂_same.mpr fun p hp => ⟨rfl, h p hp⟩

theorem storedAs_eq {R L : List (Pt ℚ)} (h : List.Forall₂ StoredAs R L) : R.map toF32 = L.map storePt := by
  induction h with
  | nil => rfl
  | cons hd _ ih =>
    rw [List.map_cons, List.map_cons, ih]
    obtain ⟨rfl, hx, hy, hz⟩ := hd
    simp only [storePt, roundPt, toF32, (round_coord hx).1, (round_coord hy).1, (round_coord hz).1]

theorem input_box {L : List (Pt ℚ)} (h : InputOK L) : ∀ v ∈ L, InUnitBox v := by
  intro v hv
  obtain ⟨hx, hy, hz⟩ := h v hv
  have hb : (1 : ℚ) - 1 / 2 ^ 22 ≤ 1 := by norm_num
  exact ⟨⟨hx.1, hx.2.trans hb⟩, ⟨hy.1, hy.2.trans hb⟩, hz.1, hz.2.trans hb⟩

section
variable {hw : Nat} {prm : Params} {X : List (Pt ℚ)}

/-- C71: points with twice the margins, whose coordinates are rounded when they are stored: a call
reports no infinite boundary, and if every cell reached its security radius, or all other points were
candidates and no buffer overflowed, the rows are exactly those of the points before rounding. -/
theorem C71_tessellation (h : FloatSizes hw prm) (hX : InputOK X) (hm : AllMarginsBy 2 X)
    (hk : prm.k < X.length) (hr : prm.useRecompute = false) :
    ∃ (out : TessOut F32) (L : List (Pt ℚ)), tesellateCpu 4 hw prm (X.map storePt) = .ok out ∧
      out.xyz = L.map storePt ∧ L.Perm X ∧ out.report.infBoundary = 0 ∧
      ((out.report.srNotReached = 0 ∨ ((X.length : Int) - 1 ≤ prm.k ∧
          out.report.pOverflow = 0 ∧ out.report.tOverflow = 0)) →
        ∀ i p, L[i]? = some p → ∃ row, RowIs out.dnn i row ∧ CorrectRow L i p row ∧ ExactRow L i p row) := by
  obtain ⟨out, R, L, h1, h2, -, h3, h4, h5⟩ := stored_tessellation fac_two storedAs_ptAp h
    (store_safe hX _) (storedAs_all hX) (input_box hX) hm hk hr
  exact ⟨out, L, by rw [storePt_eq hX]; exact h1, by rw [h2, storedAs_eq h3], h4, h5⟩

/-- C71: with all other points as candidates and room for their planes and vertices there is no
condition on what happens during the run. -/
theorem C71_enough_room (h : FloatSizes hw prm) (hX : InputOK X) (hm : AllMarginsBy 2 X)
    (hroom : Roomy prm X.length) :
    ∃ (out : TessOut F32) (L : List (Pt ℚ)), tesellateCpu 4 hw prm (X.map storePt) = .ok out ∧
      out.xyz = L.map storePt ∧ L.Perm X ∧
      ∀ i p, L[i]? = some p → ∃ row, RowIs out.dnn i row ∧ CorrectRow L i p row ∧ ExactRow L i p row := by
  obtain ⟨out, R, L, h1, h2, -, h3, h4, h5⟩ := stored_enough_room fac_two storedAs_ptAp h
    (store_safe hX _) (storedAs_all hX) (input_box hX) hm hroom.k hroom.plain hroom.pm hroom.tm
  exact ⟨out, L, by rw [storePt_eq hX]; exact h1, by rw [h2, storedAs_eq h3], h4, h5⟩

/-- C71: with recompute any number of candidates below the number of points will do. -/
theorem C71_recompute (h : FloatSizes hw prm) (hX : InputOK X) (hm : AllMarginsBy 2 X)
    (hk : prm.k < X.length) (hr : prm.useRecompute = true) (hp : (X.length : Int) + 5 ≤ prm.pm)
    (ht : 2 * (X.length : Int) + 6 ≤ prm.tm) :
    ∃ (out : TessOut F32) (L : List (Pt ℚ)), tesellateCpu 4 hw prm (X.map storePt) = .ok out ∧
      out.xyz = L.map storePt ∧ L.Perm X ∧
      ∀ i p, L[i]? = some p → ∃ row, RowIs out.dnn i row ∧ CorrectRow L i p row ∧ ExactRow L i p row := by
  obtain ⟨out, R, L, h1, h2, -, h3, h4, h5⟩ := stored_recompute fac_two storedAs_ptAp h
    (store_safe hX _) (storedAs_all hX) (input_box hX) hm hk hr hp ht
  exact ⟨out, L, by rw [storePt_eq hX]; exact h1, by rw [h2, storedAs_eq h3], h4, h5⟩

/-- C71: the same for every execution on a GPU. -/
theorem C71_gpu {ndsize : Int} (h : FloatSizes hw prm) (hX : InputOK X) (hm : AllMarginsBy 2 X)
    (hroom : Roomy prm X.length) (hgr : prm.gr ≤ 255) (htm : prm.tm ≤ 254) (hu : Unchunked prm X.length)
    {out : TessOut F32} (ho : TesellateGpu 4 hw ndsize true prm (X.map storePt) out) :
    ∃ L : List (Pt ℚ), out.xyz = L.map storePt ∧ L.Perm X ∧
      ∀ i p, L[i]? = some p → ∃ row, RowIs out.dnn i row ∧ CorrectRow L i p row ∧ ExactRow L i p row := by
  rw [storePt_eq hX] at ho
  obtain ⟨cpu, c1, c2, c3, -⟩ := C69_same_table h (store_safe hX _) hgr htm
    (by rw [List.length_map, List.length_map]; exact hu) hroom.plain ho
  obtain ⟨out', L, h1, h2, h3, h4⟩ := C71_enough_room h hX hm hroom
  rw [storePt_eq hX, c1] at h1; cases h1
  exact ⟨L, by rw [c2, h2], h3, by rw [c3]; exact h4⟩

/-- C71: the rounding makes no difference.  What the call in single precision finds for the stored
points is what the same program finds, in exact arithmetic, for the points as given. -/
theorem C71_same_as_exact {hw' : Nat} {prm' : Params} (h : FloatSizes hw prm) (hroom : Roomy prm X.length)
    (h' : FloatSizes hw' prm') (hroom' : Roomy prm' X.length) (hX : InputOK X) (hm : AllMarginsBy 2 X)
    {out : TessOut F32} (ho : tesellateCpu 4 hw prm (X.map storePt) = .ok out) :
    ∃ (exact : TessOut ℚ) (L : List (Pt ℚ)), tesellateCpu 4 hw' prm' X = .ok exact ∧
      out.xyz = L.map storePt ∧ L.Perm X ∧ exact.xyz.Perm X ∧
      ∀ i i' p row row', L[i]? = some p → exact.xyz[i']? = some p → RowIs out.dnn i row →
        RowIs exact.dnn i' row' → ∀ q, q ∈ sitesOf L row ↔ q ∈ sitesOf exact.xyz row' := by
  obtain ⟨o1, L, e1, e2, e3, e4⟩ := C71_enough_room h hX hm hroom
  rw [ho] at e1; cases e1
  have hbox : ∀ v ∈ X, InBox v := by
    intro v hv
    obtain ⟨hx, hy, hz⟩ := hX v hv
    have hb : (1 : ℚ) - 1 / 2 ^ 22 < 1 := by norm_num
    exact ⟨⟨hx.1, lt_of_le_of_lt hx.2 hb⟩, ⟨hy.1, lt_of_le_of_lt hy.2 hb⟩, hz.1, lt_of_le_of_lt hz.2 hb⟩
  have hj : ExactJob 4 hw' prm' X := h'.exactJob hbox
  obtain ⟨exact, f1, f2, -, f4⟩ := C64_enough_room hj hroom'.plain (by rw [hroom'.k]) hroom'.pm hroom'.tm
  refine ⟨exact, L, f1, e2, e3, f2, fun i i' p row row' hp hp' hr hr' => ?_⟩
  obtain ⟨r, a1, a2, a3⟩ := e4 i p hp
  obtain ⟨r', b1, b2, b3⟩ := f4 i' p hp'
  rw [hr.unique a1, hr'.unique b1]
  exact same_sites (e3.trans f2.symm) hp hp' a2 a3 b2
    (b3 (Margins.general (fun v hv => input_box hX v (f2.mem_iff.mp hv)) hp'
      (((hm.perm f2.symm) i' p hp').mono (by norm_num) (by norm_num))))

end

/-- four points with coordinates in tenths; none is a `float` but the halves -/
def tenths : List (Pt ℚ) :=
  [⟨1/10, 7/10, 2/5⟩, ⟨7/10, 1/10, 9/10⟩, ⟨2/5, 4/5, 4/5⟩, ⟨9/10, 2/5, 3/5⟩]

theorem tenths_input : InputOK tenths := by
  intro p hp
  simp only [tenths, List.mem_cons, List.not_mem_nil, or_false] at hp
  rcases hp with rfl | rfl | rfl | rfl <;> norm_num

set_option maxRecDepth 100000 in
theorem tenths_margins : AllMarginsBy 2 tenths :=
  (allMarginsB_sound (by decide +kernel)).margins two_pos (input_box tenths_input)

/-- the first coordinate is changed when it is stored -/
example : rnd b32 (1 / 10) ≠ 1 / 10 := by decide +kernel

example : ∃ (out : TessOut F32) (L : List (Pt ℚ)),
    tesellateCpu 4 8 ⟨3, 3, 9, 14, 0, 0, false, false⟩ (tenths.map storePt) = .ok out ∧
    out.xyz = L.map storePt ∧ L.Perm tenths ∧
    ∀ i p, L[i]? = some p → ∃ row, RowIs out.dnn i row ∧ ExactRow L i p row := by
  obtain ⟨out, L, h1, h2, h3, h4⟩ := C71_enough_room (hw := 8) (prm := ⟨3, 3, 9, 14, 0, 0, false, false⟩)
    ⟨by decide, by decide, by decide, by decide, by decide⟩ tenths_input tenths_margins
    ⟨by decide, by decide, by decide, rfl⟩
  exact ⟨out, L, h1, h2, h3, fun i p hp => by obtain ⟨row, g1, -, g2⟩ := h4 i p hp; exact ⟨row, g1, g2⟩⟩

/-- recompute from one candidate -/
example : ∃ (out : TessOut F32) (L : List (Pt ℚ)),
    tesellateCpu 4 8 ⟨1, 3, 9, 14, 0, 0, false, true⟩ (tenths.map storePt) = .ok out ∧
    out.xyz = L.map storePt ∧ L.Perm tenths ∧
    ∀ i p, L[i]? = some p → ∃ row, RowIs out.dnn i row ∧ ExactRow L i p row := by
  obtain ⟨out, L, h1, h2, h3, h4⟩ := C71_recompute (hw := 8) (prm := ⟨1, 3, 9, 14, 0, 0, false, true⟩)
    ⟨by decide, by decide, by decide, by decide, by decide⟩ tenths_input tenths_margins (by decide) rfl
    (by decide) (by decide)
  exact ⟨out, L, h1, h2, h3, fun i p hp => by obtain ⟨row, g1, -, g2⟩ := h4 i p hp; exact ⟨row, g1, g2⟩⟩

end Votess
