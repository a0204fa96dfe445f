import Verif.Props.IeeeTess
/-!
# C68 — what rounding can do

The conditions of C67 cannot be dropped.  In exact arithmetic a clean report with all other points as
candidates means correct rows (C24), and no infinite boundary is ever reported (C27).  In single
precision three harmless looking calls do not behave like this:

* more candidates than other points, so that the search pads its rows with point 0: a point is listed
  twice, or an infinite boundary is reported, for two points with coordinates in eighths;
* four points with coordinates 1/3 and 2/3: an infinite boundary is reported;
* three points that are far from each other but nearly degenerate: a neighbour is missing in a row
  although all others are candidates and nothing is reported.
-/
namespace Votess

/-- the sort and the cells of all points, without the driver (the sort in the form of `xyzSort_eq`) -/
def floatRun (prm : Params) (L : List (Pt ℚ)) : M (Sorted F32 × List (List Int × State)) := do
  let ids ← cellIds prm.gr (L.map toF32)
  let off ← offsetTable prm.gr ((buckets 4 0 (ids.zip (L.map toF32))).map (·.1))
  let S := Sorted.mk ((buckets 4 0 (ids.zip (L.map toF32))).map (·.2)) ((buckets 4 0 (ids.zip (L.map toF32))).map (·.1)) off
  pure (S, (List.range S.xyz.length).map fun i => (rowOf S prm.gr prm.args i, stateOf S prm.gr prm.args i))

/-- the run leaves the points as they are, returns these rows, and this many cells have each flag -/
def runIs (prm : Params) (L : List (Pt ℚ)) (rows : List (List Int)) (inf pover tover : Nat) : Bool :=
  match floatRun prm L with
  | .error _ => false
  | .ok (S, rs) => decide (S.xyz = L.map toF32) && decide (rs.map (·.1) = rows) &&
      decide (rs.countP (fun r => r.2.get .error_infinite_boundary) = inf) &&
      decide (rs.countP (fun r => r.2.get .error_p_overflow) = pover) &&
      decide (rs.countP (fun r => r.2.get .error_t_overflow) = tover)

/-- what such a test says about the call -/
theorem runIs_call {hw : Nat} {prm : Params} {L : List (Pt ℚ)} {rows : List (List Int)} {inf pover tover : Nat}
    (h : FloatSizes hw prm) (hs : SafePoints prm.gr (L.map toF32)) (hr : prm.useRecompute = false)
    (ht : runIs prm L rows inf pover tover = true) :
    ∃ out : TessOut F32, tesellateCpu 4 hw prm (L.map toF32) = .ok out ∧ out.xyz = L.map toF32 ∧
      (∀ i row, rows[i]? = some row → RowIs out.dnn i row) ∧ out.report.infBoundary = inf ∧
      out.report.pOverflow = pover ∧ out.report.tOverflow = tover := by
  obtain ⟨S, out, hS, hperm, o1, o2, o3⟩ := C65_call h hs hr
  obtain ⟨out', e1, e2⟩ := C39_counters (safe_job h hs) hS hr
  rw [o1] at e1; cases e1
  obtain ⟨-, c2, -, -, c3, c4, -⟩ := e2
  simp only at c2 c3 c4
  have hrun : floatRun prm L = .ok (S, (List.range S.xyz.length).map fun i =>
      (rowOf S prm.gr prm.args i, stateOf S prm.gr prm.args i)) := by
    have e := hS
    rw [xyzSort_eq] at e
    unfold floatRun
    cases h1 : cellIds prm.gr (L.map toF32) with
    | error e' => rw [h1] at e; cases e
    | ok ids =>
      rw [h1] at e
      simp only [bind_ok] at e ⊢
      cases h2 : offsetTable prm.gr ((buckets 4 0 (ids.zip (L.map toF32))).map (·.1)) with
      | error e' => rw [h2] at e; cases e
      | ok off =>
        rw [h2] at e
        simp only [bind_ok] at e ⊢
        injection e with e
        subst e; rfl
  unfold runIs at ht
  rw [hrun] at ht
  simp only [Bool.and_eq_true, decide_eq_true_eq, List.map_map, List.countP_map, Function.comp_def] at ht
  obtain ⟨⟨⟨⟨t1, t2⟩, t3⟩, t4⟩, t5⟩ := ht
  refine ⟨out, o1, o2.trans t1, ?_, c2.trans t3, c3.trans t4, c4.trans t5⟩
  intro i row hrow
  rw [← t2, List.getElem?_map] at hrow
  cases hi : (List.range S.xyz.length)[i]? with
  | none => rw [hi] at hrow; cases hrow
  | some j =>
    rw [hi] at hrow
    have hlt := (List.getElem?_eq_some_iff.mp hi).1
    rw [List.length_range] at hlt
    rw [List.getElem?_range hlt] at hi
    cases hi
    simp only [Option.map_some, Option.some.injEq] at hrow
    rw [← hrow]
    exact o3 i (by rw [← hperm.length_eq]; exact hlt)

/-- one cell, room for everything -/
def onePrm (k : Int) : Params := ⟨k, 1, 20, 36, 1, 0, false, false⟩

theorem onePrm_sizes {k : Int} (h1 : 1 ≤ k) (h2 : k < 65536) (hw : Nat) : FloatSizes hw (onePrm k) :=
  ⟨by simp [onePrm], ⟨h1, h2⟩, by simp [onePrm], by simp [onePrm], Or.inl (by simp [onePrm])⟩

theorem safe_of_bound {gr : Int} {L : List (Pt ℚ)} (h : ∀ v ∈ L, (0 ≤ v.x ∧ v.x ≤ 1 - 1 / 2 ^ 23) ∧
    (0 ≤ v.y ∧ v.y ≤ 1 - 1 / 2 ^ 23) ∧ (0 ≤ v.z ∧ v.z ≤ 1 - 1 / 2 ^ 23)) : SafePoints gr (L.map toF32) := by
  refine Or.inl fun p hp => ?_
  obtain ⟨v, hv, rfl⟩ := List.mem_map.mp hp
  exact ⟨v.x, v.y, v.z, rfl, (h v hv).1, (h v hv).2.1, (h v hv).2.2⟩

/-- two points with coordinates in eighths -/
def twoPts : List (Pt ℚ) := [⟨1/4, 7/8, 1/4⟩, ⟨1/4, 1/8, 3/8⟩]

/-- two others -/
def twoPts' : List (Pt ℚ) := [⟨1/2, 7/8, 1/2⟩, ⟨3/4, 1/2, 3/4⟩]

/-- the `float` next to 1/3 -/
def third : ℚ := 11184811 / 2 ^ 25

/-- four points with coordinates 1/3 and 2/3 -/
def thirds : List (Pt ℚ) := [⟨2 * third, third, third⟩, ⟨third, third, 2 * third⟩,
  ⟨third, 2 * third, 2 * third⟩, ⟨2 * third, 2 * third, third⟩]

/-- three points, nearly degenerate -/
def nearPts : List (Pt ℚ) := [⟨3/8, 3/4, 1/8⟩, ⟨7/8, 1/4, 5/8⟩, ⟨3/8, 5/8, 8388609/33554432⟩]

set_option maxRecDepth 100000 in
theorem twoPts_run : runIs (onePrm 2) twoPts [[1], [0, 0]] 0 0 0 = true := by decide +kernel

set_option maxRecDepth 100000 in
theorem twoPts'_run : runIs (onePrm 2) twoPts' [[1], [0, 0]] 1 0 0 = true := by decide +kernel

set_option maxRecDepth 100000 in
theorem thirds_run : runIs (onePrm 3) thirds [[3, 1], [2, 0], [1, 3, 0], [0, 2, 1]] 1 0 0 = true := by
  decide +kernel

set_option maxRecDepth 100000 in
theorem nearPts_run : runIs (onePrm 2) nearPts [[2, 1], [2], [0, 1]] 0 0 0 = true := by decide +kernel

/-- C68: two points and two candidates each, in single precision: the call reports nothing wrong, and
the row of the second point names the first point twice.  In exact arithmetic no row has repetitions
(C25). -/
theorem C68_repeated (hw : Nat) : ∃ out : TessOut F32,
    tesellateCpu 4 hw (onePrm 2) (twoPts.map toF32) = .ok out ∧ out.xyz = twoPts.map toF32 ∧
      out.report.infBoundary = 0 ∧ out.report.pOverflow = 0 ∧ out.report.tOverflow = 0 ∧
      RowIs out.dnn 1 [0, 0] := by
  obtain ⟨out, h1, h2, h3, h4, h5, h6⟩ := runIs_call (onePrm_sizes (k := 2) (by decide) (by decide) hw)
    (safe_of_bound (by decide +kernel)) rfl twoPts_run
  exact ⟨out, h1, h2, h4, h5, h6, h3 1 _ rfl⟩

/-- C68: two other points, again two candidates each: an infinite boundary is reported.  In exact
arithmetic this never happens (C27). -/
theorem C68_padding_infinite (hw : Nat) : ∃ out : TessOut F32,
    tesellateCpu 4 hw (onePrm 2) (twoPts'.map toF32) = .ok out ∧ out.report.infBoundary = 1 := by
  obtain ⟨out, h1, -, -, h4, -⟩ := runIs_call (onePrm_sizes (k := 2) (by decide) (by decide) hw)
    (safe_of_bound (by decide +kernel)) rfl twoPts'_run
  exact ⟨out, h1, h4⟩

/-- C68: four points with coordinates 1/3 and 2/3, three candidates each: an infinite boundary is
reported for one of them. -/
theorem C68_infinite (hw : Nat) : ∃ out : TessOut F32,
    tesellateCpu 4 hw (onePrm 3) (thirds.map toF32) = .ok out ∧ out.report.infBoundary = 1 := by
  obtain ⟨out, h1, -, -, h4, -⟩ := runIs_call (onePrm_sizes (k := 3) (by decide) (by decide) hw)
    (safe_of_bound (by decide +kernel)) rfl thirds_run
  exact ⟨out, h1, h4⟩

/-- C68: three points at distances of more than 1/6 from each other, two candidates each: the call
reports nothing wrong, but the row of the second point lacks a point whose cell touches its own, and
does not determine the cell. -/
theorem C68_missing (hw : Nat) : nearPts.Pairwise (fun p q => 1/36 < sqDist p q) ∧ ∃ out : TessOut F32,
    tesellateCpu 4 hw (onePrm 2) (nearPts.map toF32) = .ok out ∧ out.xyz = nearPts.map toF32 ∧
      out.report.infBoundary = 0 ∧ out.report.pOverflow = 0 ∧ out.report.tOverflow = 0 ∧
      RowIs out.dnn 1 [2] ∧ ¬ CorrectRow nearPts 1 ⟨7/8, 1/4, 5/8⟩ [2] ∧
      ¬ ExactRow nearPts 1 ⟨7/8, 1/4, 5/8⟩ [2] := by
  obtain ⟨out, h1, h2, h3, h4, h5, h6⟩ := runIs_call (onePrm_sizes (k := 2) (by decide) (by decide) hw)
    (safe_of_bound (by decide +kernel)) rfl nearPts_run
  refine ⟨by norm_num [nearPts, sqDist], out, h1, h2, h4, h5, h6, h3 1 _ rfl, fun h => ?_, fun h => ?_⟩
  · have hx := (h.cell ⟨1, 422212481843201/844424930131968, 0⟩).mp
      ⟨by norm_num [InUnitBox], fun q hq => ?_⟩
    · have := hx.2 ⟨3/8, 3/4, 1/8⟩ (by simp [nearPts])
      norm_num [sqDist] at this
    · rw [show sitesOf nearPts [2] = [⟨3/8, 5/8, 8388609/33554432⟩] from rfl, List.mem_singleton] at hq
      subst hq
      norm_num [sqDist]
  · have := (h 0).mpr ⟨by decide, _, rfl, ⟨1, 1/2, 0⟩, ⟨by norm_num [InUnitBox], by norm_num [nearPts, sqDist]⟩,
      by norm_num [InUnitBox], by norm_num [nearPts, sqDist]⟩
    simp at this

end Votess
