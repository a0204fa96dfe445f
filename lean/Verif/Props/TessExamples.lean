import Verif.Props.Tiny
/-!
# Concrete calls

Instances of the hypotheses used for whole calls, over the rational numbers, and a counterexample to
the guarantee the README gives for recompute.
-/
namespace Votess

theorem exceptMap_ok {α β : Type} {m : M α} {f : α → β} {b : β} (h : m.map f = .ok b) :
    ∃ a, m = .ok a ∧ f a = b := by
  cases m with
  | error e => cases h
  | ok a => refine ⟨a, rfl, ?_⟩; injection h

theorem inBox_all {xyz : List (Pt ℚ)}
    (h : xyz.all (fun p => decide (0 ≤ p.x ∧ p.x < 1 ∧ 0 ≤ p.y ∧ p.y < 1 ∧ 0 ≤ p.z ∧ p.z < 1)) = true) :
    ∀ p ∈ xyz, InBox p := by
  intro p hp
  have := List.all_eq_true.mp h p hp
  simp only [decide_eq_true_eq] at this
  obtain ⟨h1, h2, h3, h4, h5, h6⟩ := this
  exact ⟨⟨h1, h2⟩, ⟨h3, h4⟩, h5, h6⟩

/-- two points, not in grid order -/
def exXyz : List (Pt ℚ) := [⟨3/4, 1/2, 1/2⟩, ⟨1/4, 1/2, 1/2⟩]

/-- `k = 1`, grid resolution 2, one thread -/
def exPrm : Params := ⟨1, 2, 10, 16, 1, 1, false, false⟩

/-- other parameters for the same points: `k = 2`, grid resolution 1, 3 threads, chunks of 1 -/
def exPrm' : Params := ⟨2, 1, 7, 12, 3, 1, true, false⟩

theorem exJob : ExactJob 4 1 exPrm exXyz :=
  ⟨by decide, by decide, inBox_all (by decide +kernel), by decide, by decide, by decide, by decide,
    by decide, by decide, by decide⟩

theorem exJob' : ExactJob 4 1 exPrm' cellXyz :=
  ⟨by decide, by decide, inBox_all (by decide +kernel), by decide, by decide, by decide, by decide,
    by decide, by decide, by decide⟩

set_option maxRecDepth 20000 in
theorem exRun : ∃ out, tesellateCpu 4 1 exPrm exXyz = .ok out ∧ out.xyz = cellXyz ∧
    out.dnn = getDnn [[1], [0]] ∧ out.report = ⟨2, 0, 0, 0, 0, 0, 0⟩ := by
  have : (tesellateCpu 4 1 exPrm exXyz).map (fun o => (o.xyz, o.dnn, o.report))
      = .ok (cellXyz, getDnn [[1], [0]], ⟨2, 0, 0, 0, 0, 0, 0⟩) := by
    unfold tesellateCpu
    rw [xyzSort_eq]
    decide +kernel
  obtain ⟨out, h1, h2⟩ := exceptMap_ok this
  injection h2 with h2 h3
  injection h3 with h3 h4
  exact ⟨out, h1, h2, h3, h4⟩

set_option maxRecDepth 20000 in
theorem exRun' : ∃ out, tesellateCpu 4 1 exPrm' cellXyz = .ok out ∧ out.xyz = cellXyz ∧
    out.dnn = getDnn [[1], [0]] ∧ out.report = ⟨2, 0, 0, 0, 0, 0, 0⟩ := by
  have : (tesellateCpu 4 1 exPrm' cellXyz).map (fun o => (o.xyz, o.dnn, o.report))
      = .ok (cellXyz, getDnn [[1], [0]], ⟨2, 0, 0, 0, 0, 0, 0⟩) := by
    unfold tesellateCpu
    rw [xyzSort_eq]
    decide +kernel
  obtain ⟨out, h1, h2⟩ := exceptMap_ok this
  injection h2 with h2 h3
  injection h3 with h3 h4
  exact ⟨out, h1, h2, h3, h4⟩

/-- C24, C25, C26 apply: `k ≥ n-1` and no errors -/
example : ∃ (out : TessOut ℚ) (row : List Int), tesellateCpu 4 1 exPrm exXyz = .ok out ∧
    RowIs out.dnn 0 row ∧ CorrectRow cellXyz 0 ⟨1/4, 1/2, 1/2⟩ row ∧
    ExactRow cellXyz 0 ⟨1/4, 1/2, 1/2⟩ row := by
  obtain ⟨out, h1, h2, -, h4⟩ := exRun
  obtain ⟨out', e1, -, e2⟩ := C24_tessellation exJob rfl
  rw [h1] at e1; cases e1
  obtain ⟨row, r1, r2, r3⟩ := e2 (Or.inr (by rw [h4]; decide)) 0 ⟨1/4, 1/2, 1/2⟩ (by rw [h2]; rfl)
  rw [h2] at r2 r3
  exact ⟨out, row, h1, r1, r2, r3 cell_general⟩

/-- C53 applies to the two calls: different order of the points, different parameters -/
example : exXyz.Perm cellXyz ∧ exXyz ≠ cellXyz ∧ ∃ out out' : TessOut ℚ,
    tesellateCpu 4 1 exPrm exXyz = .ok out ∧ tesellateCpu 4 1 exPrm' cellXyz = .ok out' ∧
    ∀ row row', RowIs out.dnn 0 row → RowIs out'.dnn 0 row' → ∀ q,
      q ∈ sitesOf out.xyz row ↔ q ∈ sitesOf out'.xyz row' := by
  obtain ⟨out, h1, h2, -, h4⟩ := exRun
  obtain ⟨out', g1, g2, -, g4⟩ := exRun'
  have hperm : exXyz.Perm cellXyz := List.Perm.swap _ _ _
  refine ⟨hperm, by simp [exXyz, cellXyz]; norm_num, out, out', h1, g1, fun row row' hr hr' q => ?_⟩
  exact C53_tessellation hperm exJob rfl exJob' rfl h1 g1 (Or.inr (by rw [h4]; decide))
    (Or.inr (by rw [g4]; decide)) (p := ⟨1/4, 1/2, 1/2⟩) (by rw [h2]; rfl) (by rw [g2]; rfl)
    (by rw [h2]; exact cell_general) hr hr' q

/-- C32, C33, C39: the parameters are in range, also with chunks, threads and recompute -/
example : JobOK 4 1 exPrm exXyz ∧ JobOK 4 1 exPrm' cellXyz ∧
    ∃ S, xyzSort 4 exPrm.gr exXyz = .ok S ∧ 2 ≤ S.xyz.length ∧ S.xyz.length ≤ 65536 ∧
      PlanesBounded S exPrm.gr (max exPrm.args.k (S.xyz.length - 1)) := by
  obtain ⟨S, hs⟩ := exJob.sorts
  have hl : S.xyz.length = 2 := (C01_sort_permutes 4 _ _ S hs).length_eq
  refine ⟨exJob.job, exJob'.job, S, hs, by omega, by omega, ?_⟩
  exact planesBounded_small (exJob.job.grid hs) (by rw [hl]; decide)

/-! ### recompute does not always produce Voronoi cells -/

/-- five points; the second hides the third from the first -/
def badXyz : List (Pt ℚ) :=
  [⟨1/2, 1/2, 1/2⟩, ⟨2/5, 1/2, 1/2⟩, ⟨3/10, 1/2, 1/2⟩, ⟨1/2, 9/10, 1/2⟩, ⟨1/2, 1/10, 1/2⟩]

/-- `k = 2`, room for 8 planes, recompute -/
def badPrm : Params := ⟨2, 1, 8, 16, 1, 1, false, true⟩

theorem badJob (pm : Int) (ur : Bool) (h : 6 ≤ pm ∧ pm ≤ 255) :
    ExactJob 4 1 ⟨2, 1, pm, 16, 1, 1, false, ur⟩ badXyz :=
  ⟨by simp, by simp, inBox_all (by decide +kernel), by simp, by simp, h.1, h.2,
    by simp, by simp, Or.inl (by simp)⟩

set_option maxRecDepth 20000 in
theorem badRun : ∃ out, tesellateCpu 4 1 badPrm badXyz = .ok out ∧ out.xyz = badXyz ∧
    out.dnn = getDnn [[1, 2, 3, 4], [2, 0, 3, 4], [1, 0, 3, 4], [0, 1, 2, 4], [0, 1, 2, 3]] ∧
    out.report = ⟨5, 0, 0, 0, 5, 0, 0⟩ := by
  have : (tesellateCpu 4 1 badPrm badXyz).map (fun o => (o.xyz, o.dnn, o.report))
      = .ok (badXyz, getDnn [[1, 2, 3, 4], [2, 0, 3, 4], [1, 0, 3, 4], [0, 1, 2, 4], [0, 1, 2, 3]],
        ⟨5, 0, 0, 0, 5, 0, 0⟩) := by
    unfold tesellateCpu
    rw [xyzSort_eq]
    decide +kernel
  obtain ⟨out, h1, h2⟩ := exceptMap_ok this
  injection h2 with h2 h3
  injection h3 with h3 h4
  exact ⟨out, h1, h2, h3, h4⟩

/-- C37: README says that `use_recompute` "will ensure all points are valid voronoi cells".  It does
not: here the planes of all five cells overflow in the last round (`k = n-1`), the loop stops, and the
plain list of all other points is returned; the cells of points 0 and 2 do not touch. -/
theorem C37_readme_false : ∃ (prm : Params) (xyz : List (Pt ℚ)) (out : TessOut ℚ) (row : List Int),
    ExactJob 4 1 prm xyz ∧ prm.useRecompute = true ∧ tesellateCpu 4 1 prm xyz = .ok out ∧
    out.xyz = xyz ∧ RowIs out.dnn 0 row ∧ (2 : Int) ∈ row ∧
    ¬ Touch xyz ⟨1/2, 1/2, 1/2⟩ ⟨3/10, 1/2, 1/2⟩ ∧ xyz[0]? = some ⟨1/2, 1/2, 1/2⟩ ∧
    xyz[2]? = some ⟨3/10, 1/2, 1/2⟩ ∧ ¬ CorrectRow xyz 0 ⟨1/2, 1/2, 1/2⟩ row := by
  obtain ⟨out, h1, h2, h3, -⟩ := badRun
  have hnt : ¬ Touch badXyz ⟨1/2, 1/2, 1/2⟩ ⟨3/10, 1/2, 1/2⟩ := by
    rintro ⟨x, hx, hx'⟩
    have a1 := hx.2 ⟨2/5, 1/2, 1/2⟩ (by simp [badXyz])
    have a2 := hx'.2 ⟨2/5, 1/2, 1/2⟩ (by simp [badXyz])
    simp only [sqDist] at a1 a2
    nlinarith
  have hrow : RowIs out.dnn 0 [1, 2, 3, 4] := by
    rw [h3]
    exact rowIs_getDnn (by unfold NoSentinel; decide) rfl (by decide)
  refine ⟨badPrm, badXyz, out, [1, 2, 3, 4], badJob 8 true (by simp), rfl, h1, h2, hrow, by simp, hnt,
    rfl, rfl, ?_⟩
  intro hc
  obtain ⟨w, q, e1, e2, -, -, e3⟩ := hc.touch 2 (by simp)
  obtain rfl : w = 2 := by omega
  simp only [badXyz] at e2
  injection e2 with e2
  subst e2
  exact hnt e3

set_option maxRecDepth 20000 in
/-- room for more planes gives the correct result on the same points -/
example : ∃ out, tesellateCpu 4 1 { badPrm with pm := 16 } badXyz = .ok out ∧
    out.dnn = getDnn [[1, 3, 4], [2, 0, 3, 4], [1, 3, 4], [0, 1, 2], [0, 1, 2]] := by
  have : (tesellateCpu 4 1 { badPrm with pm := 16 } badXyz).map (fun o => o.dnn)
      = .ok (getDnn [[1, 3, 4], [2, 0, 3, 4], [1, 3, 4], [0, 1, 2], [0, 1, 2]]) := by
    unfold tesellateCpu
    rw [xyzSort_eq]
    decide +kernel
  exact exceptMap_ok this

/-- C38: both theorems apply to a single point -/
example : tesellateCpu 4 1 ⟨3, 2, 8, 16, 1, 1, false, true⟩ [(⟨1/2, 1/2, 1/2⟩ : Pt ℚ)] = .error .oob ∧
    tesellateCpu 4 1 ⟨0, 2, 8, 16, 1, 1, false, false⟩ [(⟨1/2, 1/2, 1/2⟩ : Pt ℚ)] = .error .oob := by
  have h : ExactJob 4 1 ⟨3, 2, 8, 16, 1, 1, false, true⟩ [(⟨1/2, 1/2, 1/2⟩ : Pt ℚ)] :=
    ⟨by decide, by decide, inBox_all (by decide +kernel), by decide, by decide, by decide, by decide,
      by decide, by decide, by decide⟩
  obtain ⟨S, hs⟩ := h.sorts
  exact ⟨C38_single_point_exact h rfl rfl,
    C38_no_candidates (S := S) (by decide) rfl (by decide) (by decide) (by decide) hs (by simp)⟩

end Votess
