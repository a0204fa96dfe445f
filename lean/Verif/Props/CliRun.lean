import Verif.Props.Cli
import Verif.Props.TessExamples
/-!
# C60 — which point a printed line is about

The program prints one line per point, in the order of the points after sorting by grid
cell, and numbers them in that order.  The sorted points themselves are not printed.
-/
namespace Votess
set_option linter.unusedSectionVars false

section any
variable {F D : Type} [FP F D]

/-- C60: points given in ascending order of their cells are left as they are, so that rows
and numbers refer to the caller's order. -/
theorem C60_ordered_input [Inhabited F] {nb : Nat} {gr : Int} {xyz : List (Pt F)} {S : Sorted F}
    (h : xyzSort nb gr xyz = .ok S)
    (hid : ∀ p ∈ xyz, ∀ c, cellId gr p = .ok c → 0 ≤ c ∧ c < 256 ^ nb)
    (hord : xyz.Pairwise fun p q => ∀ a b, cellId gr p = .ok a → cellId gr q = .ok b → a ≤ b) :
    S.xyz = xyz := by
  obtain ⟨ids, h1, h2, h3, h4⟩ := xyzSort_eq_ok h
  obtain ⟨z1, -, z3⟩ := mapM_ok_zip h1
  have hr := ids_of_forall h1 hid
  have hfix : buckets nb 0 (ids.zip xyz) = ids.zip xyz := by
    apply sorted_unique
    · exact radix_sorted nb _ hr
    · have hp : ((ids.zip xyz).map (·.2)).Pairwise
          (fun p q => ∀ a b, cellId gr p = .ok a → cellId gr q = .ok b → a ≤ b) := by
        rw [z1]; exact hord
      rw [List.pairwise_map] at hp
      refine hp.imp_of_mem ?_
      intro a b ha hb hab
      exact hab a.1 b.1 (z3 a ha) (z3 b hb)
    · intro c; exact buckets_stable _ _ _ _
  rw [h2, hfix, z1]

end any

section exact
variable {K : Type} [Field K] [LinearOrder K] [IsStrictOrderedRing K] [FloorRing K] [Inhabited K]

theorem CorrectRow.ne_nil {xyz : List (Pt K)} {i : Nat} {p q : Pt K} {row : List Int}
    (h : CorrectRow xyz i p row) (hp : p ∈ xyz) (hq : q ∈ xyz) (hqb : InUnitBox q) (hne : q ≠ p) :
    row ≠ [] := by
  rintro rfl
  have h1 : VoronoiCell p (sitesOf xyz []) q := ⟨hqb, by simp [sitesOf]⟩
  have h2 := ((h.cell q).mp h1).2 q hq
  have h3 : sqDist q q = 0 := by unfold sqDist; ring
  rw [h3] at h2
  apply hne
  unfold sqDist at h2
  have hx := sq_nonneg (q.x - p.x)
  have hy := sq_nonneg (q.y - p.y)
  have hz := sq_nonneg (q.z - p.z)
  have ex : (q.x - p.x) ^ 2 = 0 := by nlinarith
  have ey : (q.y - p.y) ^ 2 = 0 := by nlinarith
  have ez : (q.z - p.z) ^ 2 = 0 := by nlinarith
  have gx := pow_eq_zero_iff (n := 2) (by norm_num) |>.mp ex
  have gy := pow_eq_zero_iff (n := 2) (by norm_num) |>.mp ey
  have gz := pow_eq_zero_iff (n := 2) (by norm_num) |>.mp ez
  obtain ⟨qx, qy, qz⟩ := q
  obtain ⟨px, py, pz⟩ := p
  simp only at gx gy gz
  rw [sub_eq_zero.mp gx, sub_eq_zero.mp gy, sub_eq_zero.mp gz]

/-- C60: in exact arithmetic, for points in the box at two or more different places, if the
(suppressed) report counts no cell without security radius — or `k ≥ n-1` and no failures — the
program returns 0 and prints one line per point: line `i` is a correct neighbour list of point `i`
in grid order, with points numbered in grid order. -/
theorem C60_printed_lines {nb hw : Nat} {openFile : Txt → Option Txt} {num : Txt → Option (K × Txt)}
    {argv : List Txt} {txt : Txt} {pts : List (Pt K)} {prm : Params} {S : Sorted K}
    {out : TessOut K} (hf : NumbersFit (getopt argv))
    (hi : (lastValue 'i' (getopt argv)).getD [] ≠ [])
    (ho : openFile ((lastValue 'i' (getopt argv)).getD []) = some txt)
    (hp : filePoints num (linesOf txt) = some pts)
    (hprm : prm = cliParams (getopt argv) pts.length) (hjob : ExactJob nb hw prm pts)
    (hr : Opt.flag 'r' ∉ getopt argv) (hs : xyzSort nb prm.gr pts = .ok S)
    (htwo : ∃ p ∈ pts, ∃ q ∈ pts, p ≠ q)
    (hout : tesellateCpu nb hw prm pts = .ok out)
    (hgood : out.report.srNotReached = 0 ∨ (pts.length - 1 ≤ prm.k.toNat ∧
      out.report.infBoundary = 0 ∧ out.report.pOverflow = 0 ∧ out.report.tOverflow = 0)) :
    ∃ ts, cliMain nb hw openFile num argv
        = .ok ⟨0, (getopt argv).filterMap msgOf, some (some ts)⟩ ∧
      (tokLines ts).length = pts.length ∧
      ∀ i p row, S.xyz[i]? = some p → (tokLines ts)[i]? = some row →
        CorrectRow S.xyz i p row ∧ (GeneralAt S.xyz i p → ExactRow S.xyz i p row) := by
  subst hprm
  have hrec : (cliParams (getopt argv) pts.length).useRecompute = false := by
    simp [cliParams, hr]
  have hplain := hjob.job.plain hs hrec
  have hperm := C01_sort_permutes nb _ pts S hs
  have hlen : S.xyz.length = pts.length := hperm.length_eq
  rw [C45_run hf hi ho hp]
  generalize hP : cliParams (getopt argv) pts.length = prm at *
  set rows := (List.range S.xyz.length).map (rowOf S prm.gr prm.args) with hrows
  have hdnn : out.dnn = getDnn rows := by
    rw [hout] at hplain; cases hplain; rfl
  have hcert : ∀ i, i < S.xyz.length → Certain S prm.gr prm.args i :=
    fun i h => hjob.certain hs hrec hout hgood h
  have hcor : ∀ i p, S.xyz[i]? = some p → CorrectRow S.xyz i p (rowOf S prm.gr prm.args i) ∧
      (GeneralAt S.xyz i p → ExactRow S.xyz i p (rowOf S prm.gr prm.args i)) := by
    intro i p hp
    have hi := (List.getElem?_eq_some_iff.mp hp).1
    exact ⟨C24_row hjob hs hjob.job.size hp (hcert i hi), C26_row hjob hs hjob.job.size hp (hcert i hi)⟩
  have hns : NoSentinel rows := by
    intro r hr v hv
    obtain ⟨i, -, rfl⟩ := List.mem_map.mp hr
    exact rowOf_noSentinel S prm.gr prm.args i v hv
  have hne : ∀ r ∈ rows, r ≠ [] := by
    intro r hr
    obtain ⟨i, hi, rfl⟩ := List.mem_map.mp hr
    have hi := List.mem_range.mp hi
    obtain ⟨a, ha, b, hb, hab⟩ := htwo
    have hpi : S.xyz[i]? = some S.xyz[i] := List.getElem?_eq_getElem hi
    have hmem : S.xyz[i] ∈ S.xyz := List.getElem_mem hi
    by_cases hq : a = S.xyz[i]
    · exact (hcor i _ hpi).1.ne_nil hmem (hperm.mem_iff.mpr hb)
        (inUnitBox_of_inBox (hjob.box b hb)) (fun e => hab (hq.trans e.symm))
    · exact (hcor i _ hpi).1.ne_nil hmem (hperm.mem_iff.mpr ha)
        (inUnitBox_of_inBox (hjob.box a ha)) hq
  have hlr : rows.length = S.xyz.length := by simp [hrows]
  obtain ⟨a, ha, -⟩ := htwo
  have hpos : 0 < pts.length := List.length_pos_of_mem ha
  obtain ⟨r0, rs, hcons⟩ : ∃ r rs, rows = r :: rs := by
    cases hc : rows with
    | nil => rw [hc] at hlr; simp at hlr; omega
    | cons r rs => exact ⟨r, rs, rfl⟩
  obtain ⟨ts, t1, t2⟩ := C41_lines r0 rs (by rw [← hcons]; exact hns)
    (fun r hr => hne r (by rw [hcons]; exact List.mem_cons_of_mem _ hr))
  rw [← hcons] at t1 t2
  have hlist : out.dnn.list ≠ [] := by
    rw [hdnn, getDnn_list _ hns]
    intro e
    have : r0 ≠ [] := hne r0 (by rw [hcons]; simp)
    rw [hcons, List.flatten_cons, List.append_eq_nil_iff] at e
    exact this e.1
  refine ⟨ts, ?_, by rw [t2, hlr, hlen], ?_⟩
  · rw [hout]
    simp only [bind_ok]
    unfold Dnn.print
    rw [if_neg hlist, hdnn, t1]
    rfl
  · intro i p row h1 h2
    rw [t2] at h2
    have hi := (List.getElem?_eq_some_iff.mp h1).1
    have : row = rowOf S prm.gr prm.args i := by
      rw [hrows] at h2
      simp [hi] at h2
      exact h2.symm
    rw [this]
    exact hcor i p h1

end exact

/-! ### The order matters -/

/-- reads one digit, as a number of eighths -/
def eighths (s : Txt) : Option (ℚ × Txt) :=
  match s.dropWhile isSpaceC with
  | c :: cs => (digitVal c).map fun d => ((d : ℚ) / 8, cs)
  | [] => none

/-- three points on a line, the middle one first -/
def lineFile : Txt := "3 4 4\n1 4 4\n7 4 4\n".toList

/-- options for it -/
def lineArgv : List Txt := ["-g", "4", "-k", "2", "-i", "pts"].map String.toList

/-- the points of the file -/
def linePts : List (Pt ℚ) := [⟨3/8, 1/2, 1/2⟩, ⟨1/8, 1/2, 1/2⟩, ⟨7/8, 1/2, 1/2⟩]

theorem linePts_eq : filePoints eighths (linesOf lineFile) = some linePts := by decide +kernel

theorem lineOpts : getopt lineArgv = [.value 'g' "4".toList, .value 'k' "2".toList,
    .value 'i' "pts".toList] := by decide

theorem lineFit : NumbersFit (getopt lineArgv) := by
  rw [lineOpts]
  intro e _ a ha
  simp only [List.mem_cons, List.not_mem_nil, or_false, Opt.value.injEq] at ha
  rcases ha with h | h | h <;> (rw [h.2]; decide)

theorem lineParams : cliParams (getopt lineArgv) linePts.length = ⟨2, 4, 32, 32, 0, 0, false, false⟩ := by
  decide

set_option maxRecDepth 50000 in
theorem lineRun : ∃ out, tesellateCpu 4 1 ⟨2, 4, 32, 32, 0, 0, false, false⟩ linePts = .ok out ∧
    out.xyz = [⟨1/8, 1/2, 1/2⟩, ⟨3/8, 1/2, 1/2⟩, ⟨7/8, 1/2, 1/2⟩] ∧
    out.dnn = getDnn [[1], [0, 2], [1]] ∧ out.report.infBoundary = 0 ∧ out.report.pOverflow = 0 ∧
    out.report.tOverflow = 0 := by
  have : (tesellateCpu 4 1 ⟨2, 4, 32, 32, 0, 0, false, false⟩ linePts).map
      (fun o => (o.xyz, o.dnn, o.report.infBoundary, o.report.pOverflow, o.report.tOverflow))
      = .ok ([⟨1/8, 1/2, 1/2⟩, ⟨3/8, 1/2, 1/2⟩, ⟨7/8, 1/2, 1/2⟩], getDnn [[1], [0, 2], [1]], 0, 0, 0) := by
    unfold tesellateCpu
    rw [xyzSort_eq]
    decide +kernel
  obtain ⟨out, h1, h2⟩ := exceptMap_ok this
  simp only [Prod.mk.injEq] at h2
  exact ⟨out, h1, h2.1, h2.2.1, h2.2.2.1, h2.2.2.2.1, h2.2.2.2.2⟩

theorem line_row_wrong : ¬ CorrectRow linePts 0 ⟨3/8, 1/2, 1/2⟩ [1] ∧
    ¬ ExactRow linePts 0 ⟨3/8, 1/2, 1/2⟩ [1] := by
  constructor
  · intro h
    have := (h.cell ⟨7/8, 1/2, 1/2⟩).mp (by
      refine ⟨?_, ?_⟩
      · unfold InUnitBox; norm_num
      · intro q hq
        simp [sitesOf, linePts] at hq
        subst hq
        unfold sqDist; norm_num)
    have := this.2 ⟨7/8, 1/2, 1/2⟩ (by simp [linePts])
    unfold sqDist at this
    norm_num at this
  · intro h
    have := (h 2).mpr ⟨by decide, ⟨7/8, 1/2, 1/2⟩, rfl, ⟨5/8, 1/2, 1/2⟩, ?_, ?_⟩
    · simp at this
    · refine ⟨by unfold InUnitBox; norm_num, ?_⟩
      intro q hq
      simp only [linePts, List.mem_cons, List.not_mem_nil, or_false] at hq
      rcases hq with rfl | rfl | rfl <;> (unfold sqDist; norm_num)
    · refine ⟨by unfold InUnitBox; norm_num, ?_⟩
      intro q hq
      simp only [linePts, List.mem_cons, List.not_mem_nil, or_false] at hq
      rcases hq with rfl | rfl | rfl <;> (unfold sqDist; norm_num)

/-- C60: read in the order of the file, the printed lines can be wrong: here the first line says
that the first point has one neighbour, but its cell is bounded by two others. -/
theorem C60_file_order_wrong : ∃ (argv : List Txt) (txt : Txt) (pts : List (Pt ℚ)) (p : Pt ℚ)
    (ts : List Tok) (row : List Int),
    filePoints eighths (linesOf txt) = some pts ∧
    cliMain 4 1 (fun _ => some txt) eighths argv = .ok ⟨0, [], some (some ts)⟩ ∧
    (tokLines ts)[0]? = some row ∧ pts[0]? = some p ∧ ¬ CorrectRow pts 0 p row ∧
    ¬ ExactRow pts 0 p row := by
  obtain ⟨out, h1, -, h3, -⟩ := lineRun
  refine ⟨lineArgv, lineFile, linePts, ⟨3/8, 1/2, 1/2⟩,
    [.item 1, .sep, .item 0, .item 2, .sep, .item 1], [1], linePts_eq, ?_, rfl, rfl, ?_, ?_⟩
  · rw [C45_run (txt := lineFile) (pts := linePts) lineFit (by rw [lineOpts]; decide) rfl linePts_eq,
      lineParams, h1]
    simp only [bind_ok, h3, lineOpts]
    rfl
  · exact line_row_wrong.1
  · exact line_row_wrong.2

/-- the hypotheses of `C60_printed_lines` hold for this run -/
example : ∃ ts, cliMain 4 1 (fun _ => some lineFile) eighths lineArgv
      = .ok ⟨0, (getopt lineArgv).filterMap msgOf, some (some ts)⟩ ∧ (tokLines ts).length = 3 := by
  obtain ⟨out, h1, -, -, h4, h5, h6⟩ := lineRun
  have hjob : ExactJob 4 1 ⟨2, 4, 32, 32, 0, 0, false, false⟩ linePts :=
    ⟨by decide, by decide, inBox_all (by decide +kernel), by decide, by decide, by decide, by decide,
      by decide, by decide, by decide⟩
  obtain ⟨S, hs⟩ := hjob.sorts
  obtain ⟨ts, t1, t2, -⟩ := C60_printed_lines (openFile := fun _ => some lineFile) (argv := lineArgv)
    lineFit (by rw [lineOpts]; decide) rfl linePts_eq lineParams.symm hjob (by rw [lineOpts]; decide) hs
    ⟨_, by simp [linePts]; exact Or.inl rfl, ⟨1/8, 1/2, 1/2⟩, by simp [linePts], by norm_num⟩ h1
    (Or.inr ⟨by decide, h4, h5, h6⟩)
  exact ⟨ts, t1, t2⟩

/-- points in grid order, in three different cells -/
example : ∃ S, xyzSort 4 4 ([⟨1/8, 1/2, 1/2⟩, ⟨3/8, 1/2, 1/2⟩, ⟨7/8, 1/2, 1/2⟩] : List (Pt ℚ)) = .ok S ∧
    S.xyz = [⟨1/8, 1/2, 1/2⟩, ⟨3/8, 1/2, 1/2⟩, ⟨7/8, 1/2, 1/2⟩] := by
  have hb := inBox_all (xyz := [⟨1/8, 1/2, 1/2⟩, ⟨3/8, 1/2, 1/2⟩, ⟨7/8, 1/2, 1/2⟩]) (by decide +kernel)
  obtain ⟨S, hs⟩ := (C05_unit_box_safe 4 4 _ (by decide) hb).2
  have c1 : cellId 4 (⟨1/8, 1/2, 1/2⟩ : Pt ℚ) = .ok 40 := by decide +kernel
  have c2 : cellId 4 (⟨3/8, 1/2, 1/2⟩ : Pt ℚ) = .ok 41 := by decide +kernel
  have c3 : cellId 4 (⟨7/8, 1/2, 1/2⟩ : Pt ℚ) = .ok 43 := by decide +kernel
  refine ⟨S, hs, C60_ordered_input hs ?_ ?_⟩
  · intro p hp c hc
    obtain ⟨c', h1, h2, h3⟩ := cellId_range 4 (by decide) p (hb p hp)
    rw [hc] at h1; cases h1
    exact ⟨h2, by omega⟩
  · simp only [List.pairwise_cons, List.mem_cons, List.not_mem_nil, or_false, forall_eq_or_imp,
      forall_eq, c1, c2, c3, Except.ok.injEq, List.Pairwise.nil, false_imp_iff, implies_true, and_true]
    refine ⟨⟨?_, ?_⟩, ?_⟩ <;> (rintro a b rfl rfl; decide)

end Votess
