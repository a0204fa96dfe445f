import Verif.Model.Py
import Verif.Props.Args
import Verif.Props.FloatText
import Verif.Props.CliRun
/-!
# C61, C62, C63 — floating point parameters, and the Python module
-/
namespace Votess
set_option linter.unusedSectionVars false

/-! ### C61: numbers given as floating point values -/

/-- C61: a whole number below `10^6` stored in a parameter as `float` or `double` is read back
unchanged as `int`. -/
theorem C61_float_small {f : Fmt} (n : Nat) (h : n < 10 ^ 6) : readInt (showFl (.fin n : Fl f)) = some (n : Int) := by
  have := C90_whole n (by rw [abs_of_nonneg (by omega)]; omega)
  simpa [showFl] using this

/-- C61: from `10^6` on it is read back as a number from 1 to 9, the leading digit: the text is in
scientific notation and reading an `int` stops at the point or at `e`. -/
theorem C61_float_large {f : Fmt} (n : Nat) (h : 10 ^ 6 ≤ n) :
    ∃ d : Int, readInt (showFl (.fin n : Fl f)) = some d ∧ 1 ≤ d ∧ d ≤ 9 ∧ d ≠ n := by
  have hq : (10 ^ 6 : ℚ) ≤ n := by exact_mod_cast h
  obtain ⟨d, h1, -, h2, h3, h4⟩ := C90_digit (x := n) (by linarith) (.inr (by linarith))
  exact ⟨d, h1, h2, h3, by simpa using h4⟩

example : readInt (showFl (.fin 8196 : F32)) = some 8196 := by decide +kernel
example : readInt (showFl (.fin 2500000 : F64)) = some 2 := by decide +kernel

/-- C61: in Python, an `int` within the range of C++ `int` and a `bool` assigned to a known key are
read back; other keys are not touched. -/
theorem C61_python_set (m : ArgMap) (key : String) (hk : (m.find key).isSome) :
    (∀ i : Int, -2 ^ 31 ≤ i ∧ i < 2 ^ 31 →
      ∃ m', pySet m key (.int i) = .ok m' ∧ m'.int key = .ok i ∧
        ∀ key', key' ≠ key → m'.get key' = m.get key') ∧
    (∀ b : Bool, ∃ m', pySet m key (.bool b) = .ok m' ∧ m'.bool key = .ok b ∧
        m'.int key = .ok (if b then 1 else 0) ∧ ∀ key', key' ≠ key → m'.get key' = m.get key') := by
  have base : ∀ t : Txt, ∃ m', pyAssign m key t = .ok m' ∧ m'.find key = some t ∧
      ∀ key', key' ≠ key → m'.get key' = m.get key' := by
    intro t
    obtain ⟨v, hv⟩ := Option.isSome_iff_exists.mp hk
    refine ⟨m.put key t, by simp [pyAssign, ArgMap.assign, hv], ?_, ?_⟩
    · have := find_step m (key, t)
      simp only [ArgMap.step, ArgMap.assign, hv] at this
      rw [this]; simp [specStep, hv]
    · intro key' hne
      have := find_step m (key, t)
      simp only [ArgMap.step, ArgMap.assign, hv] at this
      simp only [ArgMap.get]
      rw [this]; simp [specStep, hne]
  constructor
  · intro i hi
    obtain ⟨m', h1, h2, h3⟩ := base (showInt i)
    refine ⟨m', by unfold pySet; simp only; rw [if_pos hi]; exact h1, ?_, h3⟩
    unfold ArgMap.int ArgMap.get
    rw [h2]
    show conv (readInt (showInt i)) = _
    rw [C43_int_roundtrip i hi]; rfl
  · intro b
    obtain ⟨m', h1, h2, h3⟩ := base (showInt (if b then 1 else 0))
    refine ⟨m', h1, ?_, ?_, h3⟩
    · unfold ArgMap.bool ArgMap.get
      rw [h2]
      cases b <;> rfl
    · unfold ArgMap.int ArgMap.get
      rw [h2]
      cases b <;> rfl

/-- C61: an unknown key, an `int` out of range and a value of another type raise an exception. -/
theorem C61_python_reject (m : ArgMap) (key : String) (v : PyVal) :
    (∃ e, pySet m key v = .error e) ↔
      m.find key = none ∨ v = .other ∨ ∃ i, v = .int i ∧ ¬ (-2 ^ 31 ≤ i ∧ i < 2 ^ 31) := by
  have base : ∀ t : Txt, (∃ e, pyAssign m key t = .error e) ↔ m.find key = none := by
    intro t
    unfold pyAssign ArgMap.assign
    cases h : m.find key <;> simp
  cases v with
  | int i =>
    unfold pySet
    simp only
    by_cases hi : -2 ^ 31 ≤ i ∧ i < 2 ^ 31
    · rw [if_pos hi, base]
      constructor
      · exact Or.inl
      · rintro (h | h | ⟨j, h, h'⟩)
        · exact h
        · cases h
        · cases h; exact absurd hi h'
    · rw [if_neg hi]
      exact ⟨fun _ => .inr (.inr ⟨i, rfl, hi⟩), fun _ => ⟨_, rfl⟩⟩
  | bool b => unfold pySet; simp only; rw [base]; simp
  | float t => unfold pySet; simp only; rw [base]; simp
  | str t => unfold pySet; simp only; rw [base]; simp
  | other => exact ⟨fun _ => .inr (.inl rfl), fun _ => ⟨_, rfl⟩⟩

example : (ArgMap.init.find "k").isSome := rfl
example : pySet ArgMap.init "k" (.int 3000000000) = .error .castError := rfl

/-! ### C90: a Python `float` -/

theorem narrow_whole (n : Int) (h : |n| ≤ 2 ^ 24) : narrow (.fin n) = .fin n := by
  have hr : rnd b32 (n : ℚ) = n := rnd_rep (m := n) (e := 0) b32_p h (by decide) (by simp [pow2_eq])
  have hq : |(n : ℚ)| ≤ 2 ^ 24 := by exact_mod_cast h
  show Fl.round b32 (n : ℚ) = _
  rw [Fl.round_small (hq.trans (by norm_num)), hr]

/-- C90: a Python `float` assigned to a known key is accepted, whatever its value.  A whole number below `10^6` in absolute
value is read back; of a number from `10^6` on either a digit is read or, if it is too large for the C++ `float`, reading
throws; infinities and NaN throw when they are read. -/
theorem C90_python (m : ArgMap) (key : String) (hk : (m.find key).isSome) (v : F64) :
    ∃ m', pySet m key (.float v) = .ok m' ∧ (∀ key', key' ≠ key → m'.get key' = m.get key') ∧
      (∀ n : Int, |n| < 10 ^ 6 → v = .fin n → m'.int key = .ok n) ∧
      (∀ x : ℚ, 10 ^ 6 ≤ x → v = .fin x →
        (∃ d : Int, 1 ≤ d ∧ d ≤ 9 ∧ m'.int key = .ok d) ∨ m'.int key = .error .invalidArgument) ∧
      ((∀ x, v ≠ .fin x) → m'.int key = .error .invalidArgument ∧ m'.bool key = .error .invalidArgument) := by
  obtain ⟨o, ho⟩ := Option.isSome_iff_exists.mp hk
  have hfind : (m.put key (showFl (narrow v))).find = specStep m.find (key, showFl (narrow v)) := by
    have := find_step m (key, showFl (narrow v))
    simpa only [ArgMap.step, ArgMap.assign, ho] using this
  have hself : (m.put key (showFl (narrow v))).find key = some (showFl (narrow v)) := by
    rw [hfind]; simp [specStep, ho]
  have hint : (m.put key (showFl (narrow v))).int key = conv (readInt (showFl (narrow v))) := by
    unfold ArgMap.int ArgMap.get; rw [hself]; rfl
  have hbool : (m.put key (showFl (narrow v))).bool key = conv (readBool (showFl (narrow v))) := by
    unfold ArgMap.bool ArgMap.get; rw [hself]; rfl
  refine ⟨m.put key (showFl (narrow v)), by simp [pySet, pyAssign, ArgMap.assign, ho], ?_, ?_, ?_, ?_⟩
  · intro key' hne
    simp only [ArgMap.get]
    rw [hfind]; simp [specStep, hne]
  · rintro n hn rfl
    rw [hint, narrow_whole n (hn.le.trans (by norm_num))]
    show conv (readInt (showRat n)) = _
    rw [C90_whole n hn]; rfl
  · rintro x hx rfl
    rw [hint]
    cases hv : narrow (.fin x) with
    | fin y =>
      left
      have hy : (10 ^ 6 : ℚ) ≤ y := by
        have e : y = rnd b32 x := by
          have hv' : Fl.round b32 x = .fin y := hv
          unfold Fl.round at hv'
          simp only at hv'
          split at hv'
          · cases hv'
          · split at hv'
            · cases hv'
            · cases hv'; rfl
        have h6 : rnd b32 (10 ^ 6 : ℚ) = 10 ^ 6 :=
          rnd_rep (m := 10 ^ 6) (e := 0) b32_p (by decide) (by decide) (by rw [pow2_eq]; norm_num)
        rw [e, ← h6]
        exact rnd_mono b32_p hx
      obtain ⟨d, h1, -, h2, h3, -⟩ := C90_digit (x := y) (by linarith) (.inr (by linarith))
      exact ⟨d, h2, h3, by show conv (readInt (showRat y)) = _; rw [h1]; rfl⟩
    | pinf => right; rw [(C90_special (v := (.pinf : F32)) (by intro x h; cases h)).1]; rfl
    | ninf => right; rw [(C90_special (v := (.ninf : F32)) (by intro x h; cases h)).1]; rfl
    | nan => right; rw [(C90_special (v := (.nan : F32)) (by intro x h; cases h)).1]; rfl
  · intro hv
    have hn : ∀ x, narrow v ≠ .fin x := by
      intro x h
      cases v with
      | fin y => exact hv y rfl
      | pinf => cases h
      | ninf => cases h
      | nan => cases h
    rw [hint, hbool, (C90_special hn).1, (C90_special hn).2]
    exact ⟨rfl, rfl⟩

/-- `args["cc_p_maxsize"] = 1e6` leaves room for one plane -/
example : ∃ m', pySet ArgMap.init "cc_p_maxsize" (.float (.fin (10 ^ 6))) = .ok m' ∧ m'.int "cc_p_maxsize" = .ok 1 :=
  ⟨_, rfl, by decide +kernel⟩

/-! ### C62: indexing in Python -/

theorem psum_flatten (rows : List (List Int)) (i : Nat) :
    psum rows i = (rows.take i).flatten.length := by
  simp [psum, List.length_flatten]

theorem psum_le (rows : List (List Int)) (i : Nat) : psum rows i ≤ rows.flatten.length := by
  have : rows.flatten = (rows.take i).flatten ++ (rows.drop i).flatten := by
    rw [← List.flatten_append, List.take_append_drop]
  rw [psum_flatten, this, List.length_append]; omega

/-- C62: item `j ≥ 0` of row `i` in Python is entry `j` of all the following rows joined together;
within the row it is the right neighbour, after its end it is a neighbour of a later point, and
after the last row it is undefined. -/
theorem C62_python_item (rows : List (List Int)) (h : NoSentinel rows) (i j : Nat)
    (hi : i < rows.length) (hn : rows.length < 2 ^ 31) (hl : rows.flatten.length < 2 ^ 31)
    (hj : j < 2 ^ 31) :
    pyAt (getDnn rows) i j =
      match (rows.drop i).flatten[j]? with
      | some v => .ok v
      | none => .error .oob := by
  have hp := psum_le rows i
  have e1 : toSize (i : Int) = i := by unfold toSize; omega
  have e2 : toSize (j : Int) = j := by unfold toSize; omega
  have e3 : toSize (psum rows i : Int) = psum rows i := by unfold toSize; omega
  unfold pyAt
  rw [e1, getDnn_offs_get rows h i (by omega), bind_ok, e2, e3, Nat.mod_eq_of_lt (by omega),
    getDnn_list rows h]
  unfold rd
  have hsplit : rows.flatten = (rows.take i).flatten ++ (rows.drop i).flatten := by
    rw [← List.flatten_append, List.take_append_drop]
  have hlen : psum rows i = (rows.take i).flatten.length := psum_flatten rows i
  rw [hsplit, hlen, List.getElem?_append_right (by omega)]
  rw [show (rows.take i).flatten.length + j - (rows.take i).flatten.length = j by omega]
  cases (rows.drop i).flatten[j]? <;> rfl

/-- C62: a negative index does not count from the end of the row: `d[i][-1]` is the last neighbour
of the points before `i`, and undefined if they have none. -/
theorem C62_python_negative (rows : List (List Int)) (h : NoSentinel rows) (i : Nat)
    (hi : i < rows.length) (hn : rows.length < 2 ^ 31) (hl : rows.flatten.length < 2 ^ 31) :
    pyAt (getDnn rows) i (-1) =
      match (rows.take i).flatten.getLast? with
      | some v => .ok v
      | none => .error .oob := by
  have hp := psum_le rows i
  have e1 : toSize (i : Int) = i := by unfold toSize; omega
  have e2 : toSize (-1 : Int) = 2 ^ 64 - 1 := by decide
  have e3 : toSize (psum rows i : Int) = psum rows i := by unfold toSize; omega
  unfold pyAt
  rw [e1, getDnn_offs_get rows h i (by omega), bind_ok, e2, e3, getDnn_list rows h]
  unfold rd
  have hsplit : rows.flatten = (rows.take i).flatten ++ (rows.drop i).flatten := by
    rw [← List.flatten_append, List.take_append_drop]
  have hlen : psum rows i = (rows.take i).flatten.length := psum_flatten rows i
  by_cases h0 : psum rows i = 0
  · have hnil : (rows.take i).flatten = [] := List.eq_nil_of_length_eq_zero (by omega)
    rw [hnil, h0, List.getElem?_eq_none (by omega)]
    simp
  · rw [show (psum rows i + (2 ^ 64 - 1)) % 2 ^ 64 = psum rows i - 1 by omega, hsplit,
      List.getElem?_append_left (by omega), List.getLast?_eq_getElem?, hlen]
    cases (rows.take i).flatten[(rows.take i).flatten.length - 1]? <;> rfl

/-- C62: `for x in d[i]` never ends normally: it runs through the neighbours of all later points as
well and then reads out of bounds. -/
theorem C62_python_for (rows : List (List Int)) (h : NoSentinel rows) (i : Nat)
    (hi : i < rows.length) (hn : rows.length < 2 ^ 31) (hl : rows.flatten.length < 2 ^ 31) (fuel : Nat) :
    pyFor (getDnn rows) i fuel 0 [] =
      if fuel ≤ (rows.drop i).flatten.length then .ok ((rows.drop i).flatten.take fuel)
      else .error .oob := by
  have hd : (rows.drop i).flatten.length ≤ rows.flatten.length := by
    have : rows.flatten = (rows.take i).flatten ++ (rows.drop i).flatten := by
      rw [← List.flatten_append, List.take_append_drop]
    rw [this, List.length_append]; omega
  have key : ∀ (fuel j : Nat), j ≤ (rows.drop i).flatten.length →
      pyFor (getDnn rows) i fuel j ((rows.drop i).flatten.take j) =
        if fuel + j ≤ (rows.drop i).flatten.length then .ok ((rows.drop i).flatten.take (fuel + j))
        else .error .oob := by
    intro fuel
    induction fuel with
    | zero => intro j hj; rw [if_pos (by omega)]; simp [pyFor]
    | succ fuel ih =>
      intro j hj
      rw [pyFor, C62_python_item rows h i j hi hn hl (by omega)]
      by_cases hjl : j < (rows.drop i).flatten.length
      · have hg : (rows.drop i).flatten[j]? = some (rows.drop i).flatten[j] :=
          List.getElem?_eq_getElem hjl
        rw [hg]
        simp only [bind_ok]
        rw [show (rows.drop i).flatten.take j ++ [(rows.drop i).flatten[j]] =
          (rows.drop i).flatten.take (j + 1) from (List.take_succ_eq_append_getElem hjl).symm,
          ih (j + 1) (by omega)]
        rw [show fuel + (j + 1) = fuel + 1 + j by omega]
      · rw [List.getElem?_eq_none (by omega), if_neg (by omega)]; rfl
  have := key fuel 0 (by omega)
  simpa using this

example : pyAt (getDnn [[1], [0, 2], [1]]) 1 2 = .ok 1 := by decide
example : pyAt (getDnn [[1], [0, 2], [1]]) 2 (-1) = .ok 2 := by decide
example : pyAt (getDnn [[1], [0, 2], [1]]) 0 (-1) = .error .oob := by decide
example : pyFor (getDnn [[1], [0, 2], [1]]) 1 3 0 [] = .ok [0, 2, 1] := by decide
example : NoSentinel [[1], [0, 2], [1]] := by unfold NoSentinel; decide

/-! ### C63: which point a row is about, in Python -/

section exact
variable {K : Type} [Field K] [LinearOrder K] [IsStrictOrderedRing K] [FloorRing K] [Inhabited K]

/-- C63: the caller's list is left as it is, and if it lists the points in ascending order of their
cells then, in exact arithmetic and for calls without a reported failure, row `i` is a correct
neighbour list of the caller's point `i`. -/
theorem C63_ordered {hw : Nat} {prm : Params} {pts after : List (Pt K)} {d : Dnn} {S : Sorted K}
    {out : TessOut K} (hjob : ExactJob 4 hw prm pts) (hr : prm.useRecompute = false)
    (hs : xyzSort 4 prm.gr pts = .ok S)
    (hord : pts.Pairwise fun p q =>
      ∀ a b, cellId prm.gr p = .ok a → cellId prm.gr q = .ok b → a ≤ b)
    (hout : tesellateCpu 4 hw prm pts = .ok out)
    (hgood : out.report.srNotReached = 0 ∨ (pts.length - 1 ≤ prm.k.toNat ∧
      out.report.infBoundary = 0 ∧ out.report.pOverflow = 0 ∧ out.report.tOverflow = 0))
    (hpy : pyTesellate hw prm pts = .ok (after, d)) :
    after = pts ∧ ∃ rows, d = getDnn rows ∧ rows.length = pts.length ∧
      ∀ i p row, pts[i]? = some p → rows[i]? = some row →
        CorrectRow pts i p row ∧ (GeneralAt pts i p → ExactRow pts i p row) := by
  unfold pyTesellate at hpy
  simp only [hout, bind_ok, pure_eq_ok, Except.ok.injEq, Prod.mk.injEq] at hpy
  obtain ⟨rfl, rfl⟩ := hpy
  refine ⟨rfl, ?_⟩
  have hid : S.xyz = pts := C60_ordered_input hs (by
    intro p hp c hc
    obtain ⟨c', h1, h2, h3⟩ := cellId_range prm.gr hjob.gr p (hjob.box p hp)
    rw [hc] at h1; cases h1
    exact ⟨h2, lt_of_lt_of_le h3 hjob.fits⟩) hord
  have hplain := hjob.job.plain hs hr
  rw [hout] at hplain
  refine ⟨(List.range S.xyz.length).map (rowOf S prm.gr prm.args), by cases hplain; rfl, ?_, ?_⟩
  · simp [hid]
  · intro i p row h1 h2
    have hi := (List.getElem?_eq_some_iff.mp h1).1
    have hc := hjob.certain hs hr hout hgood (i := i) (by rw [hid]; exact hi)
    have : row = rowOf S prm.gr prm.args i := by
      have hi' : i < S.xyz.length := by rw [hid]; exact hi
      simp [hi'] at h2; exact h2.symm
    rw [this]
    have h1' : S.xyz[i]? = some p := by rw [hid]; exact h1
    have a := C24_row hjob hs hjob.job.size h1' hc
    have b := C26_row hjob hs hjob.job.size h1' hc
    rw [hid] at a b
    exact ⟨a, b⟩

end exact

/-- C63: for points in another order, the rows need not belong to the caller's points: here row 0
says that the caller's first point has one neighbour, but its cell is bounded by two others. -/
theorem C63_order_wrong : ∃ (pts : List (Pt ℚ)) (p : Pt ℚ) (rows : List (List Int)) (row : List Int),
    pyTesellate 1 ⟨2, 4, 32, 32, 0, 0, false, false⟩ pts = .ok (pts, getDnn rows) ∧
    rows[0]? = some row ∧ pts[0]? = some p ∧ ¬ CorrectRow pts 0 p row ∧ ¬ ExactRow pts 0 p row := by
  obtain ⟨out, h1, -, h3, -⟩ := lineRun
  refine ⟨linePts, ⟨3/8, 1/2, 1/2⟩, [[1], [0, 2], [1]], [1], ?_, rfl, rfl, line_row_wrong⟩
  unfold pyTesellate
  simp only [h1, bind_ok, h3]; rfl

set_option maxRecDepth 50000 in
theorem lineRun' : ∃ out, tesellateCpu 4 1 ⟨2, 4, 32, 32, 0, 0, false, false⟩
      ([⟨1/8, 1/2, 1/2⟩, ⟨3/8, 1/2, 1/2⟩, ⟨7/8, 1/2, 1/2⟩] : List (Pt ℚ)) = .ok out ∧
    out.report.infBoundary = 0 ∧ out.report.pOverflow = 0 ∧ out.report.tOverflow = 0 := by
  have : (tesellateCpu 4 1 ⟨2, 4, 32, 32, 0, 0, false, false⟩
      ([⟨1/8, 1/2, 1/2⟩, ⟨3/8, 1/2, 1/2⟩, ⟨7/8, 1/2, 1/2⟩] : List (Pt ℚ))).map
      (fun o => (o.report.infBoundary, o.report.pOverflow, o.report.tOverflow)) = .ok (0, 0, 0) := by
    unfold tesellateCpu
    rw [xyzSort_eq]
    decide +kernel
  obtain ⟨out, h1, h2⟩ := exceptMap_ok this
  simp only [Prod.mk.injEq] at h2
  exact ⟨out, h1, h2.1, h2.2.1, h2.2.2⟩

/-- the hypotheses of `C63_ordered` hold for the same points in grid order -/
example : ∃ d, pyTesellate 1 ⟨2, 4, 32, 32, 0, 0, false, false⟩
      ([⟨1/8, 1/2, 1/2⟩, ⟨3/8, 1/2, 1/2⟩, ⟨7/8, 1/2, 1/2⟩] : List (Pt ℚ))
      = .ok ([⟨1/8, 1/2, 1/2⟩, ⟨3/8, 1/2, 1/2⟩, ⟨7/8, 1/2, 1/2⟩], d) ∧
    ∃ rows : List (List Int), d = getDnn rows ∧ rows.length = 3 := by
  obtain ⟨out, h1, h2, h3, h4⟩ := lineRun'
  have hjob : ExactJob 4 1 ⟨2, 4, 32, 32, 0, 0, false, false⟩
      ([⟨1/8, 1/2, 1/2⟩, ⟨3/8, 1/2, 1/2⟩, ⟨7/8, 1/2, 1/2⟩] : List (Pt ℚ)) :=
    ⟨by decide, by decide, inBox_all (by decide +kernel), by decide, by decide, by decide, by decide,
      by decide, by decide, by decide⟩
  obtain ⟨S, hs⟩ := hjob.sorts
  have c1 : cellId 4 (⟨1/8, 1/2, 1/2⟩ : Pt ℚ) = .ok 40 := by decide +kernel
  have c2 : cellId 4 (⟨3/8, 1/2, 1/2⟩ : Pt ℚ) = .ok 41 := by decide +kernel
  have c3 : cellId 4 (⟨7/8, 1/2, 1/2⟩ : Pt ℚ) = .ok 43 := by decide +kernel
  have hpy : pyTesellate 1 ⟨2, 4, 32, 32, 0, 0, false, false⟩
      ([⟨1/8, 1/2, 1/2⟩, ⟨3/8, 1/2, 1/2⟩, ⟨7/8, 1/2, 1/2⟩] : List (Pt ℚ))
      = .ok ([⟨1/8, 1/2, 1/2⟩, ⟨3/8, 1/2, 1/2⟩, ⟨7/8, 1/2, 1/2⟩], out.dnn) := by
    unfold pyTesellate
    simp only [h1, bind_ok]; rfl
  obtain ⟨-, rows, r1, r2, -⟩ := C63_ordered hjob rfl hs (by
    simp only [List.pairwise_cons, List.mem_cons, List.not_mem_nil, or_false, forall_eq_or_imp,
      forall_eq, c1, c2, c3, Except.ok.injEq, List.Pairwise.nil, false_imp_iff, implies_true, and_true]
    refine ⟨⟨?_, ?_⟩, ?_⟩ <;> (rintro a b rfl rfl; decide)) h1 (Or.inr ⟨by decide, h2, h3, h4⟩) hpy
  exact ⟨out.dnn, hpy, rows, r1, r2⟩

end Votess
