import Verif.Model.Dnn
import Verif.Proofs.Basic
/-!
# C40, C41 — the result container and its text output
-/
namespace Votess

/-- number of elements in the first `i` rows (specification) -/
def psum (rows : List (List Int)) (i : Nat) : Nat := ((rows.take i).map List.length).sum

@[simp] theorem psum_zero (rows : List (List Int)) : psum rows 0 = 0 := by simp [psum]

theorem psum_cons_succ (r : List Int) (rows : List (List Int)) (i : Nat) :
    psum (r :: rows) (i + 1) = r.length + psum rows i := by simp [psum]

theorem psum_le_succ (rows : List (List Int)) (i : Nat) : psum rows i ≤ psum rows (i + 1) := by
  induction rows generalizing i with
  | nil => simp [psum]
  | cons r rows ih =>
    cases i with
    | zero => simp
    | succ i => rw [psum_cons_succ, psum_cons_succ]; have := ih i; omega

theorem psum_length (rows : List (List Int)) : psum rows rows.length = rows.flatten.length := by
  simp [psum, List.length_flatten]

theorem psum_succ (rows : List (List Int)) (i : Nat) (h : i < rows.length) :
    psum rows (i + 1) = psum rows i + rows[i].length := by
  induction rows generalizing i with
  | nil => simp at h
  | cons r rows ih =>
    cases i with
    | zero => simp [psum]
    | succ i =>
      rw [psum_cons_succ, psum_cons_succ, ih i (by simpa using h)]
      simp; omega

theorem flatten_get (rows : List (List Int)) (i j : Nat) (hi : i < rows.length)
    (hj : j < rows[i].length) : rows.flatten[psum rows i + j]? = some rows[i][j] := by
  induction rows generalizing i with
  | nil => simp at hi
  | cons r rows ih =>
    cases i with
    | zero =>
      simp only [psum_zero, List.flatten_cons, Nat.zero_add]
      simp only [List.getElem_cons_zero] at hj ⊢
      rw [List.getElem?_append_left hj, List.getElem?_eq_getElem hj]
    | succ i =>
      simp only [List.getElem_cons_succ] at hj ⊢
      rw [psum_cons_succ, List.flatten_cons, List.getElem?_append_right (by omega)]
      rw [show r.length + psum rows i + j - r.length = psum rows i + j by omega]
      exact ih i (by simpa using hi) hj

theorem offs_fold (rows : List (List Int)) (acc : List Int) (s : Int) :
    (rows.foldl (fun (st : List Int × Int) r =>
      (st.1 ++ [st.2 + r.length], st.2 + r.length)) (acc, s)).1
    = acc ++ (List.range rows.length).map (fun i => s + (psum rows (i + 1) : Int)) := by
  induction rows generalizing acc s with
  | nil => simp
  | cons r rows ih =>
    simp only [List.foldl_cons, ih, List.length_cons, List.range_succ_eq_map, List.map_cons,
      List.map_map, List.append_assoc, List.singleton_append]
    congr 2
    · apply List.map_congr_left
      intro i _
      simp only [Function.comp, psum_cons_succ]
      push_cast; omega

theorem takeWhile_eq_self {α : Type} (p : α → Bool) (l : List α) (h : ∀ x ∈ l, p x = true) :
    l.takeWhile p = l := by
  induction l with
  | nil => rfl
  | cons x l ih =>
    have hx := h x (by simp)
    simp only [List.takeWhile_cons, hx, if_true, List.cons.injEq, true_and]
    exact ih (fun y hy => h y (List.mem_cons_of_mem _ hy))

/-- rows without the sentinel value -/
def NoSentinel (rows : List (List Int)) : Prop := ∀ r ∈ rows, ∀ v ∈ r, v ≠ kUndefined

theorem getDnn_rows (rows : List (List Int)) (h : NoSentinel rows) :
    rows.map (fun r => r.takeWhile (fun v => v ≠ kUndefined)) = rows := by
  refine Eq.trans (List.map_congr_left (g := id) ?_) (List.map_id rows)
  intro r hr
  apply takeWhile_eq_self
  intro v hv
  simpa using h r hr v hv

theorem getDnn_list (rows : List (List Int)) (h : NoSentinel rows) :
    (getDnn rows).list = rows.flatten := by
  simp only [getDnn, getDnn_rows rows h]

theorem getDnn_offs (rows : List (List Int)) (h : NoSentinel rows) :
    (getDnn rows).offs = (List.range (rows.length + 1)).map (fun i => (psum rows i : Int)) := by
  simp only [getDnn, getDnn_rows rows h, offs_fold]
  simp only [List.range_succ_eq_map, List.map_cons, psum_zero, List.map_map]
  simp [Function.comp_def]

theorem getDnn_offs_get (rows : List (List Int)) (h : NoSentinel rows) (i : Nat)
    (hi : i ≤ rows.length) : rd (getDnn rows).offs i = .ok (psum rows i : Int) := by
  rw [rd_eq_ok, getDnn_offs rows h]
  simp [show i < rows.length + 1 by omega]

/-- C40: the container has one row per point. -/
theorem C40_size (rows : List (List Int)) (h : NoSentinel rows) (hn : rows.length < 2 ^ 64) :
    (getDnn rows).size = rows.length := by
  simp only [Dnn.size, getDnn_offs rows h, List.length_map, List.length_range]
  omega

/-- C40: `dnn[i].size()` is the length of row `i`. -/
theorem C40_row_size (rows : List (List Int)) (h : NoSentinel rows) (i : Nat)
    (hi : i < rows.length) (hl : rows[i].length < 2 ^ 64) :
    (getDnn rows).rowSize i = .ok rows[i].length := by
  have hlen : (getDnn rows).offs.length = rows.length + 1 := by simp [getDnn_offs rows h]
  simp only [Dnn.rowSize, hlen]
  rw [if_neg (by omega), getDnn_offs_get rows h _ (by omega), getDnn_offs_get rows h _ (by omega)]
  simp only [bind_ok, pure_eq_ok, Except.ok.injEq]
  rw [psum_succ rows i hi]
  push_cast
  omega

/-- C40: `dnn[i][j]` is element `j` of row `i`. -/
theorem C40_at (rows : List (List Int)) (h : NoSentinel rows) (i j : Nat)
    (hi : i < rows.length) (hj : j < rows[i].length) :
    (getDnn rows).at i j = .ok rows[i][j] := by
  simp only [Dnn.at, getDnn_offs_get rows h i (by omega), bind_ok]
  have e : ((psum rows i : Int) + (j : Int)) = ((psum rows i + j : Nat) : Int) := by push_cast; rfl
  rw [e, rdI_natCast, rd_eq_ok, getDnn_list rows h]
  exact flatten_get rows i j hi hj

/-- C40: offsets start at 0, are non-decreasing and end at the list length. -/
theorem C40_offsets (rows : List (List Int)) (h : NoSentinel rows) :
    (getDnn rows).offs.length = rows.length + 1 ∧
    (getDnn rows).offs[0]? = some 0 ∧
    (getDnn rows).offs[rows.length]? = some ((getDnn rows).list.length : Int) ∧
    ∀ i, i < rows.length → ∀ a b, (getDnn rows).offs[i]? = some a →
      (getDnn rows).offs[i + 1]? = some b → a ≤ b := by
  refine ⟨by simp [getDnn_offs rows h], ?_, ?_, ?_⟩
  · have := getDnn_offs_get rows h 0 (by omega); rw [rd_eq_ok] at this; simpa using this
  · have := getDnn_offs_get rows h rows.length (by omega); rw [rd_eq_ok] at this
    rw [this, getDnn_list rows h, psum_length]
  · intro i hi a b ha hb
    have h1 := getDnn_offs_get rows h i (by omega); rw [rd_eq_ok] at h1
    have h2 := getDnn_offs_get rows h (i + 1) (by omega); rw [rd_eq_ok] at h2
    rw [h1] at ha; rw [h2] at hb
    have := psum_le_succ rows i
    simp only [Option.some.injEq] at ha hb
    omega

/-- C40: writing `dnn[i][j] = v` changes that element and no other element of any row. -/
theorem C40_assign (rows : List (List Int)) (h : NoSentinel rows) (i j : Nat) (v : Int)
    (hi : i < rows.length) (hj : j < rows[i].length) :
    ∃ d, (getDnn rows).assign i j v = .ok d ∧ d.at i j = .ok v ∧
      ∀ i' j' (hi' : i' < rows.length) (hj' : j' < rows[i'].length),
        (i', j') ≠ (i, j) → d.at i' j' = .ok rows[i'][j'] := by
  have e : ∀ (a b : Nat), ((a : Int) + (b : Int)) = ((a + b : Nat) : Int) := by
    intro a b; push_cast; rfl
  have hlt : ∀ (i j : Nat) (hi : i < rows.length) (hj : j < rows[i].length),
      psum rows i + j < rows.flatten.length := by
    intro i j hi hj
    have := flatten_get rows i j hi hj
    exact (List.getElem?_eq_some_iff.mp this).1
  refine ⟨{ getDnn rows with list := rows.flatten.set (psum rows i + j) v }, ?_, ?_, ?_⟩
  · simp only [Dnn.assign, getDnn_offs_get rows h i (by omega), bind_ok]
    rw [e, wrI_natCast, getDnn_list rows h, wr_ok (hlt i j hi hj)]
    simp
  · simp only [Dnn.at, getDnn_offs_get rows h i (by omega), bind_ok]
    rw [e, rdI_natCast, rd_eq_ok, List.getElem?_set_self (hlt i j hi hj)]
  · intro i' j' hi' hj' hne
    simp only [Dnn.at, getDnn_offs_get rows h i' (by omega), bind_ok]
    rw [e, rdI_natCast, rd_eq_ok, List.getElem?_set_ne, flatten_get rows i' j' hi' hj']
    intro heq
    have mono : ∀ a b, a < b → b ≤ rows.length → psum rows (a + 1) ≤ psum rows b := by
      intro a b hab
      induction b with
      | zero => omega
      | succ b ih =>
        intro hb
        by_cases hb2 : a = b
        · subst hb2; exact Nat.le_refl _
        · exact Nat.le_trans (ih (by omega) (by omega)) (psum_le_succ rows b)
    have s1 := psum_succ rows i hi
    have s2 := psum_succ rows i' hi'
    rcases Nat.lt_trichotomy i i' with hlt' | heq' | hgt'
    · have := mono i i' hlt' (by omega); omega
    · subst heq'; apply hne; simp; omega
    · have := mono i' i hgt' (by omega); omega

example : NoSentinel [[3, 1], [], [7]] := by
  intro r hr v hv; simp at hr; rcases hr with rfl | rfl | rfl <;> simp at hv <;> simp [kUndefined] <;> omega
example : getDnn [[3, 1], [], [7]] = ⟨[3, 1, 7], [0, 2, 2, 3]⟩ := by decide

/-! ### text output -/

/-- lines of a token stream: split at the row separators (specification) -/
def tokLines : List Tok → List (List Int)
  | [] => [[]]
  | .sep :: ts => [] :: tokLines ts
  | .item v :: ts =>
    match tokLines ts with
    | [] => [[v]]
    | l :: ls => (v :: l) :: ls

/-- running ends of consecutive rows, starting after position `s` -/
def rowEnds : Int → List (List Int) → List Int
  | _, [] => []
  | s, r :: rs => (s + r.length) :: rowEnds (s + r.length) rs

theorem rowEnds_eq (s : Int) (rows : List (List Int)) :
    rowEnds s rows = (List.range rows.length).map (fun i => s + (psum rows (i + 1) : Int)) := by
  induction rows generalizing s with
  | nil => rfl
  | cons r rows ih =>
    simp only [rowEnds, ih, List.length_cons, List.range_succ_eq_map, List.map_cons, List.map_map]
    congr 1
    · apply List.map_congr_left
      intro i _
      simp only [Function.comp, psum_cons_succ]; push_cast; omega

theorem getDnn_offs_cons (rows : List (List Int)) (h : NoSentinel rows) :
    (getDnn rows).offs = 0 :: rowEnds 0 rows := by
  rw [getDnn_offs rows h, rowEnds_eq, List.range_succ_eq_map]
  simp [Function.comp_def]

theorem drop_cons_get {offs : List Int} {c : Nat} {a : Int} {l : List Int}
    (h : offs.drop c = a :: l) : rd offs c = .ok a ∧ c < offs.length ∧ offs.drop (c + 1) = l := by
  have h1 : offs[c]? = some a := by
    have := congrArg (fun l => l[0]?) h
    simpa [List.getElem?_drop] using this
  refine ⟨by rw [rd_eq_ok, h1], (List.getElem?_eq_some_iff.mp h1).1, ?_⟩
  have := congrArg List.tail h
  simpa [List.tail_drop] using this

theorem tokLines_ne (ts : List Tok) : tokLines ts ≠ [] := by
  cases ts with
  | nil => simp [tokLines]
  | cons t ts =>
    cases t with
    | sep => simp [tokLines]
    | item v => simp only [tokLines]; split <;> simp

theorem tokLoop_rows (offs : List Int) (rs : List (List Int)) (hne : ∀ r ∈ rs, r ≠ [])
    (r : List Int) (s : Int) (c : Nat) (hd : offs.drop c = rowEnds s (r :: rs)) :
    ∃ ts, Dnn.tokLoop offs (r ++ rs.flatten) s c = .ok ts ∧ tokLines ts = r :: rs := by
  induction rs generalizing r s c with
  | nil =>
    induction r generalizing s with
    | nil => exact ⟨[], rfl, rfl⟩
    | cons x r ih =>
      have hd' : offs.drop c = rowEnds (s + 1) [r] := by
        rw [hd]; simp [rowEnds]; omega
      obtain ⟨ts, h1, h2⟩ := ih (s + 1) hd'
      obtain ⟨g1, _, _⟩ := drop_cons_get hd
      refine ⟨.item x :: ts, ?_, by simp [tokLines, h2]⟩
      simp only [List.cons_append, Dnn.tokLoop, g1, bind_ok]
      rw [if_neg (by simp; omega), h1]; rfl
  | cons r2 rs ih =>
    induction r generalizing s with
    | nil =>
      have hr2 : r2 ≠ [] := hne r2 (by simp)
      obtain ⟨g1, g2, g3⟩ := drop_cons_get hd
      simp only [List.length_nil, Int.natCast_zero, Int.add_zero] at g1 g3
      obtain ⟨g4, g5, _⟩ := drop_cons_get (show offs.drop (c + 1) = _ :: _ from g3)
      cases r2 with
      | nil => exact absurd rfl hr2
      | cons y ys =>
        obtain ⟨ts, h1, h2⟩ := ih (fun r hr => hne r (List.mem_cons_of_mem _ hr)) (y :: ys) s (c + 1) g3
        refine ⟨.sep :: ts, ?_, by simp [tokLines, h2]⟩
        have h1' := h1
        simp only [List.cons_append, Dnn.tokLoop, g4, bind_ok] at h1'
        rw [if_neg (by simp; omega)] at h1'
        obtain ⟨rest, h3, h4⟩ := bind_eq_ok.mp h1'
        simp only [pure_eq_ok, Except.ok.injEq] at h4
        simp only [List.flatten_cons, List.nil_append, List.cons_append, Dnn.tokLoop, g1, bind_ok,
          if_true]
        rw [if_pos (by omega), h3]
        simp [← h4]
    | cons x r ihr =>
      have hd' : offs.drop c = rowEnds (s + 1) (r :: r2 :: rs) := by
        rw [hd]; simp [rowEnds]; constructor
        · omega
        · congr 2
          all_goals omega
      obtain ⟨ts, h1, h2⟩ := ihr (s + 1) hd'
      obtain ⟨g1, _, _⟩ := drop_cons_get hd
      refine ⟨.item x :: ts, ?_, by simp [tokLines, h2]⟩
      simp only [List.cons_append, Dnn.tokLoop, g1, bind_ok]
      rw [if_neg (by simp; omega), h1]; rfl

/-- C41: if no row except possibly the first is empty, the lines written by `print` and
`savetxt` are exactly the rows. -/
theorem C41_lines (r : List Int) (rs : List (List Int)) (h : NoSentinel (r :: rs))
    (hne : ∀ r ∈ rs, r ≠ []) :
    ∃ ts, (getDnn (r :: rs)).tokens = .ok ts ∧ tokLines ts = r :: rs := by
  unfold Dnn.tokens
  rw [getDnn_list _ h, getDnn_offs_cons _ h, List.flatten_cons]
  exact tokLoop_rows _ rs hne r 0 1 rfl

/-- once the counter points at an end that is already passed, no separator is written any more -/
theorem tokLoop_stuck (offs : List Int) (c : Nat) (a : Int) (hc : rd offs c = .ok a)
    (l : List Int) (s : Int) (hs : a < s) :
    ∃ ts, Dnn.tokLoop offs l s c = .ok ts ∧ tokLines ts = [l] := by
  induction l generalizing s with
  | nil => exact ⟨[], rfl, rfl⟩
  | cons x l ih =>
    obtain ⟨ts, h1, h2⟩ := ih (s + 1) (by omega)
    refine ⟨.item x :: ts, ?_, by simp [tokLines, h2]⟩
    simp only [Dnn.tokLoop, hc, bind_ok]
    rw [if_neg (by omega), h1]; rfl

theorem tokLoop_empty_row (offs : List Int) (rs post : List (List Int))
    (hne : ∀ r ∈ rs, r ≠ []) (hpost : post.flatten ≠ [])
    (r : List Int) (s : Int) (c : Nat)
    (hd : offs.drop c = rowEnds s (r :: rs ++ [] :: post)) :
    ∃ ts, Dnn.tokLoop offs (r ++ (rs ++ [] :: post).flatten) s c = .ok ts ∧
      tokLines ts = r :: rs ++ [post.flatten] := by
  induction rs generalizing r s c with
  | nil =>
    induction r generalizing s with
    | nil =>
      obtain ⟨g1, g2, g3⟩ := drop_cons_get hd
      simp only [List.length_nil, Int.natCast_zero, Int.add_zero] at g1 g3
      obtain ⟨g4, g5, _⟩ := drop_cons_get (show offs.drop (c + 1) = _ :: _ from g3)
      simp only [List.length_nil, Int.natCast_zero, Int.add_zero] at g4
      simp only [List.nil_append, List.flatten_cons]
      cases hpf : post.flatten with
      | nil => exact absurd hpf hpost
      | cons y ys =>
        obtain ⟨ts, h1, h2⟩ := tokLoop_stuck offs (c + 1) s g4 ys (s + 1) (by omega)
        refine ⟨.sep :: .item y :: ts, ?_, by simp [tokLines, h2]⟩
        simp only [Dnn.tokLoop, g1, bind_ok, if_true]
        rw [if_pos (by omega), h1]; rfl
    | cons x r ih =>
      have hd' : offs.drop c = rowEnds (s + 1) (r :: [] ++ [] :: post) := by
        rw [hd]; simp [rowEnds]; constructor
        · omega
        · congr 1; omega
      obtain ⟨ts, h1, h2⟩ := ih (s + 1) hd'
      obtain ⟨g1, _, _⟩ := drop_cons_get hd
      refine ⟨.item x :: ts, ?_, by simp at h2; simp [tokLines, h2]⟩
      simp only [List.cons_append, Dnn.tokLoop, g1, bind_ok]
      rw [if_neg (by simp; omega), h1]; rfl
  | cons r2 rs ih =>
    induction r generalizing s with
    | nil =>
      have hr2 : r2 ≠ [] := hne r2 (by simp)
      obtain ⟨g1, g2, g3⟩ := drop_cons_get hd
      simp only [List.length_nil, Int.natCast_zero, Int.add_zero] at g1 g3
      obtain ⟨g4, g5, _⟩ := drop_cons_get (show offs.drop (c + 1) = _ :: _ from g3)
      cases r2 with
      | nil => exact absurd rfl hr2
      | cons y ys =>
        obtain ⟨ts, h1, h2⟩ := ih (fun r hr => hne r (List.mem_cons_of_mem _ hr)) (y :: ys) s (c + 1) g3
        refine ⟨.sep :: ts, ?_, by simp at h2; simp [tokLines, h2]⟩
        have h1' := h1
        simp only [List.cons_append, Dnn.tokLoop, g4, bind_ok] at h1'
        rw [if_neg (by simp; omega)] at h1'
        obtain ⟨rest, h3, h4⟩ := bind_eq_ok.mp h1'
        simp only [pure_eq_ok, Except.ok.injEq] at h4
        simp only [List.flatten_cons, List.nil_append, List.cons_append, Dnn.tokLoop, g1, bind_ok,
          if_true]
        rw [if_pos (by omega), h3]
        simp [← h4]
    | cons x r ihr =>
      have hd' : offs.drop c = rowEnds (s + 1) (r :: (r2 :: rs) ++ [] :: post) := by
        rw [hd]; simp [rowEnds]; constructor
        · omega
        · congr 2
          all_goals omega
      obtain ⟨ts, h1, h2⟩ := ihr (s + 1) hd'
      obtain ⟨g1, _, _⟩ := drop_cons_get hd
      refine ⟨.item x :: ts, ?_, by simp at h2; simp [tokLines, h2]⟩
      simp only [List.cons_append] at h1
      simp only [List.cons_append, Dnn.tokLoop, g1, bind_ok]
      rw [if_neg (by simp; omega), h1]; rfl

/-- C41: an empty row after the first one is dropped from the text and all rows after it are
merged into one line (the code does not reproduce the rows). -/
theorem C41_empty_row_merges (r : List Int) (rs post : List (List Int))
    (h : NoSentinel (r :: rs ++ [] :: post)) (hne : ∀ r ∈ rs, r ≠ []) (hpost : post.flatten ≠ []) :
    ∃ ts, (getDnn (r :: rs ++ [] :: post)).tokens = .ok ts ∧
      tokLines ts = r :: rs ++ [post.flatten] := by
  unfold Dnn.tokens
  rw [getDnn_list _ h, getDnn_offs_cons _ h]
  simpa using tokLoop_empty_row _ rs post hne hpost r 0 1 rfl

/-- C41 (negation of the unrestricted claim): four rows, the second empty; two lines are
written, the second holding rows three and four. -/
theorem C41_unrestricted_false :
    ∃ rows, NoSentinel rows ∧ ∀ ts, (getDnn rows).tokens = .ok ts → tokLines ts ≠ rows := by
  refine ⟨[[1], [], [2], [3]], ?_, ?_⟩
  · intro r hr v hv
    simp at hr
    rcases hr with rfl | rfl | rfl | rfl <;> simp at hv <;> subst hv <;> decide
  · intro ts h
    obtain ⟨ts', h1, h2⟩ := C41_empty_row_merges [1] [] [[2], [3]] (by
      intro r hr v hv
      simp at hr
      rcases hr with rfl | rfl | rfl | rfl <;> simp at hv <;> subst hv <;> decide)
      (by simp) (by simp)
    have : ts = ts' := by
      have h' : (getDnn [[1], [], [2], [3]]).tokens = .ok ts' := h1
      rw [h] at h'; exact Except.ok.inj h'
    subst this
    simp at h2
    rw [h2]; simp

example : NoSentinel [[], [4, 5], [6]] ∧ ∀ r ∈ [[4, 5], [(6 : Int)]], r ≠ [] := by
  constructor
  · intro r hr v hv
    simp at hr
    rcases hr with rfl | rfl | rfl <;> simp at hv <;> simp [kUndefined] <;> omega
  · simp
example : (getDnn [[], [4, 5], [6]]).tokens = .ok [.sep, .item 4, .item 5, .sep, .item 6] := by
  decide

end Votess
