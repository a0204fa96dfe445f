import Verif.Model.Text
import Verif.Props.Dnn
import Verif.Props.Args
import Verif.Props.Cli
/-!
# C73 — the text of a result

`print` and `savetxt` write the rows in a fixed layout, from which they can be read back.
-/
namespace Votess

/-- the elements of a row, each followed by `sep` -/
def rowText (sep : Txt) (row : List Int) : Txt := (row.map fun v => showInt v ++ sep).flatten

/-- the layout of `print`: a line with a brace, one line in braces per row, a line with a brace -/
def layout (rows : List (List Int)) : Txt :=
  "{\n".toList ++ (rows.map fun r => "  {".toList ++ rowText ", ".toList r ++ "}\n".toList).flatten ++ "}\n".toList

/-- the layout of `savetxt`: one line per row -/
def saveLayout (rows : List (List Int)) : Txt := (rows.map fun r => rowText [' '] r ++ ['\n']).flatten

theorem flat_lines (ts : List Tok) (sep pre post : Txt) (tok : Tok → Txt) (hi : ∀ v, tok (.item v) = showInt v ++ sep)
    (hs : tok .sep = post ++ pre) :
    pre ++ ts.flatMap tok ++ post = ((tokLines ts).map fun r => pre ++ rowText sep r ++ post).flatten := by
  -- the first row can have a beginning already
  have key : ∀ ts : List Tok, ∃ l ls, tokLines ts = l :: ls ∧ ts.flatMap tok ++ post
      = rowText sep l ++ post ++ (ls.map fun r => pre ++ rowText sep r ++ post).flatten := by
    intro ts
    induction ts with
    | nil => exact ⟨[], [], rfl, by simp [rowText]⟩
    | cons t ts ih =>
      obtain ⟨l, ls, h1, h2⟩ := ih
      cases t with
      | sep =>
        refine ⟨[], l :: ls, by simp [tokLines, h1], ?_⟩
        rw [List.flatMap_cons, hs, List.append_assoc, h2]
        simp [rowText]
      | item v =>
        refine ⟨v :: l, ls, by simp [tokLines, h1], ?_⟩
        rw [List.flatMap_cons, hi, List.append_assoc, h2]
        simp [rowText]
  obtain ⟨l, ls, h1, h2⟩ := key ts
  rw [List.append_assoc, h2, h1]
  simp

/-- C73: the text `print` writes is the layout of the rows, unless the result has no neighbours at all. -/
theorem C73_print_layout (ts : List Tok) : printText (some ts) = layout (tokLines ts) := by
  have := flat_lines ts ", ".toList "  {".toList "}\n".toList printTok (fun _ => rfl) rfl
  unfold printText layout
  rw [← this]
  simp

/-- C73: the text `print` writes for rows without sentinel, none of them empty. -/
theorem C73_print (r : List Int) (rs : List (List Int)) (h : NoSentinel (r :: rs)) (hne : ∀ x ∈ r :: rs, x ≠ []) :
    ∃ t, (getDnn (r :: rs)).print = .ok t ∧ printText t = layout (r :: rs) := by
  obtain ⟨ts, h1, h2⟩ := C41_lines r rs h (fun x hx => hne x (List.mem_cons_of_mem _ hx))
  refine ⟨some ts, ?_, by rw [C73_print_layout, h2]⟩
  unfold Dnn.print
  rw [if_neg, h1]
  · rfl
  · rw [getDnn_list _ h, List.flatten_cons]
    intro e
    exact hne r (by simp) (List.append_eq_nil_iff.mp e).1

/-- C73: the file `savetxt` writes has one line per row. -/
theorem C73_savetxt (r : List Int) (rs : List (List Int)) (h : NoSentinel (r :: rs)) (hne : ∀ x ∈ rs, x ≠ []) :
    saveText (getDnn (r :: rs)) = .ok (saveLayout (r :: rs)) := by
  obtain ⟨ts, h1, h2⟩ := C41_lines r rs h hne
  have := flat_lines ts [' '] [] ['\n'] saveTok (fun _ => rfl) rfl
  unfold saveText saveLayout
  rw [h1, ← h2]
  simp only [bind_ok, pure_eq_ok, Except.ok.injEq]
  simpa using this

/-! ### reading back -/

/-- the words of a line (separated by white space) -/
def wordsOf : Txt → List Txt
  | [] => []
  | c :: cs =>
    if isSpaceC c then wordsOf cs
    else
      match cs with
      | [] => [[c]]
      | d :: _ =>
        if isSpaceC d then [c] :: wordsOf cs
        else
          match wordsOf cs with
          | [] => [[c]]
          | w :: ws => (c :: w) :: ws

/-- the numbers on a line -/
def numbersOf (line : Txt) : List Int := (wordsOf line).filterMap readInt

theorem showInt_chars (v : Int) : showInt v ≠ [] ∧ ∀ c ∈ showInt v, isSpaceC c = false := by
  have hn : ∀ n : Nat, showNat n ≠ [] ∧ ∀ c ∈ showNat n, isSpaceC c = false := by
    intro n
    obtain ⟨c, cs, h, -⟩ := natDigitsAux_cons (n + 1) n (by omega)
    exact ⟨by unfold showNat; rw [h]; simp, fun c hc => (digit_not_space c (natDigitsAux_digits _ _ c hc)).1⟩
  unfold showInt
  split
  · refine ⟨by simp, fun c hc => ?_⟩
    rcases List.mem_cons.mp hc with rfl | hc
    · decide
    · exact (hn _).2 c hc
  · exact hn _

theorem wordsOf_word {w rest : Txt} (hne : w ≠ []) (h : ∀ c ∈ w, isSpaceC c = false) :
    wordsOf (w ++ ' ' :: rest) = w :: wordsOf rest := by
  have hsp : isSpaceC ' ' = true := rfl
  induction w with
  | nil => exact absurd rfl hne
  | cons c cs ih =>
    have hc := h c (by simp)
    cases cs with
    | nil => simp [wordsOf, hc, hsp]
    | cons d ds =>
      have hd := h d (by simp)
      have := ih (by simp) (fun x hx => h x (List.mem_cons_of_mem _ hx))
      rw [List.cons_append] at this
      rw [List.cons_append, List.cons_append, wordsOf, hc]
      simp only [Bool.false_eq_true, if_false, hd]
      rw [this]

theorem numbersOf_row {row : List Int} (h : ∀ v ∈ row, -2 ^ 31 ≤ v ∧ v < 2 ^ 31) :
    numbersOf (rowText [' '] row) = row := by
  induction row with
  | nil => rfl
  | cons v vs ih =>
    have := ih fun x hx => h x (List.mem_cons_of_mem _ hx)
    obtain ⟨h1, h2⟩ := showInt_chars v
    have e : rowText [' '] (v :: vs) = showInt v ++ ' ' :: rowText [' '] vs := by simp [rowText]
    unfold numbersOf at this ⊢
    rw [e, wordsOf_word h1 h2, List.filterMap_cons, C43_int_roundtrip v (h v (by simp)), this]

theorem linesOf_line {l rest : Txt} (h : '\n' ∉ l) : linesOf (l ++ '\n' :: rest) = l :: linesOf rest := by
  induction l with
  | nil => simp [linesOf]
  | cons c cs ih =>
    rw [List.mem_cons, not_or] at h
    rw [List.cons_append, linesOf, if_neg (Ne.symm h.1), ih h.2]

theorem rowText_noLine (row : List Int) : '\n' ∉ rowText [' '] row := by
  unfold rowText
  rw [List.mem_flatten]
  rintro ⟨l, hl, hc⟩
  obtain ⟨v, -, rfl⟩ := List.mem_map.mp hl
  rcases List.mem_append.mp hc with hc | hc
  · have := (showInt_chars v).2 _ hc
    revert this; decide
  · simp at hc

/-- C73: a file written by `savetxt` can be read back: line `i` holds the numbers of row `i`. -/
theorem C73_savetxt_readable {rows : List (List Int)} (h : ∀ r ∈ rows, ∀ v ∈ r, -2 ^ 31 ≤ v ∧ v < 2 ^ 31) :
    (linesOf (saveLayout rows)).map numbersOf = rows := by
  induction rows with
  | nil => rfl
  | cons r rs ih =>
    have e : saveLayout (r :: rs) = rowText [' '] r ++ '\n' :: saveLayout rs := by simp [saveLayout]
    rw [e, linesOf_line (rowText_noLine r), List.map_cons, numbersOf_row (h r (by simp)),
      ih fun x hx => h x (List.mem_cons_of_mem _ hx)]

/-! ### examples -/

example : layout [[1, 2], [0]] = "{\n  {1, 2, }\n  {0, }\n}\n".toList := by decide
example : saveLayout [[1, 2], [0]] = "1 2 \n0 \n".toList := by decide
example : saveText (getDnn [[1, 2], [0]]) = .ok "1 2 \n0 \n".toList := by decide
example : ∃ t, (getDnn [[1, 2], [0]]).print = .ok t ∧ printText t = "{\n  {1, 2, }\n  {0, }\n}\n".toList := ⟨_, rfl, by decide⟩
example : (linesOf "1 2 \n0 \n".toList).map numbersOf = [[1, 2], [0]] := by decide +kernel
/-- an empty row is lost: two rows are printed on one line -/
example : saveText (getDnn [[1], [], [0]]) = .ok "1 \n0 \n".toList := by decide

end Votess
