import Verif.Model.FloatText
import Verif.Props.Args
import Verif.Proofs.Ieee
/-!
# Reading the text of a floating point number as an integer
-/
namespace Votess

/-- the text begins with something that is not a digit -/
def Stops (s : Txt) : Prop := s = [] ∨ ∃ c r, s = c :: r ∧ digitVal c = none

theorem readSigned_number (n : Nat) {s : Txt} (h : Stops s) : readSigned (showNat n ++ s) = some (false, n) := by
  rcases h with rfl | ⟨c, r, rfl, hc⟩
  · rw [List.append_nil]; exact readSigned_showNat n
  · have hd : readDigits (showNat n ++ c :: r) none = some n := by
      unfold showNat
      rw [readDigits_append _ _ _ (natDigitsAux_digits _ _), readDigits_natDigitsAux _ _ (by omega)]
      simp [readDigits, hc]
    obtain ⟨c', cs, hcs, hdig⟩ := natDigitsAux_cons (n + 1) n (by omega)
    obtain ⟨h1, h2, h3⟩ := digit_not_space c' hdig
    unfold showNat at hd ⊢
    rw [hcs] at hd ⊢
    unfold readSigned
    simp only [List.cons_append, List.dropWhile_cons, h1]
    simp only [List.cons_append] at hd
    simp [hd, h2, h3]

theorem readSigned_minus {s : Txt} {n : Nat} (h : readSigned s = some (false, n)) (hs : ∃ c r, s = c :: r ∧ (digitVal c).isSome) :
    readSigned ('-' :: s) = some (true, n) := by
  obtain ⟨c, r, rfl, hc⟩ := hs
  obtain ⟨h1, h2, h3⟩ := digit_not_space c hc
  have : isSpaceC '-' = false := by decide
  unfold readSigned at h ⊢
  simp only [List.dropWhile_cons, h1, this] at h ⊢
  simp [h2, h3] at h
  simp [h]

theorem decimal_reads (w m : Nat) {s : Txt} (h : Stops s) :
    readSigned (decimalText w m ++ s) = some (false, m / 10 ^ w) := by
  unfold decimalText
  simp only
  rw [List.append_assoc]
  apply readSigned_number
  split
  · exact h
  · exact .inr ⟨'.', _, rfl, by decide⟩

theorem showPos_head (x : ℚ) : ∃ c r, showPos x = c :: r ∧ (digitVal c).isSome := by
  have key : ∀ w m s, ∃ c r, decimalText w m ++ s = c :: r ∧ (digitVal c).isSome := by
    intro w m s
    obtain ⟨c', cs, hcs, hdig⟩ := natDigitsAux_cons (m / 10 ^ w + 1) (m / 10 ^ w) (by omega)
    unfold decimalText showNat
    rw [hcs]
    exact ⟨c', _, rfl, hdig⟩
  unfold showPos
  simp only
  split
  · have := key (5 - (six x).2).toNat (six x).1 []
    rwa [List.append_nil] at this
  · exact key _ _ _

/-! ### six digits -/

section
variable {x : ℚ}

/-- the value in units of the sixth digit -/
theorem scaled_bounds (hx : 0 < x) : (10 : ℚ) ^ 5 ≤ x * 10 ^ (5 - Int.log 10 x) ∧ x * 10 ^ (5 - Int.log 10 x) < 10 ^ 6 := by
  have h1 := Int.zpow_log_le_self (b := 10) (by norm_num) hx
  have h2 := Int.lt_zpow_succ_log_self (b := 10) (by norm_num) x
  push_cast at h1 h2
  have hp : (0 : ℚ) < 10 ^ (5 - Int.log 10 x) := by positivity
  constructor
  · calc (10 : ℚ) ^ 5 = 10 ^ Int.log 10 x * 10 ^ (5 - Int.log 10 x) := by
          rw [← zpow_add₀ (by norm_num), add_sub_cancel]; norm_num
      _ ≤ _ := mul_le_mul_of_nonneg_right h1 hp.le
  · calc x * 10 ^ (5 - Int.log 10 x) < 10 ^ (Int.log 10 x + 1) * 10 ^ (5 - Int.log 10 x) := mul_lt_mul_of_pos_right h2 hp
      _ = 10 ^ 6 := by rw [← zpow_add₀ (by norm_num), show Int.log 10 x + 1 + (5 - Int.log 10 x) = 6 by ring]; norm_num

theorem raw_bounds (hx : 0 < x) : (10 : Int) ^ 5 ≤ rne (x * 10 ^ (5 - Int.log 10 x)) ∧
    rne (x * 10 ^ (5 - Int.log 10 x)) ≤ 10 ^ 6 := by
  obtain ⟨h1, h2⟩ := scaled_bounds hx
  have e1 := rne_mono h1
  have e2 := rne_mono h2.le
  have f1 := rne_int (10 ^ 5)
  have f2 := rne_int (10 ^ 6)
  rw [show (((10 : Int) ^ 5 : Int) : ℚ) = 10 ^ 5 by norm_num] at f1
  rw [show (((10 : Int) ^ 6 : Int) : ℚ) = 10 ^ 6 by norm_num] at f2
  rw [f1] at e1; rw [f2] at e2
  exact ⟨e1, e2⟩

theorem sixRaw_cast (hx : 0 < x) : ((sixRaw x).1 : Int) = rne (x * 10 ^ (5 - Int.log 10 x)) :=
  Int.toNat_of_nonneg (le_trans (by norm_num) (raw_bounds hx).1)

theorem six_bounds (hx : 0 < x) : 10 ^ 5 ≤ (six x).1 ∧ (six x).1 < 10 ^ 6 := by
  obtain ⟨h1, h2⟩ := raw_bounds hx
  rw [← sixRaw_cast hx] at h1 h2
  unfold six
  simp only
  split
  · norm_num
  · rename_i h
    constructor
    · exact_mod_cast h1
    · have h2' : (sixRaw x).1 ≤ 10 ^ 6 := by exact_mod_cast h2
      omega

theorem log_lt {e : Int} (hx : 0 < x) (h : x < 10 ^ e) : Int.log 10 x < e := by
  have := (Int.lt_zpow_iff_log_lt (b := 10) (by norm_num) hx (x := e)).mp (by push_cast; exact h)
  exact this

theorem le_log {e : Int} (hx : 0 < x) (h : (10 : ℚ) ^ e ≤ x) : e ≤ Int.log 10 x := by
  have := (Int.zpow_le_iff_le_log (b := 10) (by norm_num) hx (x := e)).mp (by push_cast; exact h)
  exact this

theorem rne_lt_million {y : ℚ} (h : y < 9999995 / 10) : rne y < 10 ^ 6 := by
  have h1 := Int.floor_le y
  have hfl : ⌊y⌋ < 10 ^ 6 := by
    have h3 : (⌊y⌋ : ℚ) < 10 ^ 6 := by linarith
    exact_mod_cast h3
  have hfx : y - ⌊y⌋ < 1 / 2 ∨ ⌊y⌋ < 999999 := by
    by_contra hcon
    push Not at hcon
    have : (999999 : ℚ) ≤ ⌊y⌋ := by exact_mod_cast hcon.2
    linarith [hcon.1]
  unfold rne
  simp only
  rcases hfx with h | h
  · rw [if_pos h]; exact hfl
  · split
    · omega
    · split
      · omega
      · split <;> omega

theorem rne_ge_million {y : ℚ} (h : 9999995 / 10 ≤ y) : 10 ^ 6 ≤ rne y := by
  have := rne_mono h
  rwa [show rne (9999995 / 10) = 10 ^ 6 by decide +kernel] at this

/-- the notation used -/
theorem six_exp (hx : 0 < x) : (-4 ≤ (six x).2 ↔ 9999995 / 10 ^ 11 ≤ x) ∧ ((six x).2 < 6 ↔ x < 9999995 / 10) := by
  have hc := sixRaw_cast hx
  have hb := raw_bounds hx
  have h2e : (sixRaw x).2 = Int.log 10 x := rfl
  have hse : (six x).2 = if (sixRaw x).1 = 10 ^ 6 then Int.log 10 x + 1 else Int.log 10 x := by
    unfold six; simp only; split <;> rfl
  constructor
  · constructor
    · intro h
      by_contra hlt
      push Not at hlt
      have l : Int.log 10 x < -4 := log_lt hx (by norm_num; linarith)
      rw [hse] at h
      split at h
      · rename_i hcar
        have l5 : Int.log 10 x = -5 := by omega
        rw [l5, hcar] at hc
        have := rne_lt_million (y := x * 10 ^ (5 - (-5 : Int))) (by norm_num; linarith)
        rw [← hc] at this
        norm_num at this
      · omega
    · intro h
      have l : -5 ≤ Int.log 10 x := le_log hx (by norm_num; linarith)
      rw [hse]
      split
      · omega
      · rename_i hcar
        by_contra hlt
        have l5 : Int.log 10 x = -5 := by omega
        rw [l5] at hc hb
        have := rne_ge_million (y := x * 10 ^ (5 - (-5 : Int))) (by norm_num; linarith)
        omega
  · constructor
    · intro h
      by_contra hge
      push Not at hge
      have l : 5 ≤ Int.log 10 x := le_log hx (by norm_num; linarith)
      rw [hse] at h
      split at h
      · omega
      · rename_i hcar
        have l5 : Int.log 10 x = 5 := by omega
        rw [l5] at hc hb
        have := rne_ge_million (y := x * 10 ^ (5 - (5 : Int))) (by norm_num; linarith)
        omega
    · intro h
      have l : Int.log 10 x < 6 := log_lt hx (by norm_num; linarith)
      rw [hse]
      split
      · rename_i hcar
        by_contra hlt
        have l5 : Int.log 10 x = 5 := by omega
        rw [l5, hcar] at hc
        have := rne_lt_million (y := x * 10 ^ (5 - (5 : Int))) (by norm_num; linarith)
        rw [← hc] at this
        norm_num at this
      · exact l

/-- what is read of a number in fixed notation -/
theorem fixed_reads (h1 : 9999995 / 10 ^ 11 ≤ x) (h2 : x < 9999995 / 10) :
    ∃ w : Nat, (10 : ℚ) ^ 5 ≤ x * 10 ^ w ∧
      readSigned (showPos x) = some (false, (rne (x * 10 ^ w)).toNat / 10 ^ w) := by
  have hx : 0 < x := lt_of_lt_of_le (by norm_num) h1
  obtain ⟨k1, k2⟩ := six_exp hx
  have k := And.intro (k1.mpr h1) (k2.mpr h2)
  have l2 : Int.log 10 x < 6 := log_lt hx (by norm_num; linarith)
  obtain ⟨w, hw⟩ : ∃ w : Nat, (w : Int) = 5 - Int.log 10 x := ⟨(5 - Int.log 10 x).toNat, by omega⟩
  have hs := scaled_bounds hx
  have hb := raw_bounds hx
  have hc := sixRaw_cast hx
  rw [← hw, zpow_natCast] at hs hb hc
  have hm : (sixRaw x).1 = (rne (x * 10 ^ w)).toNat := by omega
  refine ⟨w, hs.1, ?_⟩
  have h2e : (sixRaw x).2 = Int.log 10 x := rfl
  unfold showPos
  simp only
  rw [if_pos k]
  have e := decimal_reads (5 - (six x).2).toNat (six x).1 (s := []) (.inl rfl)
  rw [List.append_nil] at e
  rw [e, ← hm]
  by_cases hcarry : (sixRaw x).1 = 10 ^ 6
  · have e6 : six x = (10 ^ 5, Int.log 10 x + 1) := by unfold six; simp only; rw [if_pos hcarry]; rfl
    rw [e6] at k ⊢
    simp only at k ⊢
    obtain ⟨v, rfl⟩ : ∃ v, w = v + 1 := ⟨w - 1, by omega⟩
    have e5 : (5 - (Int.log 10 x + 1)).toNat = v := by omega
    rw [e5, hcarry, pow_succ 10 v, show (10 : Nat) ^ 6 = 10 ^ 5 * 10 from by norm_num,
      Nat.mul_div_mul_right _ _ (by norm_num)]
  · have e6 : six x = sixRaw x := by unfold six; simp only; rw [if_neg hcarry]
    have e5 : (5 - (six x).2).toNat = w := by rw [e6, h2e]; omega
    rw [e5, e6]

/-- what is read of a number in scientific notation -/
theorem sci_reads (hx : 0 < x) (h : ¬ (-4 ≤ (six x).2 ∧ (six x).2 < 6)) :
    ∃ d, 1 ≤ d ∧ d ≤ 9 ∧ readSigned (showPos x) = some (false, d) := by
  obtain ⟨h1, h2⟩ := six_bounds hx
  refine ⟨(six x).1 / 10 ^ 5, by omega, by omega, ?_⟩
  unfold showPos
  simp only
  rw [if_neg h]
  exact decimal_reads 5 _ (.inr ⟨'e', _, rfl, by decide⟩)

end

end Votess
