import Verif.Props.FloatText
import Verif.Props.Text
/-!
# C90 — the text of a floating point number stands for the number

The text written for a floating point parameter is a decimal numeral (Spec/Numeral), correct to six digits; numbers with at most six
digits are written exactly.  So a parameter read back as a floating point number (C72) is the number stored up to a
relative error of 1/200000.
-/
namespace Votess

theorem digitOf_digitChar {d : Nat} (h : d < 10) : digitOf (digitChar d) = d := by
  have : ∀ d < 10, ((digitChar d).toNat - '0'.toNat : Nat) = d := by decide
  unfold digitOf
  rw [this d h]

theorem wholeVal_append (a b : Txt) : wholeVal (a ++ b) = wholeVal a * 10 ^ b.length + wholeVal b := by
  induction a with
  | nil => simp [wholeVal]
  | cons c cs ih =>
    rw [List.cons_append, wholeVal, wholeVal, ih, List.length_append, pow_add]
    ring

theorem wholeVal_natDigits : ∀ fuel n : Nat, n < fuel → wholeVal (natDigitsAux fuel n) = n := by
  intro fuel
  induction fuel with
  | zero => intro n h; omega
  | succ fuel ih =>
    intro n h
    rw [natDigitsAux]
    split
    · rename_i h10
      simp [wholeVal, digitOf_digitChar h10]
    · rw [wholeVal_append, ih _ (by omega)]
      simp only [wholeVal, List.length_singleton, List.length_nil, pow_zero, mul_one, add_zero, pow_one]
      rw [digitOf_digitChar (by omega)]
      have : (n : ℚ) = ((n / 10 * 10 + n % 10 : Nat) : ℚ) := by congr 1; omega
      rw [this]; push_cast; ring

theorem wholeVal_showNat (n : Nat) : wholeVal (showNat n) = n := wholeVal_natDigits _ _ (by omega)

theorem allDigits_showNat (n : Nat) : AllDigits (showNat n) := fun c hc => (isDigitC_iff c).mp (natDigitsAux_digits _ _ c hc)

theorem showNat_ne (n : Nat) : showNat n ≠ [] := by
  obtain ⟨c, cs, h, -⟩ := natDigitsAux_cons (n + 1) n (by omega)
  unfold showNat
  rw [h]; simp

theorem natDigits_length : ∀ fuel n w : Nat, n < fuel → 1 ≤ w → n < 10 ^ w → (natDigitsAux fuel n).length ≤ w := by
  intro fuel
  induction fuel with
  | zero => intro n w h; omega
  | succ fuel ih =>
    intro n w h hw hn
    rw [natDigitsAux]
    split
    · simpa using hw
    · obtain ⟨v, rfl⟩ : ∃ v, w = v + 1 := ⟨w - 1, by omega⟩
      rw [Nat.pow_succ] at hn
      have hv : 1 ≤ v := by
        by_contra h0
        have : v = 0 := by omega
        subst this
        omega
      have := ih (n / 10) v (by omega) hv (by omega)
      simp; omega

theorem wholeVal_zeros (k : Nat) : wholeVal (List.replicate k '0') = 0 := by
  induction k with
  | zero => rfl
  | succ k ih =>
    rw [List.replicate_succ, wholeVal, ih, show digitOf '0' = 0 by decide]
    simp

theorem wholeVal_padded (w n : Nat) : wholeVal (padded w n) = n := by
  unfold padded
  rw [wholeVal_append, wholeVal_zeros, wholeVal_showNat]; ring

theorem allDigits_padded (w n : Nat) : AllDigits (padded w n) := by
  intro c hc
  unfold padded at hc
  rcases List.mem_append.mp hc with h | h
  · rw [List.eq_of_mem_replicate h]; decide
  · exact allDigits_showNat n c h

theorem padded_ne (w n : Nat) : padded w n ≠ [] := by
  unfold padded
  intro h
  exact showNat_ne n (List.append_eq_nil_iff.mp h).2

theorem padded_length {w n : Nat} (hw : 1 ≤ w) (h : n < 10 ^ w) : (padded w n).length = w := by
  have := natDigits_length (n + 1) n w (by omega) hw h
  unfold padded
  rw [List.length_append, List.length_replicate]
  unfold showNat
  omega

theorem fracVal_eq (s : Txt) : fracVal s = wholeVal s / 10 ^ s.length := by
  induction s with
  | nil => simp [fracVal, wholeVal]
  | cons c cs ih =>
    rw [fracVal, wholeVal, ih, List.length_cons, pow_succ]
    field_simp

theorem fracVal_zeros {z : Txt} (hz : ∀ c ∈ z, c = '0') : fracVal z = 0 := by
  induction z with
  | nil => rfl
  | cons c cs ih =>
    rw [fracVal, ih (fun c hc => hz c (List.mem_cons_of_mem _ hc)), hz c (by simp), show digitOf '0' = 0 by decide]
    simp

theorem fracVal_append_zeros (t : Txt) {z : Txt} (hz : ∀ c ∈ z, c = '0') : fracVal (t ++ z) = fracVal t := by
  induction t with
  | nil => exact fracVal_zeros hz
  | cons c cs ih => rw [List.cons_append, fracVal, fracVal, ih]

theorem strip_split (s : Txt) : ∃ z, s = stripZeros s ++ z ∧ ∀ c ∈ z, c = '0' := by
  refine ⟨(s.reverse.takeWhile (· = '0')).reverse, ?_, ?_⟩
  · unfold stripZeros
    rw [← List.reverse_append, List.takeWhile_append_dropWhile, List.reverse_reverse]
  · intro c hc
    have hall : ∀ l : Txt, ∀ c ∈ l.takeWhile (· = '0'), c = '0' := by
      intro l
      induction l with
      | nil => simp
      | cons d l ih =>
        intro c hc
        rw [List.takeWhile_cons] at hc
        split at hc
        · rename_i hd
          rcases List.mem_cons.mp hc with rfl | h
          · simpa using hd
          · exact ih c h
        · simp at hc
    exact hall _ c (List.mem_reverse.mp hc)

theorem fracVal_strip (s : Txt) : fracVal (stripZeros s) = fracVal s := by
  obtain ⟨z, h, hz⟩ := strip_split s
  conv_rhs => rw [h]
  rw [fracVal_append_zeros _ hz]

theorem allDigits_strip {s : Txt} (h : AllDigits s) : AllDigits (stripZeros s) := by
  obtain ⟨z, e, -⟩ := strip_split s
  intro c hc
  exact h c (by rw [e]; exact List.mem_append_left _ hc)

theorem fracVal_padded {w r : Nat} (h : r < 10 ^ w) : fracVal (padded w r) = r / 10 ^ w := by
  rcases Nat.eq_zero_or_pos w with rfl | hw
  · have : r = 0 := by simpa using h
    subst this
    simp [show padded 0 0 = ['0'] by decide, fracVal, show digitOf '0' = 0 by decide]
  · rw [fracVal_eq, padded_length hw h, wholeVal_padded]

/-- the text `decimalText w m`, with an exponent after it -/
theorem numeral_decimal (w m : Nat) {x : Txt} {e : Int} (hx : ExpIs x e) {s : Txt} {σ : ℚ} (hs : SignIs s σ) :
    Numeral (s ++ (decimalText w m ++ x)) (σ * (m / 10 ^ w) * 10 ^ e) := by
  have hval : (m : ℚ) / 10 ^ w = wholeVal (showNat (m / 10 ^ w)) + fracVal (stripZeros (padded w (m % 10 ^ w))) := by
    rw [wholeVal_showNat, fracVal_strip, fracVal_padded (Nat.mod_lt _ (by positivity))]
    have : (m : ℚ) = ((m / 10 ^ w * 10 ^ w + m % 10 ^ w : Nat) : ℚ) := by congr 1; exact (Nat.div_add_mod' m _).symm
    conv_lhs => rw [this]
    push_cast
    field_simp
  refine ⟨s, showNat (m / 10 ^ w), if stripZeros (padded w (m % 10 ^ w)) = [] then [] else ['.'],
    stripZeros (padded w (m % 10 ^ w)), x, σ, e, ?_, hs, allDigits_showNat _, allDigits_strip (allDigits_padded _ _), ?_,
    .inl (showNat_ne _), hx, by rw [hval]⟩
  · unfold decimalText
    simp only
    split
    · rename_i h; rw [h]; simp
    · simp
  · split
    · rename_i h; exact .inr ⟨rfl, h⟩
    · exact .inl rfl

/-- the exponent written after the six digits -/
theorem expIs_six (e : Int) : ExpIs ('e' :: (if e < 0 then '-' else '+') :: padded 2 e.natAbs) e := by
  refine .inr ⟨'e', [if e < 0 then '-' else '+'], padded 2 e.natAbs, if e < 0 then -1 else 1, .inl rfl, ?_,
    allDigits_padded _ _, padded_ne _ _, rfl, ?_⟩
  · split
    · exact .inr (.inr ⟨rfl, rfl⟩)
    · exact .inr (.inl ⟨rfl, rfl⟩)
  · rw [wholeVal_padded]
    rw [Nat.cast_natAbs]
    split
    · rename_i h
      rw [abs_of_neg h]; push_cast; ring
    · rename_i h
      rw [abs_of_nonneg (by omega)]; ring

/-- the value of the six digits -/
theorem six_value {x : ℚ} (hx : 0 < x) :
    ((six x).1 : ℚ) * 10 ^ ((six x).2 - 5) = rne (x * 10 ^ (5 - Int.log 10 x)) * 10 ^ (Int.log 10 x - 5) := by
  have hc : ((sixRaw x).1 : ℚ) = (rne (x * 10 ^ (5 - Int.log 10 x)) : ℚ) := by
    rw [← sixRaw_cast hx]; push_cast; rfl
  have h2e : (sixRaw x).2 = Int.log 10 x := rfl
  unfold six
  simp only
  split
  · rename_i h
    rw [h] at hc
    rw [← hc, h2e]
    simp only
    rw [show Int.log 10 x + 1 - 5 = (Int.log 10 x - 5) + 1 by ring, zpow_add₀ (by norm_num)]
    push_cast; ring
  · rw [hc, h2e]

theorem numeral_pos {x : ℚ} (hx : 0 < x) {s : Txt} {σ : ℚ} (hs : SignIs s σ) :
    Numeral (s ++ showPos x) (σ * (rne (x * 10 ^ (5 - Int.log 10 x)) * 10 ^ (Int.log 10 x - 5))) := by
  rw [← six_value hx]
  unfold showPos
  simp only
  split
  · rename_i h
    have := numeral_decimal (5 - (six x).2).toNat (six x).1 (x := []) (e := 0) (.inl ⟨rfl, rfl⟩) hs
    rw [List.append_nil] at this
    have e : (10 : ℚ) ^ ((six x).2 - 5) = 1 / 10 ^ (5 - (six x).2).toNat := by
      rw [← zpow_natCast, Int.toNat_of_nonneg (by omega), one_div, ← zpow_neg, neg_sub]
    rw [e]
    convert this using 1
    rw [zpow_zero]; ring
  · have := numeral_decimal 5 (six x).1 (expIs_six (six x).2) hs
    convert this using 1
    rw [zpow_sub₀ (by norm_num)]
    norm_num
    ring

theorem six_error {x : ℚ} (hx : 0 < x) :
    |rne (x * 10 ^ (5 - Int.log 10 x)) * (10 : ℚ) ^ (Int.log 10 x - 5) - x| ≤ x / 200000 := by
  have h := rne_err (x * 10 ^ (5 - Int.log 10 x))
  have hp : (0 : ℚ) < 10 ^ (Int.log 10 x - 5) := by positivity
  have e1 : x = x * 10 ^ (5 - Int.log 10 x) * 10 ^ (Int.log 10 x - 5) := by
    rw [mul_assoc, ← zpow_add₀ (by norm_num)]; simp
  have h1 := Int.zpow_log_le_self (b := 10) (by norm_num) hx
  push_cast at h1
  calc |rne (x * 10 ^ (5 - Int.log 10 x)) * (10 : ℚ) ^ (Int.log 10 x - 5) - x|
      = |rne (x * 10 ^ (5 - Int.log 10 x)) - x * 10 ^ (5 - Int.log 10 x)| * 10 ^ (Int.log 10 x - 5) := by
        rw [← abs_of_pos hp, ← abs_mul, sub_mul, abs_of_pos hp, ← e1]
    _ ≤ 1 / 2 * 10 ^ (Int.log 10 x - 5) := mul_le_mul_of_nonneg_right h hp.le
    _ = 10 ^ Int.log 10 x / 200000 := by rw [zpow_sub₀ (by norm_num)]; norm_num; ring
    _ ≤ x / 200000 := by linarith

theorem six_exact {x : ℚ} (hx : 0 < x) {k j : Int} (hk : k < 10 ^ 6) (h : x = k * 10 ^ j) :
    rne (x * 10 ^ (5 - Int.log 10 x)) * (10 : ℚ) ^ (Int.log 10 x - 5) = x := by
  have hl : Int.log 10 x < 6 + j := log_lt hx (by
    have hp : (0 : ℚ) < 10 ^ j := by positivity
    have hk' : (k : ℚ) < 10 ^ 6 := by exact_mod_cast hk
    rw [zpow_add₀ (by norm_num), h]
    exact mul_lt_mul_of_pos_right hk' hp)
  obtain ⟨n, hn⟩ : ∃ n : Nat, (n : Int) = j + (5 - Int.log 10 x) := ⟨(j + (5 - Int.log 10 x)).toNat, by omega⟩
  have e : x * 10 ^ (5 - Int.log 10 x) = ((k * 10 ^ n : Int) : ℚ) := by
    conv_lhs => rw [show x * (10 : ℚ) ^ (5 - Int.log 10 x) = k * 10 ^ j * 10 ^ (5 - Int.log 10 x) by rw [← h]]
    rw [mul_assoc, ← zpow_add₀ (by norm_num), ← hn, zpow_natCast]
    push_cast; rfl
  rw [e, rne_int, ← e, mul_assoc, ← zpow_add₀ (by norm_num)]
  simp

/-- C90: the text written for a number is a decimal numeral whose value differs from the number by at most 1/200000 of it;
it is the number if six digits are enough for it.  Read as a floating point number, this value arrives. -/
theorem C90_numeral (x : ℚ) : ∃ q, Numeral (showRat x) q ∧ scanDec (showRat x) = some (q, []) ∧ |q - x| ≤ |x| / 200000 ∧
    ∀ k j : Int, |k| < 10 ^ 6 → x = k * 10 ^ j → q = x := by
  have main : ∃ q, Numeral (showRat x) q ∧ |q - x| ≤ |x| / 200000 ∧ ∀ k j : Int, |k| < 10 ^ 6 → x = k * 10 ^ j → q = x := by
    rcases lt_trichotomy x 0 with hx | rfl | hx
    · have hn : 0 < -x := by linarith
      refine ⟨_, by rw [← neg_neg x, showRat_neg hn]; exact numeral_pos hn (s := ['-']) (.inr (.inr ⟨rfl, rfl⟩)), ?_, ?_⟩
      · have := six_error hn
        rw [abs_of_neg hx, ← abs_neg]
        convert this using 2
        ring
      · intro k j hk hkj
        have := six_exact hn (k := -k) (j := j) (by have := (abs_lt.mp hk).1; omega) (by rw [hkj]; push_cast; ring)
        rw [this]; ring
    · refine ⟨0, ?_, by simp, fun _ _ _ _ => rfl⟩
      have := numeral_decimal 0 0 (x := []) (e := 0) (.inl ⟨rfl, rfl⟩) (s := []) (σ := 1) (.inl ⟨rfl, rfl⟩)
      have e : showRat 0 = [] ++ (decimalText 0 0 ++ []) := by decide +kernel
      rw [e]
      convert this using 1
      simp
    · refine ⟨_, by rw [showRat_pos hx]; exact numeral_pos hx (s := []) (.inl ⟨rfl, rfl⟩), ?_, ?_⟩
      · rw [abs_of_pos hx, one_mul]; exact six_error hx
      · intro k j hk hkj
        rw [one_mul]
        exact six_exact hx (abs_lt.mp hk).2 hkj
  obtain ⟨q, h1, h2, h3⟩ := main
  refine ⟨q, h1, ?_, h2, h3⟩
  have := C72_numeral_is_read (ws := []) (r := []) (by simp) h1 (by intro c hc; simp at hc)
  simpa using this

example : showRat (1 / 3) = "0.333333".toList ∧ showRat (-21 / 20) = "-1.05".toList := by decide +kernel
example : scanDec (showRat (-21 / 20)) = some (-21 / 20, []) := by decide +kernel

end Votess
