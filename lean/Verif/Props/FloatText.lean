import Verif.Proofs.FloatText
/-!
# C90 — floating point numbers given as parameters

A `float` or `double` assigned to a parameter becomes the text `operator<<` writes for it; the library then reads that text
as an `int` (or `bool`).  What arrives is stated with the value itself, without the text.
-/
namespace Votess

theorem readInt_of {s : Txt} {n : Nat} (h : readSigned s = some (false, n)) (hn : n < 2 ^ 31) : readInt s = some (n : Int) := by
  unfold readInt
  rw [h]
  simp only [Bool.false_eq_true, if_false]
  rw [if_pos (by omega)]

theorem readInt_neg {s : Txt} {n : Nat} (h : readSigned s = some (true, n)) (hn : n < 2 ^ 31) : readInt s = some (-(n : Int)) := by
  unfold readInt
  rw [h]
  simp only [if_true]
  rw [if_pos (by omega)]

theorem showRat_pos {x : ℚ} (hx : 0 < x) : showRat x = showPos x := by
  unfold showRat
  rw [if_neg hx.ne', if_neg (not_lt.mpr hx.le)]

theorem showRat_neg {x : ℚ} (hx : 0 < x) : showRat (-x) = '-' :: showPos x := by
  unfold showRat
  rw [if_neg (neg_ne_zero.mpr hx.ne'), if_pos (by linarith), neg_neg]

/-- both signs at once -/
theorem both_signs {x : ℚ} {n : Nat} (hx : 0 < x) (hn : n < 2 ^ 31) (h : readSigned (showPos x) = some (false, n)) :
    readInt (showRat x) = some (n : Int) ∧ readInt (showRat (-x)) = some (-(n : Int)) :=
  ⟨by rw [showRat_pos hx]; exact readInt_of h hn,
    by rw [showRat_neg hx]; exact readInt_neg (readSigned_minus h (showPos_head x)) hn⟩

/-- C90: a number from 0.00009999995 to 999999.5 arrives without its fraction, or as the next whole number if it is so close
below it that six digits do not tell them apart.  The sign is kept. -/
theorem C90_fixed {x : ℚ} (h1 : 9999995 / 10 ^ 11 ≤ x) (h2 : x < 9999995 / 10) :
    ∃ n : Int, readInt (showRat x) = some n ∧ readInt (showRat (-x)) = some (-n) ∧
      ⌊x⌋ ≤ n ∧ n ≤ ⌊x⌋ + 1 ∧ (x + x / 200000 < ⌊x⌋ + 1 → n = ⌊x⌋) := by
  have hx : 0 < x := lt_of_lt_of_le (by norm_num) h1
  obtain ⟨w, hw, hr⟩ := fixed_reads h1 h2
  have hfl0 : 0 ≤ ⌊x⌋ := Int.floor_nonneg.mpr hx.le
  have hp : (0 : ℚ) < 10 ^ w := by positivity
  have hpi : (0 : Int) < 10 ^ w := by positivity
  have hf1 := Int.floor_le x
  have hf2 := Int.lt_floor_add_one x
  have a1 : ⌊x⌋ * 10 ^ w ≤ rne (x * 10 ^ w) := by
    have : ((⌊x⌋ * 10 ^ w : Int) : ℚ) ≤ x * 10 ^ w := by push_cast; exact mul_le_mul_of_nonneg_right hf1 hp.le
    have := rne_mono this
    rwa [rne_int] at this
  have a2 : rne (x * 10 ^ w) ≤ (⌊x⌋ + 1) * 10 ^ w := by
    have : x * 10 ^ w ≤ (((⌊x⌋ + 1) * 10 ^ w : Int) : ℚ) := by push_cast; exact mul_le_mul_of_nonneg_right hf2.le hp.le
    have := rne_mono this
    rwa [rne_int] at this
  have hn0 : 0 ≤ rne (x * 10 ^ w) := le_trans (mul_nonneg hfl0 hpi.le) a1
  have hq : (((rne (x * 10 ^ w)).toNat / 10 ^ w : Nat) : Int) = rne (x * 10 ^ w) / 10 ^ w := by
    push_cast; rw [Int.toNat_of_nonneg hn0]
  have b1 : ⌊x⌋ ≤ rne (x * 10 ^ w) / 10 ^ w := (Int.le_ediv_iff_mul_le hpi).mpr a1
  have b2 : rne (x * 10 ^ w) / 10 ^ w ≤ ⌊x⌋ + 1 := by
    have := Int.ediv_le_ediv hpi a2
    rwa [Int.mul_ediv_cancel _ hpi.ne'] at this
  have hbig : ⌊x⌋ < 10 ^ 6 := by
    have : (⌊x⌋ : ℚ) < 10 ^ 6 := by linarith
    exact_mod_cast this
  obtain ⟨r1, r2⟩ := both_signs hx (n := (rne (x * 10 ^ w)).toNat / 10 ^ w) (by omega) hr
  rw [hq] at r1 r2
  refine ⟨_, r1, r2, b1, b2, fun hs => ?_⟩
  have c1 := (abs_le.mp (rne_err (x * 10 ^ w))).2
  have c2 : (rne (x * 10 ^ w) : ℚ) < (⌊x⌋ + 1) * 10 ^ w := by
    have := mul_lt_mul_of_pos_right hs hp
    linarith
  have c3 : rne (x * 10 ^ w) < (⌊x⌋ + 1) * 10 ^ w := by exact_mod_cast c2
  have := (Int.ediv_lt_iff_lt_mul hpi).mpr c3
  omega

example : readInt (showRat (27 / 2)) = some 13 ∧ readInt (showRat (-27 / 2)) = some (-13) := by decide +kernel
example : readInt (showRat (99999999 / 10 ^ 8)) = some 1 ∧ readInt (showRat (9999999 / 100)) = some 100000 := by decide +kernel

/-- C90: whole numbers below `10^6` in absolute value arrive unchanged. -/
theorem C90_whole (n : Int) (h : |n| < 10 ^ 6) : readInt (showRat n) = some n := by
  have pos : ∀ n : Int, 0 < n → n < 10 ^ 6 → readInt (showRat n) = some n ∧ readInt (showRat (-n)) = some (-n) := by
    intro n h0 h1
    have q0 : (1 : ℚ) ≤ n := by exact_mod_cast h0
    have q1 : (n : ℚ) ≤ 999999 := by exact_mod_cast (by omega : n ≤ 999999)
    obtain ⟨m, r1, r2, -, -, r3⟩ := C90_fixed (x := n) (by norm_num; linarith) (by linarith)
    by_cases hn : n < 200000
    · rw [Int.floor_intCast] at r3
      have hq : (n : ℚ) < 200000 := by exact_mod_cast hn
      have := r3 (by linarith)
      subst this
      exact ⟨r1, r2⟩
    · obtain ⟨w, hw, hr⟩ := fixed_reads (x := n) (by norm_num; linarith) (by linarith)
      have e : rne ((n : ℚ) * 10 ^ w) = n * 10 ^ w := by
        have := rne_int (n * 10 ^ w)
        push_cast at this; exact this
      have hp : 0 < 10 ^ w := by positivity
      obtain ⟨k, rfl⟩ : ∃ k : Nat, n = k := ⟨n.toNat, by omega⟩
      have e2 : ((k : Int) * 10 ^ w).toNat / 10 ^ w = k := by
        have : ((k : Int) * 10 ^ w).toNat = k * 10 ^ w := by
          have : ((k : Int) * 10 ^ w) = ((k * 10 ^ w : Nat) : Int) := by push_cast; rfl
          rw [this, Int.toNat_natCast]
        rw [this, Nat.mul_div_cancel _ hp]
      rw [e, e2] at hr
      exact both_signs (by linarith) (by omega) hr
  obtain ⟨h1, h2⟩ := abs_lt.mp h
  rcases lt_trichotomy n 0 with hn | rfl | hn
  · have := (pos (-n) (by omega) (by omega)).2
    push_cast at this
    rwa [neg_neg, neg_neg] at this
  · decide +kernel
  · exact (pos n hn h2).1

example : showRat 8196 = "8196".toList ∧ showRat (-999999) = "-999999".toList := by decide +kernel

/-- C90: numbers nearer to zero and numbers from 999999.5 on are written in scientific notation.  What arrives is their leading
digit, which is never the number meant: `1e6` arrives as 1. -/
theorem C90_digit {x : ℚ} (hx : 0 < x) (h : x < 9999995 / 10 ^ 11 ∨ 9999995 / 10 ≤ x) :
    ∃ d : Int, readInt (showRat x) = some d ∧ readInt (showRat (-x)) = some (-d) ∧ 1 ≤ d ∧ d ≤ 9 ∧ d ≠ ⌊x⌋ := by
  obtain ⟨k1, k2⟩ := six_exp hx
  have hnot : ¬ (-4 ≤ (six x).2 ∧ (six x).2 < 6) := by
    rw [k1, k2, not_and_or, not_le, not_lt]; exact h
  obtain ⟨d, d1, d9, hd⟩ := sci_reads hx hnot
  obtain ⟨r1, r2⟩ := both_signs hx (by omega) hd
  refine ⟨d, r1, r2, by omega, by omega, fun he => ?_⟩
  rcases h with h | h
  · have : ⌊x⌋ < 1 := Int.floor_lt.mpr (by push_cast; linarith)
    omega
  · have : 10 ≤ ⌊x⌋ := Int.le_floor.mpr (by push_cast; linarith)
    omega

example : showRat (10 ^ 6) = "1e+06".toList ∧ readInt (showRat (10 ^ 6)) = some 1 := by decide +kernel
example : showRat (1 / 2 ^ 20) = "9.53674e-07".toList ∧ readInt (showRat (1 / 2 ^ 20)) = some 9 := by decide +kernel
example : showRat 9999995 = "1e+07".toList ∧ showRat 16777216 = "1.67772e+07".toList := by decide +kernel

/-- C90: for a switch, exactly what arrives as 0 or 1 is accepted. -/
theorem C90_bool {x : ℚ} {n : Int} (h : readInt (showRat x) = some n) :
    readBool (showRat x) = if n = 0 then some false else if n = 1 then some true else none := by
  unfold readInt at h
  unfold readBool
  cases hs : readSigned (showRat x) with
  | none => rw [hs] at h; cases h
  | some p =>
    obtain ⟨neg, k⟩ := p
    rw [hs] at h
    have h' : (if neg then -(k : Int) else k) = n := by
      have h2 : (if -2 ^ 31 ≤ (if neg then -(k : Int) else k) ∧ (if neg then -(k : Int) else k) < 2 ^ 31
        then some (if neg then -(k : Int) else k) else none) = some n := h
      generalize (if neg then -(k : Int) else k) = v at h2 ⊢
      by_cases hv : -2 ^ 31 ≤ v ∧ v < 2 ^ 31
      · rw [if_pos hv] at h2; exact Option.some.inj h2
      · rw [if_neg hv] at h2; exact absurd h2 (by simp)
    subst h'
    clear h hs
    rcases k with _ | _ | k
    · cases neg <;> rfl
    · cases neg <;> rfl
    · have e0 : (if neg then -((k + 1 + 1 : Nat) : Int) else ((k + 1 + 1 : Nat) : Int)) ≠ 0 := by split <;> omega
      have e1 : (if neg then -((k + 1 + 1 : Nat) : Int) else ((k + 1 + 1 : Nat) : Int)) ≠ 1 := by split <;> omega
      rw [if_neg e0, if_neg e1]
      cases neg <;> rfl

example : readInt (showRat (1 / 2)) = some 0 ∧ readBool (showRat (1 / 2)) = some false := by decide +kernel
example : readBool (showRat 1) = some true ∧ readBool (showRat 2) = none := by decide +kernel

/-- C90: infinities and NaN cannot be read at all. -/
theorem C90_special {f : Fmt} {v : Fl f} (h : ∀ x, v ≠ .fin x) : readInt (showFl v) = none ∧ readBool (showFl v) = none := by
  cases v with
  | fin x => exact absurd rfl (h x)
  | pinf => exact ⟨(by decide +kernel : readInt "inf".toList = none), (by decide +kernel : readBool "inf".toList = none)⟩
  | ninf => exact ⟨(by decide +kernel : readInt "-inf".toList = none), (by decide +kernel : readBool "-inf".toList = none)⟩
  | nan => exact ⟨(by decide +kernel : readInt "nan".toList = none), (by decide +kernel : readBool "nan".toList = none)⟩

end Votess
