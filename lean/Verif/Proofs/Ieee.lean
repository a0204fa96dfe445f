import Verif.Model.Ieee
import Verif.Model.XyzSet
import Mathlib.Tactic.Linarith
import Mathlib.Tactic.Positivity
import Mathlib.Tactic.FieldSimp
import Mathlib.Tactic.Ring
import Mathlib.Tactic.NormNum
import Mathlib.Algebra.Order.Field.Power
/-! Lemmas on rounding. -/
namespace Votess

theorem pow2_eq (e : Int) : pow2 e = (2 : ℚ) ^ e := by
  cases e with
  | ofNat n => simp [pow2]
  | negSucc n =>
    rw [pow2, zpow_negSucc, Rat.mkRat_eq_div]
    push_cast
    rw [one_div]

theorem pow2_pos (e : Int) : 0 < pow2 e := by rw [pow2_eq]; positivity

theorem pow2_add (a b : Int) : pow2 (a + b) = pow2 a * pow2 b := by
  rw [pow2_eq, pow2_eq, pow2_eq, zpow_add₀ (by norm_num)]

theorem pow2_le {a b : Int} (h : a ≤ b) : pow2 a ≤ pow2 b := by
  rw [pow2_eq, pow2_eq]; exact zpow_le_zpow_right₀ (by norm_num) h

theorem pow2_lt {a b : Int} (h : a < b) : pow2 a < pow2 b := by
  rw [pow2_eq, pow2_eq]; exact zpow_lt_zpow_right₀ (by norm_num) h

theorem pow2_lt_iff {a b : Int} : pow2 a < pow2 b ↔ a < b := by
  constructor
  · intro h
    by_contra hc
    exact absurd (pow2_le (not_lt.mp hc)) (not_le.mpr h)
  · exact pow2_lt

theorem pow2_nat (n : Nat) : pow2 n = 2 ^ n := by rw [pow2_eq, zpow_natCast]

theorem pow2_succ (e : Int) : pow2 (e + 1) = 2 * pow2 e := by
  rw [pow2_add]; rw [show pow2 1 = 2 by rw [pow2_eq]; norm_num]; ring

/-! ### logarithm -/

theorem ilog2_spec {x : ℚ} (hx : 0 < x) : pow2 (ilog2 x) ≤ x ∧ x < pow2 (ilog2 x + 1) := by
  have hn : 0 < x.num := Rat.num_pos.mpr hx
  have hN : x.num.natAbs ≠ 0 := by omega
  have hD : x.den ≠ 0 := x.den_nz
  have hxe : x = (x.num.natAbs : ℚ) / (x.den : ℚ) := by
    conv_lhs => rw [← Rat.num_div_den x]
    congr 1
    have : (x.num.natAbs : Int) = x.num := by omega
    have h2 : ((x.num.natAbs : Int) : ℚ) = (x.num : ℚ) := by rw [this]
    rw [← h2]; rfl
  generalize hNe : x.num.natAbs = N at *
  generalize hDe : x.den = D at *
  have n1 : ((2 ^ N.log2 : Nat) : ℚ) ≤ N := by exact_mod_cast Nat.log2_self_le hN
  have n2 : (N : ℚ) < ((2 ^ (N.log2 + 1) : Nat) : ℚ) := by exact_mod_cast Nat.lt_log2_self
  have d1 : ((2 ^ D.log2 : Nat) : ℚ) ≤ D := by exact_mod_cast Nat.log2_self_le hD
  have d2 : (D : ℚ) < ((2 ^ (D.log2 + 1) : Nat) : ℚ) := by exact_mod_cast Nat.lt_log2_self
  push_cast at n1 n2 d1 d2
  have hDp : (0 : ℚ) < D := by positivity
  have up : x < pow2 ((N.log2 : Int) - D.log2 + 1) := by
    rw [pow2_eq, show (N.log2 : Int) - D.log2 + 1 = ((N.log2 + 1 : Nat) : Int) - (D.log2 : Nat) by push_cast; ring,
      zpow_sub₀ (by norm_num), zpow_natCast, zpow_natCast, hxe, div_lt_div_iff₀ hDp (by positivity)]
    calc (N : ℚ) * 2 ^ D.log2 < 2 ^ (N.log2 + 1) * 2 ^ D.log2 := by
          apply mul_lt_mul_of_pos_right n2; positivity
      _ ≤ 2 ^ (N.log2 + 1) * D := by apply mul_le_mul_of_nonneg_left d1; positivity
  have lo : pow2 ((N.log2 : Int) - D.log2 - 1) < x := by
    rw [pow2_eq, show (N.log2 : Int) - D.log2 - 1 = ((N.log2 : Nat) : Int) - (D.log2 + 1 : Nat) by push_cast; ring,
      zpow_sub₀ (by norm_num), zpow_natCast, zpow_natCast, hxe, div_lt_div_iff₀ (by positivity) hDp]
    calc (2 : ℚ) ^ N.log2 * D < 2 ^ N.log2 * 2 ^ (D.log2 + 1) := by
          apply mul_lt_mul_of_pos_left d2; positivity
      _ ≤ N * 2 ^ (D.log2 + 1) := by apply mul_le_mul_of_nonneg_right n1; positivity
  unfold ilog2
  rw [hNe, hDe]
  simp only
  split
  · exact ⟨by assumption, up⟩
  · rename_i h
    exact ⟨lo.le, by rw [sub_add_cancel]; exact not_le.mp h⟩

theorem ilog2_unique {x : ℚ} {e : Int} (h1 : pow2 e ≤ x) (h2 : x < pow2 (e + 1)) : ilog2 x = e := by
  have hx : 0 < x := lt_of_lt_of_le (pow2_pos e) h1
  obtain ⟨g1, g2⟩ := ilog2_spec hx
  have a := pow2_lt_iff.mp (lt_of_le_of_lt h1 g2)
  have b := pow2_lt_iff.mp (lt_of_le_of_lt g1 h2)
  omega

theorem ilog2_mono {x y : ℚ} (hx : 0 < x) (h : x ≤ y) : ilog2 x ≤ ilog2 y := by
  have a := pow2_lt_iff.mp (lt_of_le_of_lt ((ilog2_spec hx).1.trans h)
    (ilog2_spec (lt_of_lt_of_le hx h)).2)
  omega

/-! ### nearest integer -/

theorem rne_err (x : ℚ) : |(rne x : ℚ) - x| ≤ 1 / 2 := by
  have h1 := Int.floor_le x
  have h2 := Int.lt_floor_add_one x
  unfold rne
  simp only
  split
  · rw [abs_le]; constructor <;> linarith
  · split
    · push_cast; rw [abs_le]; constructor <;> linarith
    · split
      · rw [abs_le]; constructor <;> linarith
      · push_cast; rw [abs_le]; constructor <;> linarith

theorem rne_int (n : Int) : rne (n : ℚ) = n := by
  unfold rne
  simp

theorem rne_mono {x y : ℚ} (h : x ≤ y) : rne x ≤ rne y := by
  have hf := Int.floor_le_floor h
  have x1 := Int.floor_le x
  have x2 := Int.lt_floor_add_one x
  have y1 := Int.floor_le y
  have y2 := Int.lt_floor_add_one y
  have bx : rne x ≤ ⌊x⌋ + 1 := by
    unfold rne; simp only; split_ifs <;> omega
  have by' : ⌊y⌋ ≤ rne y := by
    unfold rne; simp only; split_ifs <;> omega
  by_cases hlt : ⌊x⌋ < ⌊y⌋
  · omega
  have he : ⌊x⌋ = ⌊y⌋ := by omega
  unfold rne
  simp only
  rw [he]
  split_ifs <;> first | omega | linarith

theorem rne_neg (x : ℚ) : rne (-x) = - rne x := by
  have h1 := Int.floor_le x
  have h2 := Int.lt_floor_add_one x
  by_cases hi : (⌊x⌋ : ℚ) = x
  · rw [← hi]
    rw [← Int.cast_neg, rne_int, rne_int]
  have hlt : (⌊x⌋ : ℚ) < x := lt_of_le_of_ne h1 hi
  have hfl : ⌊-x⌋ = -⌊x⌋ - 1 := by
    rw [Int.floor_eq_iff]; push_cast; constructor <;> linarith
  unfold rne
  simp only
  rw [hfl]
  push_cast
  split_ifs <;> first | omega | linarith

/-! ### rounding -/

variable {f : Fmt}

/-- half a unit in the last place at `1` -/
def Fmt.u (f : Fmt) : ℚ := pow2 (-(f.p : Int))

/-- half the smallest positive value -/
def Fmt.half (f : Fmt) : ℚ := pow2 (f.qmin - 1)

theorem Fmt.u_pos (f : Fmt) : 0 < f.u := pow2_pos _
theorem Fmt.half_pos (f : Fmt) : 0 < f.half := pow2_pos _
theorem Fmt.normal_pos (f : Fmt) : 0 < f.normal := pow2_pos _

theorem nearest_err_quantum (f : Fmt) (x : ℚ) : |nearest f x - x| ≤ pow2 (quantum f x) / 2 := by
  unfold nearest
  split
  · rename_i h; subst h; simp only [sub_self, abs_zero]; exact (_root_.half_pos (pow2_pos _)).le
  · have hp := pow2_pos (quantum f x)
    have := rne_err (x / pow2 (quantum f x))
    have e : (rne (x / pow2 (quantum f x)) : ℚ) * pow2 (quantum f x) - x
        = ((rne (x / pow2 (quantum f x)) : ℚ) - x / pow2 (quantum f x)) * pow2 (quantum f x) := by
      field_simp
    rw [e, abs_mul, abs_of_pos hp]
    calc _ ≤ 1 / 2 * pow2 (quantum f x) := mul_le_mul_of_nonneg_right this hp.le
      _ = _ := by ring

/-- error of rounding below `1`: half a unit in the last place there -/
theorem nearest_err_unit (f : Fmt) {x : ℚ} (h : |x| < 1) : |nearest f x - x| ≤ max (f.u / 2) f.half := by
  by_cases h0 : x = 0
  · subst h0
    have e : nearest f 0 = 0 := by unfold nearest; simp
    rw [e]; simp only [sub_self, abs_zero]
    exact le_max_of_le_right f.half_pos.le
  have hx : 0 < |x| := abs_pos.mpr h0
  have hl : ilog2 |x| ≤ -1 := by
    have a := pow2_lt_iff.mp (lt_of_le_of_lt (ilog2_spec hx).1 (show |x| < pow2 0 by rw [pow2_eq]; simpa using h))
    omega
  refine (nearest_err_quantum f x).trans ?_
  unfold quantum
  rcases le_total (ilog2 |x| - (f.p - 1)) f.qmin with hq | hq
  · rw [max_eq_right hq]
    refine le_max_of_le_right (le_of_eq ?_)
    unfold Fmt.half
    have := pow2_succ (f.qmin - 1)
    rw [show f.qmin - 1 + 1 = f.qmin by ring] at this
    rw [this]; ring
  · rw [max_eq_left hq]
    refine le_max_of_le_left ?_
    unfold Fmt.u
    have := pow2_le (show ilog2 |x| - ((f.p : Int) - 1) ≤ -(f.p : Int) by omega)
    linarith

/-- error of rounding -/
theorem nearest_err (f : Fmt) (x : ℚ) : |nearest f x - x| ≤ f.u * |x| + f.half := by
  by_cases h0 : x = 0
  · subst h0
    have := f.half_pos
    simp only [nearest, if_true, sub_self, abs_zero, mul_zero]; linarith
  refine (nearest_err_quantum f x).trans ?_
  have ha : 0 < |x| := abs_pos.mpr h0
  have hs := (ilog2_spec ha).1
  have e1 : pow2 (f.qmin) / 2 = f.half := by
    unfold Fmt.half
    have := pow2_succ (f.qmin - 1)
    rw [sub_add_cancel] at this; linarith
  have e2 : pow2 (ilog2 |x| - (f.p - 1)) / 2 = f.u * pow2 (ilog2 |x|) := by
    unfold Fmt.u
    rw [← pow2_add]
    have := pow2_succ (-(f.p : Int) + ilog2 |x|)
    rw [show -(f.p : Int) + ilog2 |x| + 1 = ilog2 |x| - (f.p - 1) by ring] at this
    linarith
  unfold quantum
  rcases le_total (ilog2 |x| - (f.p - 1)) f.qmin with h | h
  · rw [max_eq_right h, e1]
    have := mul_nonneg f.u_pos.le ha.le
    linarith
  · rw [max_eq_left h, e2]
    have := mul_le_mul_of_nonneg_left hs f.u_pos.le
    have := f.half_pos
    linarith

/-- error of rounding in the normal range -/
theorem nearest_err_normal (f : Fmt) {x : ℚ} (h : pow2 (f.qmin + (f.p - 1)) ≤ |x|) :
    |nearest f x - x| ≤ f.u * |x| := by
  have ha : 0 < |x| := lt_of_lt_of_le (pow2_pos _) h
  refine (nearest_err_quantum f x).trans ?_
  have hs := ilog2_spec ha
  have hq : f.qmin ≤ ilog2 |x| - (f.p - 1) := by
    have := pow2_lt_iff.mp (lt_of_le_of_lt h hs.2)
    omega
  have e2 : pow2 (ilog2 |x| - (f.p - 1)) / 2 = f.u * pow2 (ilog2 |x|) := by
    unfold Fmt.u
    rw [← pow2_add]
    have := pow2_succ (-(f.p : Int) + ilog2 |x|)
    rw [show -(f.p : Int) + ilog2 |x| + 1 = ilog2 |x| - (f.p - 1) by ring] at this
    linarith
  unfold quantum
  rw [max_eq_left hq, e2]
  exact mul_le_mul_of_nonneg_left hs.1 f.u_pos.le

/-- values of the format are not changed -/
theorem nearest_rep {x : ℚ} {m e : Int} (hps : 1 ≤ f.p) (hm : |m| ≤ 2 ^ f.p) (he : f.qmin ≤ e) (hx : x = m * pow2 e) :
    nearest f x = x := by
  unfold nearest
  split
  · rename_i h; exact h.symm
  rename_i h0
  have hp := pow2_pos (quantum f x)
  have hpe := pow2_pos e
  have ha : 0 < |x| := abs_pos.mpr h0
  have hs := (ilog2_spec ha).1
  -- the quotient is an integer
  have key : ∃ n : Int, x / pow2 (quantum f x) = n := by
    by_cases hq : quantum f x ≤ e
    · obtain ⟨d, hd⟩ := Int.le.dest hq
      refine ⟨m * 2 ^ d, ?_⟩
      rw [div_eq_iff hp.ne']
      calc x = m * pow2 e := hx
        _ = m * (pow2 (quantum f x) * 2 ^ d) := by rw [← pow2_nat, ← pow2_add, hd]
        _ = _ := by push_cast; ring
    · -- only for a power of two
      have hlt : e < quantum f x := by omega
      have hle : |x| ≤ pow2 (f.p + e) := by
        rw [hx, abs_mul, abs_of_pos hpe, pow2_add, pow2_nat]
        apply mul_le_mul_of_nonneg_right _ hpe.le
        exact_mod_cast hm
      unfold quantum at hlt
      have h1 : e < ilog2 |x| - (f.p - 1) := by
        rcases lt_max_iff.mp hlt with h | h
        · exact h
        · omega
      have h2 : (f.p : Int) + e ≤ ilog2 |x| := by omega
      have hxx : |x| = pow2 (f.p + e) := le_antisymm hle ((pow2_le h2).trans hs)
      have hil : ilog2 |x| = f.p + e := by
        rw [hxx]; exact ilog2_unique (le_refl _) (pow2_lt (by omega))
      have hqq : quantum f x = e + 1 := by
        unfold quantum; rw [hil]; omega
      rw [hqq]
      have e3 : pow2 (f.p + e) = 2 ^ (f.p - 1) * pow2 (e + 1) := by
        rw [← pow2_nat, ← pow2_add]; congr 1; omega
      have hpe1 := pow2_pos (e + 1)
      rcases abs_choice x with hc | hc
      · refine ⟨2 ^ (f.p - 1), ?_⟩
        rw [← hc, hxx, e3]; push_cast; field_simp
      · refine ⟨-2 ^ (f.p - 1), ?_⟩
        have : x = - pow2 (f.p + e) := by rw [← hxx, hc]; ring
        rw [this, e3]; push_cast; field_simp
  obtain ⟨n, hn⟩ := key
  rw [hn, rne_int, ← hn]
  field_simp


theorem nearest_zero (f : Fmt) : nearest f 0 = 0 := by simp [nearest]

theorem nearest_nonneg (f : Fmt) {x : ℚ} (h : 0 ≤ x) : 0 ≤ nearest f x := by
  unfold nearest
  split
  · exact le_refl _
  · have hp := pow2_pos (quantum f x)
    have : rne ((0 : Int) : ℚ) ≤ rne (x / pow2 (quantum f x)) := rne_mono (by push_cast; positivity)
    rw [rne_int] at this
    exact mul_nonneg (by exact_mod_cast this) hp.le

theorem quantum_neg (f : Fmt) (x : ℚ) : quantum f (-x) = quantum f x := by
  unfold quantum; rw [abs_neg]

theorem nearest_neg (f : Fmt) (x : ℚ) : nearest f (-x) = - nearest f x := by
  unfold nearest
  by_cases h : x = 0
  · simp [h]
  · rw [if_neg h, if_neg (by simpa using h), quantum_neg, neg_div, rne_neg]
    push_cast; ring

theorem nearest_nonpos (f : Fmt) {x : ℚ} (h : x ≤ 0) : nearest f x ≤ 0 := by
  have := nearest_nonneg f (x := -x) (by linarith)
  rw [nearest_neg] at this; linarith

theorem nearest_fl (hps : 1 ≤ f.p) {x : ℚ} (h : IsFl f x) : nearest f x = x := by
  obtain ⟨m, e, h1, h2, h3⟩ := h
  exact nearest_rep hps h1.le h2 h3

theorem quantum_eq {x : ℚ} (f : Fmt) (hx : 0 < x) :
    quantum f x = max (ilog2 x - (f.p - 1)) f.qmin := by
  unfold quantum; rw [abs_of_pos hx]

theorem IsFl.neg {x : ℚ} (h : IsFl f x) : IsFl f (-x) := by
  obtain ⟨m, e, h1, h2, h3⟩ := h
  exact ⟨-m, e, by rw [abs_neg]; exact h1, h2, by rw [h3]; push_cast; ring⟩

theorem IsFl.zero (f : Fmt) : IsFl f 0 := ⟨0, f.qmin, by simp, le_refl _, by simp⟩

theorem isFl_pow2 (hps : 1 ≤ f.p) {e : Int} (he : f.qmin ≤ e) : IsFl f (pow2 e) := by
  refine ⟨1, e, ?_, he, by simp⟩
  have : (2 : Int) ^ 1 ≤ 2 ^ f.p := pow_le_pow_right₀ (by norm_num) hps
  simp; omega

theorem isFl_int {n : Int} (hq : f.qmin ≤ 0) (h : |n| < 2 ^ f.p) : IsFl f (n : ℚ) :=
  ⟨n, 0, h, hq, by simp [pow2]⟩

theorem nearest_le_pos {x y : ℚ} (hx : 0 < x) (hy : IsFl f y) (h : x ≤ y) : nearest f x ≤ y := by
  obtain ⟨m, e, h1, h2, h3⟩ := hy
  have hq := pow2_pos (quantum f x)
  have hpe := pow2_pos e
  have hqe : quantum f x ≤ e := by
    rw [quantum_eq f hx]
    refine max_le ?_ h2
    have hb := (ilog2_spec hx).1
    have : pow2 (ilog2 x) < pow2 (f.p + e) := by
      refine lt_of_le_of_lt (hb.trans h) ?_
      rw [h3, pow2_add, pow2_nat]
      apply mul_lt_mul_of_pos_right _ hpe
      have := lt_of_le_of_lt (le_abs_self m) h1
      exact_mod_cast this
    have := pow2_lt_iff.mp this
    omega
  obtain ⟨d, hd⟩ := Int.le.dest hqe
  have hyq : y / pow2 (quantum f x) = ((m * 2 ^ d : Int) : ℚ) := by
    rw [div_eq_iff hq.ne']
    calc y = m * pow2 e := h3
      _ = m * (pow2 (quantum f x) * 2 ^ d) := by rw [← pow2_nat, ← pow2_add, hd]
      _ = _ := by push_cast; ring
  unfold nearest
  rw [if_neg hx.ne']
  have := rne_mono (div_le_div_of_nonneg_right h hq.le)
  rw [hyq, rne_int] at this
  calc _ ≤ ((m * 2 ^ d : Int) : ℚ) * pow2 (quantum f x) := by
        apply mul_le_mul_of_nonneg_right _ hq.le; exact_mod_cast this
    _ = y := by rw [← hyq]; field_simp

theorem le_nearest_pos (hps : 1 ≤ f.p) {x y : ℚ} (hy0 : 0 < y) (hy : IsFl f y) (h : y ≤ x) :
    y ≤ nearest f x := by
  obtain ⟨m, e, h1, h2, h3⟩ := hy
  have hx : 0 < x := lt_of_lt_of_le hy0 h
  have hq := pow2_pos (quantum f x)
  have hpe := pow2_pos e
  have aux : ∀ (z : ℚ) (n : Int), z ≤ x → z / pow2 (quantum f x) = n → z ≤ nearest f x := by
    intro z n hz hn
    unfold nearest
    rw [if_neg hx.ne']
    have := rne_mono (div_le_div_of_nonneg_right hz hq.le)
    rw [hn, rne_int] at this
    calc z = (n : ℚ) * pow2 (quantum f x) := by rw [← hn]; field_simp
      _ ≤ _ := by apply mul_le_mul_of_nonneg_right _ hq.le; exact_mod_cast this
  by_cases hqe : quantum f x ≤ e
  · obtain ⟨d, hd⟩ := Int.le.dest hqe
    refine aux y (m * 2 ^ d) h ?_
    rw [div_eq_iff hq.ne']
    calc y = m * pow2 e := h3
      _ = m * (pow2 (quantum f x) * 2 ^ d) := by rw [← pow2_nat, ← pow2_add, hd]
      _ = _ := by push_cast; ring
  · have hqx := quantum_eq f hx
    have hq1 : quantum f x = ilog2 x - (f.p - 1) := by
      rw [hqx] at hqe ⊢
      rcases le_total (ilog2 x - (f.p - 1)) f.qmin with h | h
      · rw [max_eq_right h] at hqe; omega
      · exact max_eq_left h
    refine le_trans (b := pow2 (ilog2 x)) ?_ (aux _ (2 ^ (f.p - 1)) (ilog2_spec hx).1 ?_)
    · rw [h3]
      calc (m : ℚ) * pow2 e ≤ 2 ^ f.p * pow2 e := by
            apply mul_le_mul_of_nonneg_right _ hpe.le
            exact_mod_cast (le_abs_self m).trans h1.le
        _ = pow2 (f.p + e) := by rw [pow2_add, pow2_nat]
        _ ≤ pow2 (ilog2 x) := pow2_le (by omega)
    · rw [div_eq_iff hq.ne']
      push_cast
      rw [← pow2_nat, ← pow2_add]
      congr 1
      omega

/-- a value of the format above `x` stays above -/
theorem nearest_le (hps : 1 ≤ f.p) {x y : ℚ} (hy : IsFl f y) (h : x ≤ y) : nearest f x ≤ y := by
  rcases lt_trichotomy x 0 with hx | rfl | hx
  · by_cases hy0 : 0 ≤ y
    · exact (nearest_nonpos f hx.le).trans hy0
    · have := le_nearest_pos (f := f) hps (x := -x) (y := -y) (by linarith) hy.neg (by linarith)
      rw [nearest_neg] at this; linarith
  · rw [nearest_zero]; exact h
  · exact nearest_le_pos hx hy h

/-- a value of the format below `x` stays below -/
theorem le_nearest (hps : 1 ≤ f.p) {x y : ℚ} (hy : IsFl f y) (h : y ≤ x) : y ≤ nearest f x := by
  have := nearest_le hps hy.neg (x := -x) (by linarith)
  rw [nearest_neg] at this; linarith

theorem nearest_mono_pos (hps : 1 ≤ f.p) {x y : ℚ} (hx : 0 < x) (h : x ≤ y) : nearest f x ≤ nearest f y := by
  have hy : 0 < y := lt_of_lt_of_le hx h
  have hl := ilog2_mono hx h
  by_cases hqq : quantum f x = quantum f y
  · unfold nearest
    rw [if_neg hx.ne', if_neg hy.ne', hqq]
    have hq := pow2_pos (quantum f y)
    apply mul_le_mul_of_nonneg_right _ hq.le
    exact_mod_cast rne_mono (div_le_div_of_nonneg_right h hq.le)
  · rw [quantum_eq f hx, quantum_eq f hy] at hqq
    have h1 : ilog2 x + 1 ≤ ilog2 y := by
      by_contra hc
      have : ilog2 x = ilog2 y := by omega
      rw [this] at hqq; exact hqq rfl
    have h2 : f.qmin ≤ ilog2 y := by
      by_contra hc
      have e1 : max (ilog2 x - (f.p - 1)) f.qmin = f.qmin := max_eq_right (by omega)
      have e2 : max (ilog2 y - (f.p - 1)) f.qmin = f.qmin := max_eq_right (by omega)
      rw [e1, e2] at hqq; exact hqq rfl
    have hfl := isFl_pow2 hps h2
    calc nearest f x ≤ pow2 (ilog2 y) :=
          nearest_le hps hfl ((ilog2_spec hx).2.le.trans (pow2_le h1))
      _ ≤ nearest f y := le_nearest hps hfl (ilog2_spec hy).1

/-- rounding is monotone -/
theorem nearest_mono (hps : 1 ≤ f.p) {x y : ℚ} (h : x ≤ y) : nearest f x ≤ nearest f y := by
  rcases lt_trichotomy x 0 with hx | rfl | hx
  · rcases lt_trichotomy y 0 with hy | rfl | hy
    · have := nearest_mono_pos (f := f) hps (x := -y) (y := -x) (by linarith) (by linarith)
      rw [nearest_neg, nearest_neg] at this; linarith
    · rw [nearest_zero]; exact nearest_nonpos f hx.le
    · exact (nearest_nonpos f hx.le).trans (nearest_nonneg f hy.le)
  · rw [nearest_zero]; exact nearest_nonneg f h
  · exact nearest_mono_pos hps hx h

/-- results are values of the format -/
theorem nearest_isFl (hps : 1 ≤ f.p) (x : ℚ) : IsFl f (nearest f x) := by
  by_cases hx : x = 0
  · subst hx; rw [nearest_zero]; exact IsFl.zero f
  have ha : 0 < |x| := abs_pos.mpr hx
  have hq := pow2_pos (quantum f x)
  have hqmin : f.qmin ≤ quantum f x := le_max_right _ _
  have hm : |rne (x / pow2 (quantum f x))| ≤ 2 ^ f.p := by
    have hb : |x| ≤ 2 ^ f.p * pow2 (quantum f x) := by
      refine (ilog2_spec ha).2.le.trans ?_
      rw [← pow2_nat, ← pow2_add]
      apply pow2_le
      have : ilog2 |x| - (f.p - 1) ≤ quantum f x := le_max_left _ _
      omega
    have hc := abs_le.mp hb
    have u1 : x / pow2 (quantum f x) ≤ ((2 ^ f.p : Int) : ℚ) := by
      rw [div_le_iff₀ hq]; push_cast; exact hc.2
    have u2 : ((-2 ^ f.p : Int) : ℚ) ≤ x / pow2 (quantum f x) := by
      rw [le_div_iff₀ hq]; push_cast; linarith
    have v1 := rne_mono u1
    have v2 := rne_mono u2
    rw [rne_int] at v1 v2
    rw [abs_le]; exact ⟨v2, v1⟩
  have he : nearest f x = (rne (x / pow2 (quantum f x)) : ℚ) * pow2 (quantum f x) := by
    unfold nearest; rw [if_neg hx]
  rcases lt_or_eq_of_le hm with h | h
  · exact ⟨_, _, h, hqmin, he⟩
  · have e3 : (2 : ℚ) ^ f.p * pow2 (quantum f x) = pow2 (f.p + quantum f x) := by
      rw [pow2_add, pow2_nat]
    have hfl := isFl_pow2 (f := f) hps (e := f.p + quantum f x) (by omega)
    rcases (abs_eq (by positivity)).mp h with h | h
    · rw [he, h]; push_cast; rw [e3]; exact hfl
    · rw [he, h]; push_cast; rw [neg_mul, e3]; exact hfl.neg


/-! ### flushing to zero -/

/-- the absolute part of the error of rounding -/
def Fmt.eta (f : Fmt) : ℚ := if f.ftz then f.normal else f.half

theorem Fmt.eta_pos (f : Fmt) : 0 < f.eta := by
  unfold Fmt.eta; split
  · exact f.normal_pos
  · exact f.half_pos

theorem Fmt.half_le (hps : 1 ≤ f.p) : f.half ≤ f.eta := by
  unfold Fmt.eta; split
  · exact pow2_le (by omega)
  · exact le_refl _

theorem flush_off (h : f.ftz = false) (x : ℚ) : flush f x = x := by unfold flush; rw [h]; rfl

theorem flush_small (h : f.ftz = true) {x : ℚ} (hx : |x| < f.normal) : flush f x = 0 := by
  unfold flush; rw [h, decide_eq_true hx]; rfl

theorem flush_big {x : ℚ} (hx : f.normal ≤ |x|) : flush f x = x := by
  unfold flush; rw [decide_eq_false (not_lt.mpr hx), Bool.and_false]; rfl

theorem flush_cases (f : Fmt) (x : ℚ) : flush f x = x ∨ (flush f x = 0 ∧ |x| < f.normal ∧ f.ftz = true) := by
  cases h : f.ftz with
  | false => exact Or.inl (flush_off h x)
  | true =>
    rcases lt_or_ge |x| f.normal with hx | hx
    · exact Or.inr ⟨flush_small h hx, hx, rfl⟩
    · exact Or.inl (flush_big hx)

theorem flush_zero (f : Fmt) : flush f 0 = 0 := by
  rcases flush_cases f 0 with h | h; exacts [h, h.1]

theorem flush_neg (f : Fmt) (x : ℚ) : flush f (-x) = - flush f x := by
  unfold flush; rw [abs_neg]
  cases f.ftz && decide (|x| < f.normal)
  · rfl
  · exact neg_zero.symm

theorem flush_nonneg (f : Fmt) {x : ℚ} (h : 0 ≤ x) : 0 ≤ flush f x := by
  rcases flush_cases f x with e | ⟨e, -⟩ <;> rw [e]
  exact h

theorem flush_le (f : Fmt) {x : ℚ} (h : 0 ≤ x) : flush f x ≤ x := by
  rcases flush_cases f x with e | ⟨e, -⟩ <;> rw [e]
  exact h

/-- what is flushed is small -/
theorem flush_err (f : Fmt) (x : ℚ) : |flush f x - x| ≤ f.eta := by
  rcases flush_cases f x with e | ⟨e, h, z⟩ <;> rw [e]
  · rw [sub_self, abs_zero]; exact f.eta_pos.le
  · rw [zero_sub, abs_neg]; unfold Fmt.eta; rw [if_pos z]; exact h.le

theorem flush_mono_pos (f : Fmt) {x y : ℚ} (hx : 0 ≤ x) (h : x ≤ y) : flush f x ≤ flush f y := by
  rcases flush_cases f y with e | ⟨e, h1, h2⟩
  · rw [e]; exact (flush_le f hx).trans h
  · rw [abs_of_nonneg (hx.trans h)] at h1
    rw [e, flush_small h2 (by rw [abs_of_nonneg hx]; linarith)]

theorem flush_mono (f : Fmt) {x y : ℚ} (h : x ≤ y) : flush f x ≤ flush f y := by
  rcases le_total 0 x with hx | hx
  · exact flush_mono_pos f hx h
  · have n : flush f x ≤ 0 := by
      have := flush_nonneg f (x := -x) (by linarith)
      rw [flush_neg] at this; linarith
    rcases le_total 0 y with hy | hy
    · exact n.trans (flush_nonneg f hy)
    · have := flush_mono_pos f (x := -y) (y := -x) (by linarith) (by linarith)
      rw [flush_neg, flush_neg] at this; linarith

theorem rnd_off (h : f.ftz = false) (x : ℚ) : rnd f x = nearest f x := flush_off h _

theorem rnd_zero (f : Fmt) : rnd f 0 = 0 := by unfold rnd; rw [nearest_zero, flush_zero]

theorem rnd_nonneg (f : Fmt) {x : ℚ} (h : 0 ≤ x) : 0 ≤ rnd f x := flush_nonneg f (nearest_nonneg f h)

theorem rnd_neg (f : Fmt) (x : ℚ) : rnd f (-x) = - rnd f x := by unfold rnd; rw [nearest_neg, flush_neg]

theorem rnd_nonpos (f : Fmt) {x : ℚ} (h : x ≤ 0) : rnd f x ≤ 0 := by
  have := rnd_nonneg f (x := -x) (by linarith)
  rw [rnd_neg] at this; linarith

/-- rounding is monotone -/
theorem rnd_mono (hps : 1 ≤ f.p) {x y : ℚ} (h : x ≤ y) : rnd f x ≤ rnd f y := flush_mono f (nearest_mono hps h)

theorem isFl_normal (hps : 1 ≤ f.p) : IsFl f f.normal := isFl_pow2 hps (by omega)

/-- numbers that are not denormal do not become so -/
theorem normal_le_nearest (hps : 1 ≤ f.p) {x : ℚ} (h : f.normal ≤ |x|) : f.normal ≤ |nearest f x| := by
  rcases le_total 0 x with hx | hx
  · rw [abs_of_nonneg hx] at h
    exact (le_nearest hps (isFl_normal hps) h).trans (le_abs_self _)
  · rw [abs_of_nonpos hx] at h
    have := le_nearest hps (isFl_normal hps) h
    rw [nearest_neg] at this
    exact this.trans (neg_le_abs _)

/-- a number is flushed only if it is denormal before rounding -/
theorem rnd_cases (hps : 1 ≤ f.p) (x : ℚ) :
    rnd f x = nearest f x ∨ (rnd f x = 0 ∧ |x| < f.normal ∧ f.ftz = true) := by
  rcases flush_cases f (nearest f x) with e | ⟨e, h, z⟩
  · exact Or.inl e
  · refine Or.inr ⟨e, ?_, z⟩
    by_contra hc
    exact absurd (normal_le_nearest hps (not_lt.mp hc)) (not_le.mpr h)

/-- error of rounding -/
theorem rnd_err (hps : 1 ≤ f.p) (x : ℚ) : |rnd f x - x| ≤ f.u * |x| + f.eta := by
  have hu := mul_nonneg f.u_pos.le (abs_nonneg x)
  rcases rnd_cases hps x with e | ⟨e, h, z⟩ <;> rw [e]
  · exact (nearest_err f x).trans (by linarith [f.half_le hps])
  · rw [zero_sub, abs_neg]; unfold Fmt.eta; rw [if_pos z]; linarith

/-- error of rounding below `1`: half a unit in the last place there -/
theorem rnd_err_unit (hps : 1 ≤ f.p) {x : ℚ} (h : |x| < 1) : |rnd f x - x| ≤ max (f.u / 2) f.eta := by
  rcases rnd_cases hps x with e | ⟨e, h, z⟩ <;> rw [e]
  · exact (nearest_err_unit f h).trans (max_le_max (le_refl _) (f.half_le hps))
  · rw [zero_sub, abs_neg]; refine le_max_of_le_right ?_; unfold Fmt.eta; rw [if_pos z]; exact h.le

/-- error of rounding in the normal range -/
theorem rnd_err_normal (hps : 1 ≤ f.p) {x : ℚ} (h : f.normal ≤ |x|) : |rnd f x - x| ≤ f.u * |x| := by
  rcases rnd_cases hps x with e | ⟨-, h', -⟩
  · rw [e]; exact nearest_err_normal f h
  · exact absurd h (not_le.mpr h')

/-- results are values of the format -/
theorem rnd_isFl (hps : 1 ≤ f.p) (x : ℚ) : IsFl f (rnd f x) := by
  rcases flush_cases f (nearest f x) with e | ⟨e, -⟩ <;> unfold rnd <;> rw [e]
  · exact nearest_isFl hps x
  · exact .zero f

/-- results are not changed by rounding -/
theorem rnd_idem (hps : 1 ≤ f.p) (x : ℚ) : rnd f (rnd f x) = rnd f x := by
  rcases flush_cases f (nearest f x) with e | ⟨e, -⟩
  · have e' : rnd f x = nearest f x := e
    rw [e']; unfold rnd; rw [nearest_fl hps (nearest_isFl hps x), e]
  · have e' : rnd f x = 0 := e
    rw [e', rnd_zero]

/-- values of the format that are not denormal are not changed -/
theorem rnd_rep_normal {x : ℚ} {m e : Int} (hps : 1 ≤ f.p) (hm : |m| ≤ 2 ^ f.p) (he : f.qmin ≤ e) (hx : x = m * pow2 e)
    (hn : f.normal ≤ |x|) : rnd f x = x := by
  unfold rnd; rw [nearest_rep hps hm he hx, flush_big hn]

/-- values of the format are not changed -/
theorem rnd_rep {x : ℚ} {m e : Int} (hps : 1 ≤ f.p) (hm : |m| ≤ 2 ^ f.p) (he : f.qmin ≤ e) (hx : x = m * pow2 e)
    (hz : f.ftz = false := by rfl) : rnd f x = x := by
  rw [rnd_off hz]; exact nearest_rep hps hm he hx

theorem rnd_fl (hps : 1 ≤ f.p) {x : ℚ} (h : IsFl f x) (hz : f.ftz = false := by rfl) : rnd f x = x := by
  rw [rnd_off hz]; exact nearest_fl hps h

/-- a value of the format above `x` stays above -/
theorem rnd_le (hps : 1 ≤ f.p) {x y : ℚ} (hy : IsFl f y) (h : x ≤ y) (hz : f.ftz = false := by rfl) : rnd f x ≤ y := by
  rw [rnd_off hz]; exact nearest_le hps hy h

/-- a value of the format below `x` stays below -/
theorem le_rnd (hps : 1 ≤ f.p) {x y : ℚ} (hy : IsFl f y) (h : y ≤ x) (hz : f.ftz = false := by rfl) : y ≤ rnd f x := by
  rw [rnd_off hz]; exact le_nearest hps hy h

/-! ### single precision -/

theorem b32_u : b32.u = 1 / 2 ^ 24 := by unfold Fmt.u; rw [pow2_eq]; norm_num [b32]
theorem b32_eta : b32.eta = 1 / 2 ^ 150 := by
  show b32.half = _
  unfold Fmt.half; rw [pow2_eq]; norm_num [b32]
theorem b32_p : 1 ≤ b32.p := by decide
theorem b32_emax : pow2 b32.emax = 2 ^ 128 := by rw [pow2_eq]; norm_num [b32]

theorem Fl.round_fin {x : ℚ} (h1 : -2 ^ 128 < rnd b32 x) (h2 : rnd b32 x < 2 ^ 128) :
    Fl.round b32 x = .fin (rnd b32 x) := by
  unfold Fl.round
  simp only
  rw [b32_emax, if_neg (not_le.mpr h2), if_neg (not_le.mpr h1)]

theorem rnd32_err (x : ℚ) : |rnd b32 x - x| ≤ |x| / 2 ^ 24 + 1 / 2 ^ 150 := by
  have := rnd_err b32_p x
  rw [b32_u, b32_eta] at this
  linarith

theorem rnd32_err_normal {x : ℚ} (h : 1 / 2 ^ 126 ≤ |x|) : |rnd b32 x - x| ≤ |x| / 2 ^ 24 := by
  have := rnd_err_normal b32_p (x := x) (by
    unfold Fmt.normal; rw [pow2_eq]; refine le_trans (le_of_eq ?_) h; norm_num [b32])
  rw [b32_u] at this
  linarith

theorem Fl.div_fin (a b : ℚ) :
    Fl.div (.fin a) (.fin b : Fl f) = if b = 0 then .infOf a else .round f (a / b) := rfl
theorem Fl.floorInt_fin (a : ℚ) : Fl.floorInt (.fin a : Fl f)
    = if -2 ^ 31 ≤ ⌊a⌋ ∧ ⌊a⌋ < 2 ^ 31 then some ⌊a⌋ else none := rfl

/-- no overflow for moderate values -/
theorem Fl.round_small {x : ℚ} (h : |x| ≤ 2 ^ 100) : Fl.round b32 x = .fin (rnd b32 x) := by
  have e := abs_le.mp (rnd32_err x)
  have a := abs_le.mp h
  apply Fl.round_fin
  · have : |x| / 2 ^ 24 ≤ 2 ^ 100 := (div_le_self (abs_nonneg x) (by norm_num)).trans h
    have : (1 : ℚ) / 2 ^ 150 ≤ 1 := by norm_num
    have : (2 : ℚ) ^ 100 + 2 ^ 100 + 1 < 2 ^ 128 := by norm_num
    linarith
  · have : |x| / 2 ^ 24 ≤ 2 ^ 100 := (div_le_self (abs_nonneg x) (by norm_num)).trans h
    have : (1 : ℚ) / 2 ^ 150 ≤ 1 := by norm_num
    have : (2 : ℚ) ^ 100 + 2 ^ 100 + 1 < 2 ^ 128 := by norm_num
    linarith

theorem rnd32_int {n : Int} (h : |n| ≤ 2 ^ 24) : rnd b32 (n : ℚ) = n :=
  rnd_rep (f := b32) b32_p (m := n) (e := 0) h (by decide) (by simp [pow2])

theorem ofInt32 {n : Int} (h : |n| ≤ 2 ^ 24) : (FP.ofInt n : F32) = .fin n := by
  have hn : |(n : ℚ)| ≤ 2 ^ 24 := by exact_mod_cast h
  show Fl.round b32 n = _
  rw [Fl.round_small (hn.trans (by norm_num)), rnd32_int h]

/-- edge length of the grid cells as computed -/
def gl32 (gr : Int) : ℚ := rnd b32 (1 / gr)

theorem recip32 {gr : Int} (h1 : 1 ≤ gr) (h2 : gr ≤ 2 ^ 24) :
    (FP.recip gr : F32) = .fin (gl32 gr) := by
  have hg : (1 : ℚ) ≤ gr := by exact_mod_cast h1
  have e : Fl.round b32 (gr : ℚ) = .fin (gr : ℚ) := ofInt32 (n := gr) (by rw [abs_of_pos (by omega)]; exact h2)
  show (match Fl.div (.fin 1) (Fl.round b32 (gr : ℚ)) with
    | .fin a => .fin a | .pinf => .pinf | .ninf => .ninf | .nan => .nan : F32) = _
  rw [e]
  have : Fl.div (.fin 1) (.fin (gr : ℚ)) = (.fin (gl32 gr) : F32) := by
    rw [Fl.div_fin, if_neg (by linarith), Fl.round_small]
    · rfl
    · rw [abs_of_pos (by positivity), div_le_iff₀ (by linarith)]
      have : (1 : ℚ) ≤ 2 ^ 100 := by norm_num
      nlinarith
  rw [this]

theorem gl32_bounds {gr : Int} (h1 : 1 ≤ gr) (h2 : gr ≤ 2 ^ 24) :
    (1 - 1 / 2 ^ 24) / gr ≤ gl32 gr ∧ gl32 gr ≤ (1 + 1 / 2 ^ 24) / gr := by
  have hg : (1 : ℚ) ≤ gr := by exact_mod_cast h1
  have hg2 : (gr : ℚ) ≤ 2 ^ 24 := by exact_mod_cast h2
  have ha : |(1 : ℚ) / gr| = 1 / gr := abs_of_pos (by positivity)
  have := abs_le.mp (rnd32_err_normal (x := 1 / gr) (by
    rw [ha, div_le_div_iff₀ (by positivity) (by linarith)]
    have : (2 : ℚ) ^ 24 ≤ 2 ^ 126 := by norm_num
    linarith))
  rw [ha] at this
  unfold gl32
  have e1 : (1 - 1 / 2 ^ 24) / (gr : ℚ) = 1 / gr - 1 / gr / 2 ^ 24 := by field_simp
  have e2 : (1 + 1 / 2 ^ 24) / (gr : ℚ) = 1 / gr + 1 / gr / 2 ^ 24 := by field_simp
  rw [e1, e2]
  constructor <;> linarith [this.1, this.2]

theorem gl32_pos {gr : Int} (h1 : 1 ≤ gr) (h2 : gr ≤ 2 ^ 24) : 0 < gl32 gr := by
  have hg : (1 : ℚ) ≤ gr := by exact_mod_cast h1
  refine lt_of_lt_of_le ?_ (gl32_bounds h1 h2).1
  apply div_pos <;> [norm_num; linarith]

/-- the grid coordinate as computed -/
def gcoord32 (gr : Int) (x : ℚ) : Int := ⌊rnd b32 (x / gl32 gr)⌋

theorem gcoord32_nonneg {gr : Int} (h1 : 1 ≤ gr) (h2 : gr ≤ 2 ^ 24) {x : ℚ} (hx : 0 ≤ x) :
    0 ≤ gcoord32 gr x :=
  Int.floor_nonneg.mpr (rnd_nonneg _ (div_nonneg hx (gl32_pos h1 h2).le))

theorem quot32_le {gr : Int} (h1 : 1 ≤ gr) (h2 : gr ≤ 2 ^ 24) {x : ℚ} (hx : 0 ≤ x) :
    x / gl32 gr ≤ x * gr / (1 - 1 / 2 ^ 24) := by
  have hg : (1 : ℚ) ≤ gr := by exact_mod_cast h1
  have hp := gl32_pos h1 h2
  have hb := (gl32_bounds h1 h2).1
  have hu : (0 : ℚ) < 1 - 1 / 2 ^ 24 := by norm_num
  rw [div_le_div_iff₀ hp hu]
  rw [div_le_iff₀ (by linarith)] at hb
  calc x * (1 - 1 / 2 ^ 24) ≤ x * (gl32 gr * gr) := mul_le_mul_of_nonneg_left hb hx
    _ = _ := by ring

theorem gcoord32_mono {gr : Int} (h1 : 1 ≤ gr) (h2 : gr ≤ 2 ^ 24) {x y : ℚ} (h : x ≤ y) :
    gcoord32 gr x ≤ gcoord32 gr y :=
  Int.floor_le_floor (rnd_mono b32_p (div_le_div_of_nonneg_right h (gl32_pos h1 h2).le))

theorem gcoord32_lt {gr : Int} (h1 : 1 ≤ gr) (h2 : gr ≤ 2 ^ 24) {x : ℚ} (hx : 0 ≤ x)
    (hx1 : x ≤ 1 - 1 / 2 ^ 23) : gcoord32 gr x < gr := by
  have hg : (1 : ℚ) ≤ gr := by exact_mod_cast h1
  unfold gcoord32
  rw [Int.floor_lt]
  have ht := quot32_le h1 h2 hx
  have ht0 : 0 ≤ x / gl32 gr := div_nonneg hx (gl32_pos h1 h2).le
  have he := (abs_le.mp (rnd32_err (x / gl32 gr))).2
  rw [abs_of_nonneg ht0] at he
  have hu : (0 : ℚ) < 1 - 1 / 2 ^ 24 := by norm_num
  rw [le_div_iff₀ hu] at ht
  have : x * gr ≤ (1 - 1 / 2 ^ 23) * gr := mul_le_mul_of_nonneg_right hx1 (by linarith)
  norm_num at *
  linarith

theorem gridCoord32 {gr : Int} (h1 : 1 ≤ gr) (h2 : gr ≤ 2 ^ 24) {x : ℚ} (hx : 0 ≤ x) (hx1 : x ≤ 1) :
    gridCoord (FP.recip gr) (.fin x : F32) = .ok (gcoord32 gr x) := by
  have hg : (1 : ℚ) ≤ gr := by exact_mod_cast h1
  have hg2 : (gr : ℚ) ≤ 2 ^ 24 := by exact_mod_cast h2
  have hp := gl32_pos h1 h2
  have ht := quot32_le h1 h2 hx
  have ht0 : 0 ≤ x / gl32 gr := div_nonneg hx (gl32_pos h1 h2).le
  have hu : (0 : ℚ) < 1 - 1 / 2 ^ 24 := by norm_num
  rw [le_div_iff₀ hu] at ht
  have hxg : x * gr ≤ 2 ^ 24 := by nlinarith
  have ht2 : x / gl32 gr ≤ 2 ^ 25 := by
    have : (1 : ℚ) / 2 ≤ 1 - 1 / 2 ^ 24 := by norm_num
    nlinarith
  have he := abs_le.mp (rnd32_err (x / gl32 gr))
  rw [abs_of_nonneg ht0] at he
  have hr0 := rnd_nonneg b32 ht0
  have hr1 : rnd b32 (x / gl32 gr) < 2 ^ 26 := by
    have := he.2
    norm_num at *
    linarith
  have hf0 : 0 ≤ gcoord32 gr x := gcoord32_nonneg h1 h2 hx
  have hf1 : gcoord32 gr x < 2 ^ 26 := by
    unfold gcoord32; rw [Int.floor_lt]; exact_mod_cast hr1
  unfold gridCoord
  rw [recip32 h1 h2]
  have e : (FP.div (.fin x) (.fin (gl32 gr)) : F32) = .fin (rnd b32 (x / gl32 gr)) := by
    show Fl.div _ _ = _
    rw [Fl.div_fin, if_neg hp.ne', Fl.round_small]
    rw [abs_of_nonneg ht0]
    exact ht2.trans (by norm_num)
  rw [e]
  have e2 : (FP.floorInt (.fin (rnd b32 (x / gl32 gr)) : F32)) = some (gcoord32 gr x) := by
    show Fl.floorInt _ = _
    rw [Fl.floorInt_fin, if_pos]
    · rfl
    · show -2 ^ 31 ≤ gcoord32 gr x ∧ gcoord32 gr x < 2 ^ 31
      constructor <;> omega
  rw [e2]

end Votess
