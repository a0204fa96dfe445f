import Verif.Proofs.Ieee
import Verif.Proofs.KnnExact
/-! The neighbour search in single precision. -/
namespace Votess

theorem addF32 {a b : ℚ} (h : |a + b| ≤ 2 ^ 100) :
    (FP.add (.fin a) (.fin b) : F32) = .fin (rnd b32 (a + b)) := Fl.round_small h
theorem subF32 {a b : ℚ} (h : |a - b| ≤ 2 ^ 100) :
    (FP.sub (.fin a) (.fin b) : F32) = .fin (rnd b32 (a - b)) := by
  show Fl.round b32 (a + -b) = _
  rw [← sub_eq_add_neg]; exact Fl.round_small h
theorem mulF32 {a b : ℚ} (h : |a * b| ≤ 2 ^ 100) :
    (FP.mul (.fin a) (.fin b) : F32) = .fin (rnd b32 (a * b)) := Fl.round_small h
theorem lt32 (a b : ℚ) : FP.lt (.fin a : F32) (.fin b) = decide (a < b) := rfl
theorem le32 (a b : ℚ) : FP.le (.fin a : F32) (.fin b) = decide (a ≤ b) := by
  show (decide (a < b) || decide (a = b)) = _
  rw [← Bool.decide_or, decide_eq_decide]
  exact le_iff_lt_or_eq.symm
theorem divF32 {a b : ℚ} (hb : b ≠ 0) (h : |a / b| ≤ 2 ^ 100) :
    (FP.div (.fin a) (.fin b) : F32) = .fin (rnd b32 (a / b)) := by
  show Fl.div _ _ = _
  rw [Fl.div_fin, if_neg hb, Fl.round_small h]
theorem fmodF32 {a b : ℚ} (hb : b ≠ 0) :
    (FP.fmod (.fin a) (.fin b) : F32) = .fin (a - truncK (a / b) * b) := by
  show (if b = 0 then _ else _) = _
  rw [if_neg hb, flush_off rfl]

theorem rnd_rnd (x : ℚ) : rnd b32 (rnd b32 x) = rnd b32 x := rnd_fl b32_p (rnd_isFl b32_p x)

/-- `x'` is `x` up to a relative error `e` and an absolute error `t` -/
def Near (e t x' x : ℚ) : Prop := |x' - x| ≤ e * x + t

/-- rounding adds one unit to the relative error (`e` in units of `2^-24`, at most 10) -/
theorem Near.rnd {e t x' x : ℚ} (h : Near (e / 2 ^ 24) t x' x) (hx : 0 ≤ x) (he : e ≤ 10) (he0 : 0 ≤ e)
    (ht : 0 ≤ t) : Near ((e + 1 + 1 / 100) / 2 ^ 24) (2 * t + 1 / 2 ^ 150) (rnd b32 x') x := by
  unfold Near at *
  have r := abs_le.mp (rnd32_err x')
  have h' := abs_le.mp h
  have hx' : |x'| ≤ x + (e / 2 ^ 24 * x + t) := by
    rw [abs_le]; constructor <;> linarith [h'.1, h'.2]
  have hex : e * x ≤ 10 * x := mul_le_mul_of_nonneg_right he hx
  have he0x : 0 ≤ e * x := mul_nonneg he0 hx
  rw [abs_le]
  norm_num at *
  constructor <;> linarith [r.1, r.2, h'.1, h'.2]

theorem Near.add {e t x' x t2 y' y : ℚ} (h : Near e t x' x) (h2 : Near e t2 y' y) :
    Near e (t + t2) (x' + y') (x + y) := by
  unfold Near at *
  have := abs_le.mp h
  have := abs_le.mp h2
  rw [abs_le]
  constructor <;> linarith

theorem Near.mono {e t e2 t2 x' x : ℚ} (h : Near e t x' x) (hx : 0 ≤ x) (he : e ≤ e2) (ht : t ≤ t2) :
    Near e2 t2 x' x := by
  unfold Near at *
  have := mul_le_mul_of_nonneg_right he hx
  linarith

/-- the square of a rounded difference, before it is rounded -/
theorem near_square_exact {d : ℚ} (hd : |d| ≤ 1) :
    Near ((2 + 1 / 100) / 2 ^ 24) (4 / 2 ^ 150) (rnd b32 d * rnd b32 d) (d ^ 2) := by
  have r := rnd32_err d
  unfold Near
  have e : rnd b32 d * rnd b32 d - d ^ 2 = (rnd b32 d - d) * (rnd b32 d - d + 2 * d) := by ring
  rw [e, abs_mul]
  have h1 : |rnd b32 d - d + 2 * d| ≤ |rnd b32 d - d| + 2 * |d| := by
    refine (abs_add_le _ _).trans ?_
    rw [abs_mul, abs_of_pos (by norm_num : (0 : ℚ) < 2)]
  have hd0 := abs_nonneg d
  have hB0 := abs_nonneg (rnd b32 d - d + 2 * d)
  rw [← sq_abs d]
  generalize |rnd b32 d - d + 2 * d| = B at *
  generalize |rnd b32 d - d| = A at *
  generalize |d| = D at *
  have hA0 : A * B ≤ (D / 2 ^ 24 + 1 / 2 ^ 150) * (D / 2 ^ 24 + 1 / 2 ^ 150 + 2 * D) :=
    mul_le_mul r (h1.trans (by linarith)) hB0 (by positivity)
  refine hA0.trans ?_
  have hDD : D * D ≤ D := by nlinarith
  norm_num
  nlinarith

/-- the square of a rounded difference -/
theorem near_square {d : ℚ} (hd : |d| ≤ 1) :
    Near ((3 + 1 / 10) / 2 ^ 24) (1 / 2 ^ 146) (rnd b32 (rnd b32 d * rnd b32 d)) (d ^ 2) := by
  have := (near_square_exact hd).rnd (sq_nonneg d) (by norm_num) (by norm_num) (by norm_num)
  exact this.mono (sq_nonneg d) (by norm_num) (by norm_num)

theorem getDistance32 {p q : Pt ℚ} (hx : |p.x - q.x| ≤ 1) (hy : |p.y - q.y| ≤ 1)
    (hz : |p.z - q.z| ≤ 1) :
    ∃ D, getDistance (⟨.fin p.x, .fin p.y, .fin p.z⟩ : Pt F32) ⟨.fin q.x, .fin q.y, .fin q.z⟩ = .fin D ∧
      Near (6 / 2 ^ 24) (1 / 2 ^ 140) D (sqDist p q) := by
  have nx := near_square hx
  have ny := near_square hy
  have nz := near_square hz
  have bx : (p.x - q.x) ^ 2 ≤ 1 := by rw [← sq_abs]; have := abs_nonneg (p.x - q.x); nlinarith
  have by' : (p.y - q.y) ^ 2 ≤ 1 := by rw [← sq_abs]; have := abs_nonneg (p.y - q.y); nlinarith
  have bz : (p.z - q.z) ^ 2 ≤ 1 := by rw [← sq_abs]; have := abs_nonneg (p.z - q.z); nlinarith
  have sq : ∀ a b : ℚ, |a - b| ≤ 1 → (square (FP.sub (.fin a) (.fin b)) : F32)
      = .fin (rnd b32 (rnd b32 (a - b) * rnd b32 (a - b))) := by
    intro a b hab
    have r := rnd32_err (a - b)
    have hs : |rnd b32 (a - b)| ≤ 2 := by
      rw [abs_le] at r hab ⊢
      have : |a - b| ≤ 1 := abs_le.mpr hab
      norm_num at *
      constructor <;> linarith [r.1, r.2, hab.1, hab.2]
    unfold square
    rw [subF32 (hab.trans (by norm_num)), mulF32]
    rw [abs_mul]
    have := mul_le_mul hs hs (abs_nonneg _) (by norm_num)
    exact this.trans (by norm_num)
  unfold getDistance
  simp only
  rw [sq _ _ hx, sq _ _ hy, sq _ _ hz]
  have n2 := (nx.add ny).rnd (by positivity) (by norm_num) (by norm_num) (by norm_num)
  have n3 := (n2.add (nz.mono (sq_nonneg _) (e2 := (3 + 1 / 10 + 1 + 1 / 100) / 2 ^ 24) (t2 := 1 / 2 ^ 146)
    (by norm_num) (le_refl _))).rnd (by positivity) (by norm_num) (by norm_num) (by norm_num)
  generalize rnd b32 (rnd b32 (p.x - q.x) * rnd b32 (p.x - q.x)) = X at *
  generalize rnd b32 (rnd b32 (p.y - q.y) * rnd b32 (p.y - q.y)) = Y at *
  generalize rnd b32 (rnd b32 (p.z - q.z) * rnd b32 (p.z - q.z)) = Z at *
  have small : ∀ {a e t x : ℚ}, Near e t a x → 0 ≤ x → x ≤ 3 → e ≤ 1 → t ≤ 1 → |a| ≤ 8 := by
    intro a e t x h h0 h3 he ht
    unfold Near at h
    have h' := abs_le.mp h
    have := mul_le_mul_of_nonneg_right he h0
    rw [abs_le]; constructor <;> linarith [h'.1, h'.2]
  have sX := small nx (sq_nonneg _) (by linarith) (by norm_num) (by norm_num)
  have sY := small ny (sq_nonneg _) (by linarith) (by norm_num) (by norm_num)
  have sZ := small nz (sq_nonneg _) (by linarith) (by norm_num) (by norm_num)
  have s2 := small n2 (by positivity) (by linarith) (by norm_num) (by norm_num)
  have a1 : |X + Y| ≤ 2 ^ 100 := (abs_add_le _ _).trans ((add_le_add sX sY).trans (by norm_num))
  have a2 : |rnd b32 (X + Y) + Z| ≤ 2 ^ 100 :=
    (abs_add_le _ _).trans ((add_le_add s2 sZ).trans (by norm_num))
  rw [addF32 a1, addF32 a2]
  refine ⟨_, rfl, ?_⟩
  unfold sqDist
  exact n3.mono (by positivity) (by norm_num) (by norm_num)

/-! ### cell walls -/

/-- the cell of a coordinate contains it, up to `2^-23` -/
theorem gcoord32_bounds {gr : Int} (h1 : 1 ≤ gr) (h2 : gr ≤ 2 ^ 24) {x : ℚ} (hx : 0 ≤ x) (hx1 : x ≤ 1) :
    gl32 gr * gcoord32 gr x - 2 / 2 ^ 24 ≤ x ∧ x ≤ gl32 gr * (gcoord32 gr x + 1) + 2 / 2 ^ 24 := by
  have hg := gl32_pos h1 h2
  have hg1 : gl32 gr ≤ 2 := by
    have := (gl32_bounds h1 h2).2
    have hgr : (1 : ℚ) ≤ gr := by exact_mod_cast h1
    rw [le_div_iff₀ (by linarith)] at this
    norm_num at *
    nlinarith
  have ht0 : 0 ≤ x / gl32 gr := div_nonneg hx hg.le
  have r := abs_le.mp (rnd32_err (x / gl32 gr))
  rw [abs_of_nonneg ht0] at r
  have f1 : (gcoord32 gr x : ℚ) ≤ rnd b32 (x / gl32 gr) := Int.floor_le _
  have f2 : rnd b32 (x / gl32 gr) < gcoord32 gr x + 1 := Int.lt_floor_add_one _
  have e : gl32 gr * (x / gl32 gr) = x := by field_simp
  generalize x / gl32 gr = t at *
  generalize rnd b32 t = t' at *
  generalize (gcoord32 gr x : ℚ) = c at *
  generalize gl32 gr = g at *
  have b1 : g * c ≤ g * (t + (t / 2 ^ 24 + 1 / 2 ^ 150)) := by
    apply mul_le_mul_of_nonneg_left _ hg.le; linarith [r.2]
  have b2 : g * (t - (t / 2 ^ 24 + 1 / 2 ^ 150)) ≤ g * (c + 1) := by
    apply mul_le_mul_of_nonneg_left _ hg.le; linarith [r.1]
  have e2 : g * (t / 2 ^ 24) = x / 2 ^ 24 := by rw [← e]; ring
  have b1' : g * c ≤ x + (x / 2 ^ 24 + g * (1 / 2 ^ 150)) := by
    calc _ ≤ _ := b1
      _ = g * t + (g * (t / 2 ^ 24) + g * (1 / 2 ^ 150)) := by ring
      _ = _ := by rw [e, e2]
  have b2' : x - (x / 2 ^ 24 + g * (1 / 2 ^ 150)) ≤ g * (c + 1) := by
    calc _ = g * t - (g * (t / 2 ^ 24) + g * (1 / 2 ^ 150)) := by rw [e, e2]
      _ = g * (t - (t / 2 ^ 24 + 1 / 2 ^ 150)) := by ring
      _ ≤ _ := b2
  norm_num at *
  constructor <;> linarith

theorem gl32_le {gr : Int} (h1 : 1 ≤ gr) (h2 : gr ≤ 2 ^ 24) {r : ℚ} (hr : r ≤ gr) :
    gl32 gr * r ≤ 1 + 1 / 2 ^ 24 := by
  have hgr : (1 : ℚ) ≤ gr := by exact_mod_cast h1
  have := (gl32_bounds h1 h2).2
  rw [le_div_iff₀ (by linarith)] at this
  exact (mul_le_mul_of_nonneg_left hr (gl32_pos h1 h2).le).trans this

/-- distance to the nearer wall -/
theorem wallDist32 {gr : Int} (h1 : 1 ≤ gr) (h2 : gr ≤ 2 ^ 24) {x : ℚ} (hx : 0 ≤ x) (hx1 : x ≤ 1) :
    ∃ w, wallDist (FP.recip gr) (.fin x : F32) = .fin w ∧ 0 ≤ w ∧ w ≤ 2 ∧
      w ≤ x - gl32 gr * gcoord32 gr x + 7 / 2 ^ 24 ∧
      w ≤ gl32 gr * (gcoord32 gr x + 1) - x + 7 / 2 ^ 24 := by
  have hg := gl32_pos h1 h2
  have hg1 : gl32 gr ≤ 1 + 1 / 2 ^ 24 := by
    have := gl32_le h1 h2 (r := 1) (by exact_mod_cast h1)
    simpa using this
  obtain ⟨c1, c2⟩ := gcoord32_bounds h1 h2 hx hx1
  have ht0 : 0 ≤ x / gl32 gr := div_nonneg hx hg.le
  have n1 := Int.floor_le (x / gl32 gr)
  have n2 := Int.lt_floor_add_one (x / gl32 gr)
  have hn0 : 0 ≤ ⌊x / gl32 gr⌋ := Int.floor_nonneg.mpr ht0
  rw [le_div_iff₀ hg] at n1
  rw [div_lt_iff₀ hg] at n2
  have htr : truncK (x / gl32 gr) = ⌊x / gl32 gr⌋ := by unfold truncK; rw [if_pos ht0]
  have hgb := gl32_bounds h1 h2
  have r2 := abs_le.mp (rnd32_err (gl32 gr / 2))
  rw [abs_of_pos (by positivity)] at r2
  unfold wallDist
  rw [recip32 h1 h2, fmodF32 hg.ne', htr, ofInt32 (by norm_num), divF32 (by norm_num)]
  swap
  · push_cast
    rw [abs_of_pos (by positivity)]
    refine le_trans (b := 1) ?_ (by norm_num)
    norm_num at *; linarith
  push_cast
  simp only [le32, lt32]
  generalize hn : ⌊x / gl32 gr⌋ = n at *
  generalize gcoord32 gr x = i at *
  generalize gl32 gr = g at *
  have hdx0 : 0 ≤ x - n * g := by linarith
  have hdx1 : x - n * g < g := by linarith
  have one : (FP.ofInt 1 : F32) = .fin 1 := by rw [ofInt32 (by norm_num)]; norm_num
  have zero : (FP.ofInt 0 : F32) = .fin 0 := by rw [ofInt32 (by norm_num)]; norm_num
  have bnd : ∀ w : ℚ, 0 ≤ w → w ≤ 2 → w ≤ x - n * g + 3 / 2 ^ 24 → w ≤ g - (x - n * g) + 3 / 2 ^ 24 →
      0 ≤ w ∧ w ≤ 2 ∧ w ≤ x - g * i + 7 / 2 ^ 24 ∧ w ≤ g * (i + 1) - x + 7 / 2 ^ 24 := by
    intro w w0 w2 wa wb
    refine ⟨w0, w2, ?_⟩
    rcases lt_trichotomy i n with h | h | h
    · have hi : (i : ℚ) + 1 ≤ n := by exact_mod_cast h
      have : g * (i + 1) ≤ g * n := mul_le_mul_of_nonneg_left hi hg.le
      constructor
      · linarith
      · linarith
    · subst h
      constructor <;> linarith
    · have hi : (n : ℚ) + 1 ≤ i := by exact_mod_cast h
      have : g * (n + 1) ≤ g * i := mul_le_mul_of_nonneg_left hi hg.le
      constructor
      · linarith
      · linarith
  have hgle2 : g ≤ 3 / 2 := by norm_num at *; linarith
  have sm : ∀ t : ℚ, 0 ≤ t → t ≤ 2 → |t| ≤ 2 ^ 100 := by
    intro t t0 t2; rw [abs_of_nonneg t0]; exact t2.trans (by norm_num)
  by_cases hc : x - n * g ≤ rnd b32 (g / 2)
  · have r3 := abs_le.mp (rnd32_err (x - n * g))
    rw [abs_of_nonneg hdx0] at r3
    have p0 := rnd_nonneg b32 hdx0
    have p2 : rnd b32 (x - n * g) ≤ 2 := by norm_num at *; linarith [r3.2]
    have hs : |g - (x - n * g)| ≤ 2 ^ 100 := sm _ (by linarith) (by linarith)
    have hq : |rnd b32 (g - (x - n * g)) * 0| ≤ 2 ^ 100 := by simp
    refine ⟨rnd b32 (x - n * g), ?_, bnd _ p0 p2 ?_ ?_⟩
    · simp only [hc, not_lt.mpr hc, decide_true, decide_false, FP.ofBool, if_true, Bool.false_eq_true,
        if_false]
      rw [one, zero, mulF32 (by rw [mul_one]; exact sm _ hdx0 (by linarith)), subF32 hs, mulF32 hq,
        mul_one, mul_zero, rnd_zero, addF32 (by rw [add_zero]; exact sm _ p0 p2), add_zero, rnd_rnd]
    · norm_num at *; linarith [r3.2]
    · norm_num at *; linarith [r3.2, r2.1, r2.2]
  · have hc' := not_le.mp hc
    have hy0 : 0 ≤ g - (x - n * g) := by linarith
    have r3 := abs_le.mp (rnd32_err (g - (x - n * g)))
    rw [abs_of_nonneg hy0] at r3
    have p0 := rnd_nonneg b32 hy0
    have p2 : rnd b32 (g - (x - n * g)) ≤ 2 := by norm_num at *; linarith [r3.2]
    have hs : |g - (x - n * g)| ≤ 2 ^ 100 := sm _ (by linarith) (by linarith)
    have hq : |(x - n * g) * 0| ≤ 2 ^ 100 := by simp
    refine ⟨rnd b32 (g - (x - n * g)), ?_, bnd _ p0 p2 ?_ ?_⟩
    · simp only [hc, hc', decide_true, decide_false, FP.ofBool, if_true, Bool.false_eq_true,
        if_false]
      rw [one, zero, mulF32 hq, subF32 hs, mulF32 (by rw [mul_one]; exact sm _ p0 p2),
        mul_one, mul_zero, rnd_zero, rnd_rnd, addF32 (by rw [zero_add]; exact sm _ p0 p2), zero_add,
        rnd_rnd]
    · norm_num at *; linarith [r3.2, r2.1, r2.2]
    · norm_num at *; linarith [r3.2]

/-- `std::min` of finite values -/
theorem min3_32 (a b c : ℚ) : min3 (.fin a : F32) (.fin b) (.fin c) = .fin (min (min a b) c) := by
  have h1 : (if FP.lt (.fin b : F32) (.fin a) then .fin b else .fin a : F32) = .fin (min a b) := by
    rw [lt32]
    by_cases h : b < a
    · rw [if_pos (by simpa using h), min_eq_right h.le]
    · rw [if_neg (by simpa using h), min_eq_left (not_lt.mp h)]
  unfold min3
  simp only
  rw [h1, lt32]
  by_cases h : c < min a b
  · rw [if_pos (by simpa using h), min_eq_right h.le]
  · rw [if_neg (by simpa using h), min_eq_left (not_lt.mp h)]

/-- the bound of the exit test, as computed -/
def exit32 (gr : Int) (r : Nat) (mn : ℚ) : ℚ := rnd b32 (rnd b32 (gl32 gr * r) + mn)

theorem exit32_eq {gr : Int} (h1 : 1 ≤ gr) (h2 : gr ≤ 2 ^ 24) {r : Nat} (hr : (r : Int) ≤ gr) {mn : ℚ}
    (m0 : 0 ≤ mn) (m2 : mn ≤ 2) :
    (square (FP.add (FP.mul (FP.recip gr) (FP.ofInt (r : Int))) (.fin mn)) : F32)
      = .fin (rnd b32 (exit32 gr r mn * exit32 gr r mn)) ∧
    0 ≤ exit32 gr r mn ∧ exit32 gr r mn ≤ gl32 gr * r + mn + 5 / 2 ^ 24 := by
  have hg := gl32_pos h1 h2
  have hr0 : (0 : ℚ) ≤ r := Nat.cast_nonneg r
  have hrq : (r : ℚ) ≤ gr := by exact_mod_cast hr
  have hgr := gl32_le h1 h2 hrq
  have hgr0 : 0 ≤ gl32 gr * r := mul_nonneg hg.le hr0
  have e1 := abs_le.mp (rnd32_err (gl32 gr * r))
  rw [abs_of_nonneg hgr0] at e1
  have p1 := rnd_nonneg b32 hgr0
  have s0 : 0 ≤ rnd b32 (gl32 gr * r) + mn := by linarith
  have e2 := abs_le.mp (rnd32_err (rnd b32 (gl32 gr * r) + mn))
  rw [abs_of_nonneg s0] at e2
  have p2 := rnd_nonneg b32 s0
  have hB : exit32 gr r mn ≤ gl32 gr * r + mn + 5 / 2 ^ 24 := by
    unfold exit32
    norm_num at *
    linarith [e1.2, e2.2]
  have hB4 : exit32 gr r mn ≤ 4 := by norm_num at *; linarith
  have hB0 : 0 ≤ exit32 gr r mn := p2
  refine ⟨?_, hB0, hB⟩
  unfold square
  have er : ((r : Int) : ℚ) = (r : ℚ) := by push_cast; rfl
  rw [recip32 h1 h2, ofInt32 (by rw [abs_of_nonneg (by omega)]; omega), er, mulF32, addF32]
  · have : |exit32 gr r mn * exit32 gr r mn| ≤ 2 ^ 100 := by
      rw [abs_of_nonneg (mul_nonneg hB0 hB0)]
      have := mul_le_mul hB4 hB4 hB0 (by norm_num)
      exact this.trans (by norm_num)
    exact mulF32 this
  · rw [abs_of_nonneg s0]
    refine le_trans (b := 8) ?_ (by norm_num)
    norm_num at *
    linarith [e1.2]
  · rw [abs_of_nonneg hgr0]
    refine le_trans (b := 2) ?_ (by norm_num)
    norm_num at *
    linarith

/-- a coordinate `r + 1` cells away is at least as far as the bound, up to `14 * 2^-24` -/
theorem far_axis32 {gr : Int} (h1 : 1 ≤ gr) (h2 : gr ≤ 2 ^ 24) {a b mn w : ℚ} {r : Nat}
    (hr : (r : Int) ≤ gr) (ha : 0 ≤ a ∧ a ≤ 1) (hb : 0 ≤ b ∧ b ≤ 1)
    (h : (r : Int) + 1 ≤ |gcoord32 gr b - gcoord32 gr a|) (m0 : 0 ≤ mn) (m2 : mn ≤ 2)
    (hw : wallDist (FP.recip gr) (.fin a : F32) = .fin w) (hle : mn ≤ w) :
    exit32 gr r mn ≤ |b - a| + 14 / 2 ^ 24 := by
  obtain ⟨-, -, hB⟩ := exit32_eq h1 h2 hr m0 m2
  obtain ⟨w', e, -, -, w1, w2⟩ := wallDist32 h1 h2 ha.1 ha.2
  rw [hw] at e; cases e
  obtain ⟨b1, b2⟩ := gcoord32_bounds h1 h2 hb.1 hb.2
  have hg := gl32_pos h1 h2
  generalize gcoord32 gr a = i at *
  generalize gcoord32 gr b = j at *
  generalize gl32 gr = g at *
  rcases le_abs.mp h with h | h
  · have hj : (i : ℚ) + r + 1 ≤ j := by exact_mod_cast (by omega : i + r + 1 ≤ j)
    have := mul_le_mul_of_nonneg_left hj hg.le
    have := le_abs_self (b - a)
    linarith
  · have hj : (j : ℚ) + r + 1 ≤ i := by exact_mod_cast (by omega : j + r + 1 ≤ i)
    have := mul_le_mul_of_nonneg_left hj hg.le
    have := neg_le_abs (b - a)
    linarith

/-- coordinates between `0` and `1`, in range of the grid -/
structure GridPt (gr : Int) (p : Pt ℚ) : Prop where
  x : 0 ≤ p.x ∧ p.x ≤ 1
  y : 0 ≤ p.y ∧ p.y ≤ 1
  z : 0 ≤ p.z ∧ p.z ≤ 1
  rx : gcoord32 gr p.x < gr
  ry : gcoord32 gr p.y < gr
  rz : gcoord32 gr p.z < gr

/-- the point with the given coordinates -/
def toF32 (p : Pt ℚ) : Pt F32 := ⟨.fin p.x, .fin p.y, .fin p.z⟩

theorem cellId_toF32 {gr : Int} (h1 : 1 ≤ gr) (h2 : gr ≤ 2 ^ 24) {p : Pt ℚ} (hp : GridPt gr p) :
    cellId gr (toF32 p)
      = .ok (gcoord32 gr p.x + gcoord32 gr p.y * gr + gcoord32 gr p.z * gr * gr) := by
  unfold cellId toF32
  simp only [gridCoord32 h1 h2 hp.x.1 hp.x.2, gridCoord32 h1 h2 hp.y.1 hp.y.2,
    gridCoord32 h1 h2 hp.z.1 hp.z.2, bind_ok, pure_eq_ok]

theorem coords_toF32 {gr : Int} (h1 : 1 ≤ gr) (h2 : gr ≤ 2 ^ 24) {p : Pt ℚ} (hp : GridPt gr p) {c : Int}
    (h : cellId gr (toF32 p) = .ok c) :
    coords gr c = (gcoord32 gr p.x, gcoord32 gr p.y, gcoord32 gr p.z) := by
  rw [cellId_toF32 h1 h2 hp] at h
  cases h
  have hin : InGrid gr (gcoord32 gr p.x, gcoord32 gr p.y, gcoord32 gr p.z) :=
    ⟨⟨gcoord32_nonneg h1 h2 hp.x.1, hp.rx⟩, ⟨gcoord32_nonneg h1 h2 hp.y.1, hp.ry⟩,
      ⟨gcoord32_nonneg h1 h2 hp.z.1, hp.rz⟩⟩
  rw [← coords_cellOf hin]
  congr 1
  unfold cellOf; simp only; ring

/-- a point in a cell outside the shells searched is at least as far as the exit bound, up to
`14 * 2^-24` -/
theorem far_point32 {gr : Int} (h1 : 1 ≤ gr) (h2 : gr ≤ 2 ^ 24) {q p : Pt ℚ} (hq : GridPt gr q)
    (hp : GridPt gr p) {cq cp : Int} (hcq : cellId gr (toF32 q) = .ok cq)
    (hcp : cellId gr (toF32 p) = .ok cp) {r : Nat} (hrg : (r : Int) ≤ gr)
    (hr : ((r + 1 : Nat) : Int) ≤ cheb (coords gr cp) (coords gr cq)) :
    ∃ B, (square (FP.add (FP.mul (FP.recip gr) (FP.ofInt (r : Int)))
      (min3 (wallDist (FP.recip gr) (toF32 q).x) (wallDist (FP.recip gr) (toF32 q).y)
        (wallDist (FP.recip gr) (toF32 q).z))) : F32) = .fin (rnd b32 (B * B)) ∧ 0 ≤ B ∧
      ∀ d, 0 ≤ d → sqDist p q ≤ d ^ 2 → B ≤ d + 14 / 2 ^ 24 := by
  rw [coords_toF32 h1 h2 hp hcp, coords_toF32 h1 h2 hq hcq] at hr
  obtain ⟨wx, ex, x0, x2, -, -⟩ := wallDist32 h1 h2 hq.x.1 hq.x.2
  obtain ⟨wy, ey, y0, y2, -, -⟩ := wallDist32 h1 h2 hq.y.1 hq.y.2
  obtain ⟨wz, ez, z0, z2, -, -⟩ := wallDist32 h1 h2 hq.z.1 hq.z.2
  unfold toF32
  simp only
  rw [ex, ey, ez, min3_32]
  have m0 : 0 ≤ min (min wx wy) wz := le_min (le_min x0 y0) z0
  have l1 : min (min wx wy) wz ≤ wx := (min_le_left _ _).trans (min_le_left _ _)
  have l2 : min (min wx wy) wz ≤ wy := (min_le_left _ _).trans (min_le_right _ _)
  have l3 : min (min wx wy) wz ≤ wz := min_le_right _ _
  have m2 := l1.trans x2
  obtain ⟨e1, e2, -⟩ := exit32_eq h1 h2 hrg m0 m2
  refine ⟨_, e1, e2, fun d d0 hd => ?_⟩
  have ax : ∀ t : ℚ, t ^ 2 ≤ d ^ 2 → |t| ≤ d := fun t ht => abs_le_of_sq_le_sq ht d0
  unfold sqDist at hd
  have s1 := sq_nonneg (p.x - q.x)
  have s2 := sq_nonneg (p.y - q.y)
  have s3 := sq_nonneg (p.z - q.z)
  simp only [cheb, le_max_iff] at hr
  rcases hr with hr | hr | hr
  · have := far_axis32 h1 h2 hrg hq.x hp.x (by push_cast at hr ⊢; exact hr) m0 m2 ex l1
    have := ax (p.x - q.x) (by linarith)
    linarith
  · have := far_axis32 h1 h2 hrg hq.y hp.y (by push_cast at hr ⊢; exact hr) m0 m2 ey l2
    have := ax (p.y - q.y) (by linarith)
    linarith
  · have := far_axis32 h1 h2 hrg hq.z hp.z (by push_cast at hr ⊢; exact hr) m0 m2 ez l3
    have := ax (p.z - q.z) (by linarith)
    linarith

theorem near_unvisited {D B s d : ℚ} (hn : Near (6 / 2 ^ 24) (1 / 2 ^ 140) D s) (hB0 : 0 ≤ B)
    (hD : D ≤ rnd b32 (B * B)) (hd0 : 0 ≤ d) (hB : B ≤ d + 14 / 2 ^ 24) (hs3 : s ≤ 3) :
    s ≤ (d + 1 / 2 ^ 19) ^ 2 := by
  by_cases hd2 : 2 ≤ d
  · nlinarith
  have hd2 := (not_le.mp hd2).le
  have r := (abs_le.mp (rnd32_err (B * B))).2
  rw [abs_of_nonneg (mul_nonneg hB0 hB0)] at r
  have n := (abs_le.mp hn).1
  have hBB : B * B ≤ (d + 14 / 2 ^ 24) * (d + 14 / 2 ^ 24) := mul_le_mul hB hB hB0 (by positivity)
  norm_num at *
  nlinarith

theorem near_visited {D E s t d : ℚ} (hn : Near (6 / 2 ^ 24) (1 / 2 ^ 140) D s)
    (hm : Near (6 / 2 ^ 24) (1 / 2 ^ 140) E t)
    (hD : D ≤ E) (hd0 : 0 ≤ d) (htd : t ≤ d ^ 2) (hs3 : s ≤ 3) :
    s ≤ (d + 1 / 2 ^ 19) ^ 2 := by
  by_cases hd2 : 2 ≤ d
  · nlinarith
  have hd2 := (not_le.mp hd2).le
  have n := (abs_le.mp hn).1
  have m := (abs_le.mp hm).2
  norm_num at *
  nlinarith

/-- `√a ≤ √b + s`, for squares of distances -/
def DistLe (s a b : ℚ) : Prop := ∀ d, 0 ≤ d → b ≤ d ^ 2 → a ≤ (d + s) ^ 2

theorem toF32_inj {p q : Pt ℚ} (h : toF32 p = toF32 q) : p = q := by
  unfold toF32 at h
  injection h with h1 h2 h3
  injection h1 with h1; injection h2 with h2; injection h3 with h3
  cases p; cases q; simp_all

theorem GridPt.diff {gr : Int} {p q : Pt ℚ} (hp : GridPt gr p) (hq : GridPt gr q) :
    |p.x - q.x| ≤ 1 ∧ |p.y - q.y| ≤ 1 ∧ |p.z - q.z| ≤ 1 := by
  obtain ⟨⟨a1, a2⟩, ⟨a3, a4⟩, ⟨a5, a6⟩, -, -, -⟩ := hp
  obtain ⟨⟨b1, b2⟩, ⟨b3, b4⟩, ⟨b5, b6⟩, -, -, -⟩ := hq
  refine ⟨?_, ?_, ?_⟩ <;> rw [abs_le] <;> constructor <;> linarith

theorem GridPt.sqDist_le {gr : Int} {p q : Pt ℚ} (hp : GridPt gr p) (hq : GridPt gr q) :
    sqDist p q ≤ 3 := by
  obtain ⟨h1, h2, h3⟩ := hp.diff hq
  unfold sqDist
  rw [← sq_abs (p.x - q.x), ← sq_abs (p.y - q.y), ← sq_abs (p.z - q.z)]
  have := abs_nonneg (p.x - q.x)
  have := abs_nonneg (p.y - q.y)
  have := abs_nonneg (p.z - q.z)
  nlinarith

theorem GridPt.dist {gr : Int} {p q : Pt ℚ} (hp : GridPt gr p) (hq : GridPt gr q) :
    ∃ D, getDistance (toF32 p) (toF32 q) = .fin D ∧ Near (6 / 2 ^ 24) (1 / 2 ^ 140) D (sqDist p q) :=
  getDistance32 (hp.diff hq).1 (hp.diff hq).2.1 (hp.diff hq).2.2

/-- an entry of the result that is the point number `j` -/
def IsEntry (xyz : List (Pt F32)) (index : Nat) (q : Pt ℚ) (e : Int × WithTop ℚ) (j : Nat) (v : Pt ℚ) :
    Prop :=
  e.1 = j ∧ j ≠ index ∧ xyz[j]? = some (toF32 v) ∧ e.2 = FP.toD (getDistance (toF32 v) (toF32 q))

theorem knn32 {gr : Int} (h1 : 1 ≤ gr) (h2 : gr ≤ 2 ^ 24) (xyz : List (Pt F32)) (id offset : List Int)
    (hbox : ∀ p ∈ xyz, ∃ v, p = toF32 v ∧ GridPt gr v) (hg : GridOK gr xyz.length id offset)
    (hids : ∀ (i : Nat) p, xyz[i]? = some p → ∃ c, id[i]? = some c ∧ cellId gr p = .ok c)
    (index : Nat) (q : Pt ℚ) (hq : xyz[index]? = some (toF32 q)) (k : Nat) (hk : 1 ≤ k) :
    ∃ res, knnCompute xyz id offset index k gr (List.replicate k ((0 : Int), (⊤ : WithTop ℚ)))
        = .ok res ∧ res.length = k ∧ res.Pairwise (fun a b => a.2 ≤ b.2) ∧
      ((res.filter fun e => decide (e.2 ≠ ⊤)).map (·.1)).Nodup ∧
      (∀ e ∈ res, e.2 ≠ ⊤ → ∃ j v, IsEntry xyz index q e j v) ∧
      ∀ (j : Nat) (v : Pt ℚ), xyz[j]? = some (toF32 v) → j ≠ index →
        (∀ e ∈ res, e.2 ≠ ⊤ → e.1 ≠ j) →
        ∀ e ∈ res, ∃ i w, IsEntry xyz index q e i w ∧ DistLe (1 / 2 ^ 19) (sqDist w q) (sqDist v q) := by
  have hi := (List.getElem?_eq_some_iff.mp hq).1
  obtain ⟨res, h, q', c, m, e, hperm, hq', hc, hsort, ⟨hlen, V, d, hV, hcand, hp, hord⟩, hm, hexit⟩ :=
    knnCompute_inv xyz index k hk hg (List.replicate k ((0 : Int), (⊤ : WithTop ℚ))) (by simp) hi
  rw [hq] at hq'
  injection hq' with hq'
  subst hq'
  have hqg : GridPt gr q := by
    obtain ⟨v, e1, e2⟩ := hbox _ (List.mem_of_getElem? hq)
    rw [toF32_inj e1]; exact e2
  have w := topLt_weakOrd (K := ℚ)
  have hheap0 : HeapEx (topLt (K := ℚ)) (List.replicate k ((0 : Int), (⊤ : WithTop ℚ)))
      (List.replicate k ((0 : Int), (⊤ : WithTop ℚ))).length 0 none := by
    intro p c _ _ _ _ x y hx hy
    have hx' := List.eq_of_mem_replicate (List.mem_of_getElem? hx)
    have hy' := List.eq_of_mem_replicate (List.mem_of_getElem? hy)
    rw [hx', hy']; rfl
  obtain ⟨hheap, hdisc⟩ := hord w hheap0
  -- entries are candidates or padding
  have hVe : ∀ e ∈ V, ∃ j v, IsEntry xyz index q e j v ∧ GridPt gr v := by
    intro e he
    have hvis : e.1 ∈ visited gr offset index (coords gr c) m := by
      rw [← hV]; exact List.mem_map_of_mem he
    obtain ⟨pt, g1, g2, g3⟩ := hcand e he
    have hne := ((mem_visited hg _ _ _ _).mp hvis).1
    obtain ⟨v, rfl, gv⟩ := hbox pt (List.mem_of_getElem? g2)
    exact ⟨e.1.toNat, v, ⟨by omega, by omega, g2, g3⟩, gv⟩
  have hVfin : ∀ e ∈ V, e.2 ≠ ⊤ := by
    intro e he
    obtain ⟨j, v, ⟨-, -, -, h4⟩, gv⟩ := hVe e he
    obtain ⟨D, hD, -⟩ := gv.dist hqg
    rw [h4, hD]; exact WithTop.coe_ne_top
  have hmem : ∀ e ∈ res, e ∈ V ∨ e = ((0 : Int), (⊤ : WithTop ℚ)) := by
    intro e he
    have : e ∈ V ++ List.replicate k ((0 : Int), (⊤ : WithTop ℚ)) :=
      hp.mem_iff.mp (List.mem_append_left _ (hperm.mem_iff.mp he))
    rcases List.mem_append.mp this with h | h
    · exact Or.inl h
    · exact Or.inr (List.eq_of_mem_replicate h)
  refine ⟨res, e, by rw [hperm.length_eq, hlen], (hsort w).imp (fun hab => (topLt_false _ _).mp hab), ?_, ?_, ?_⟩
  · -- distinct
    have hVnd : (V.map (·.1)).Nodup := by rw [hV]; exact visited_nodup hg _ _ _
    have hsub : ((res ++ d).filter fun e => decide (e.2 ≠ ⊤)).Perm V := by
      have p1 := ((hperm.append_right d).trans hp).filter (fun e => decide (e.2 ≠ ⊤))
      have e1 : (V ++ List.replicate k ((0 : Int), (⊤ : WithTop ℚ))).filter (fun e => decide (e.2 ≠ ⊤)) = V := by
        rw [List.filter_append, List.filter_eq_self.mpr (fun e he => by simpa using hVfin e he)]
        have : (List.replicate k ((0 : Int), (⊤ : WithTop ℚ))).filter (fun e => decide (e.2 ≠ ⊤)) = [] := by
          rw [List.filter_eq_nil_iff]
          intro e he
          rw [List.eq_of_mem_replicate he]; simp
        rw [this, List.append_nil]
      rw [e1] at p1
      exact p1
    have hn := (hsub.map (·.1)).nodup_iff.mpr hVnd
    rw [List.filter_append, List.map_append] at hn
    exact (List.nodup_append.mp hn).1
  · intro e he hfin
    rcases hmem e he with h | h
    · obtain ⟨j, v, h, -⟩ := hVe e h; exact ⟨j, v, h⟩
    · rw [h] at hfin; exact absurd rfl hfin
  · intro j v hj hji hnot x hx
    obtain ⟨v', e1, gv⟩ := hbox _ (List.mem_of_getElem? hj)
    have := toF32_inj e1
    subst this
    have hxh := hperm.mem_iff.mp hx
    obtain ⟨E, hE, hEn⟩ := gv.dist hqg
    obtain ⟨cj, hcj, hcell⟩ := hids j _ hj
    by_cases hvis : (j : Int) ∈ visited gr offset index (coords gr c) m
    · -- visited and discarded
      rw [← hV, List.mem_map] at hvis
      obtain ⟨e', he', heq⟩ := hvis
      obtain ⟨j', v', ⟨f1, f2, f3, f4⟩, gv'⟩ := hVe e' he'
      have hjj : j' = j := by have := f1.symm.trans heq; exact_mod_cast this
      subst hjj
      rw [hj] at f3
      injection f3 with f3
      have := toF32_inj f3
      subst this
      have hin : e' ∈ h ++ d := hp.mem_iff.mpr (List.mem_append_left _ he')
      have hd' : e' ∈ d := by
        rcases List.mem_append.mp hin with h' | h'
        · exact absurd f1 (hnot e' (hperm.mem_iff.mpr h') (hVfin e' he'))
        · exact h'
      have hle := (topLt_false _ _).mp (hdisc e' hd' x hxh)
      rw [f4, hE] at hle
      have hxfin : x.2 ≠ ⊤ := by
        intro ht
        rw [ht, top_le_iff] at hle
        exact WithTop.coe_ne_top hle
      rcases hmem x hx with hxV | hxV
      · obtain ⟨i, u, hu, gu⟩ := hVe x hxV
        refine ⟨i, u, hu, fun dd d0 hdd => ?_⟩
        obtain ⟨D, hD, hDn⟩ := gu.dist hqg
        have h4 := hu.2.2.2
        rw [hD] at h4
        rw [h4] at hle
        exact near_visited hDn hEn (WithTop.coe_le_coe.mp hle) d0 hdd (gu.sqDist_le hqg)
      · rw [hxV] at hxfin; exact absurd rfl hxfin
    · -- not visited
      have hnv : ¬ cheb (coords gr cj) (coords gr c) < m := by
        intro hlt
        apply hvis
        rw [mem_visited hg]
        exact ⟨by simpa using hji, cj, by simp, by simpa using hcj, hlt⟩
      rcases hexit with rfl | ⟨r, top, rfl, htop, hx2⟩
      · exfalso
        apply hnv
        have hcr := hg.id_range _ (List.mem_of_getElem? hcj)
        have hccr := hg.id_range _ (List.mem_of_getElem? hc)
        obtain ⟨⟨x0, x1⟩, ⟨y0, y1⟩, ⟨z0, z1⟩⟩ := coords_inGrid hg.gr_pos hcr
        obtain ⟨⟨u0, u1⟩, ⟨v0, v1⟩, ⟨w0, w1⟩⟩ := coords_inGrid hg.gr_pos hccr
        unfold cheb
        have := hg.gr_pos
        rw [Int.toNat_of_nonneg (by omega)]
        simp only [max_lt_iff, abs_lt]
        omega
      · have hqc : cellId gr (toF32 q) = .ok c := by
          obtain ⟨c', e1, e2⟩ := hids index _ hq
          rw [hc] at e1; cases e1; exact e2
        obtain ⟨B, hB, hB0, hBd⟩ := far_point32 h1 h2 hqg gv hqc hcell (r := r) (by omega) (by omega)
        rw [hB] at hx2
        have hlt := (topLt_iff _ _).mp hx2
        have hxt : x.2 ≤ top.2 := by
          have hl : HeapEx (topLt (K := ℚ)) h h.length 0 none := by rw [hlen]; exact hheap
          exact (topLt_false _ _).mp (root_max_mem w hl htop x hxh)
        have hle := hxt.trans hlt.le
        have hxfin : x.2 ≠ ⊤ := by
          intro ht
          rw [ht, top_le_iff] at hle
          exact WithTop.coe_ne_top hle
        rcases hmem x hx with hxV | hxV
        · obtain ⟨i, u, hu, gu⟩ := hVe x hxV
          refine ⟨i, u, hu, fun dd d0 hdd => ?_⟩
          obtain ⟨D, hD, hDn⟩ := gu.dist hqg
          have h4 := hu.2.2.2
          rw [hD] at h4
          rw [h4] at hle
          exact near_unvisited hDn hB0 (WithTop.coe_le_coe.mp hle) d0 (hBd dd d0 hdd) (gu.sqDist_le hqg)
        · rw [hxV] at hxfin; exact absurd rfl hxfin

end Votess
