import Verif.Proofs.IeeeCell
/-! Formats at least as good as `float`. -/
namespace Votess

/-- at least the precision and the range of `float` -/
structure Wide (f : Fmt) : Prop where
  p : 24 ≤ f.p
  qmin : f.qmin ≤ -149
  emax : 128 ≤ f.emax
  norm : f.qmin + (f.p - 1) ≤ -126

theorem wide32 : Wide b32 := ⟨by decide, by decide, by decide, by decide⟩
theorem wide64 : Wide b64 := ⟨by decide, by decide, by decide, by decide⟩
theorem wide32z : Wide b32z := ⟨by decide, by decide, by decide, by decide⟩
theorem wide64z : Wide b64z := ⟨by decide, by decide, by decide, by decide⟩

namespace Wide

variable {f : Fmt} (w : Wide f)
include w

theorem p1 : 1 ≤ f.p := by have := w.p; omega

theorem normal_le : f.normal ≤ 1 / 2 ^ 126 := by
  refine (pow2_le w.norm).trans (le_of_eq ?_)
  rw [pow2_eq]; norm_num

theorem eta_le : f.eta ≤ 1 / 2 ^ 126 := by
  unfold Fmt.eta
  split
  · exact w.normal_le
  · refine le_trans (pow2_le ?_) w.normal_le
    have := w.p; omega

theorem err (x : ℚ) : |rnd f x - x| ≤ |x| / 2 ^ 24 + 1 / 2 ^ 126 := by
  have h := rnd_err w.p1 x
  have hu : f.u ≤ 1 / 2 ^ 24 := by
    rw [← b32_u]
    exact pow2_le (by have := w.p; show -(f.p : Int) ≤ -((24 : Nat) : Int); omega)
  have he : f.eta ≤ 1 / 2 ^ 126 := by
    exact w.eta_le
  have := mul_le_mul_of_nonneg_right hu (abs_nonneg x)
  linarith

theorem emax_le : (2 : ℚ) ^ 128 ≤ pow2 f.emax := by
  rw [← b32_emax]; exact pow2_le w.emax

/-- no overflow for moderate values -/
theorem small {x : ℚ} (h : |x| ≤ 2 ^ 120) : Fl.round f x = .fin (rnd f x) := by
  have e := abs_le.mp (w.err x)
  have a := abs_le.mp h
  have m := w.emax_le
  have h1 : |x| / 2 ^ 24 ≤ 2 ^ 120 := (div_le_self (abs_nonneg x) (by norm_num)).trans h
  have h2 : (1 : ℚ) / 2 ^ 126 ≤ 1 := by norm_num
  have h3 : (2 : ℚ) ^ 120 + 2 ^ 120 + 1 < 2 ^ 128 := by norm_num
  unfold Fl.round
  simp only
  rw [if_neg (not_le.mpr (by linarith)), if_neg (not_le.mpr (by linarith))]

theorem idem (x : ℚ) : rnd f (rnd f x) = rnd f x := rnd_idem w.p1 x

theorem mono {x y : ℚ} (h : x ≤ y) : rnd f x ≤ rnd f y := rnd_mono w.p1 h

theorem int {n : Int} (h : |n| ≤ 2 ^ 24) : rnd f (n : ℚ) = n := by
  by_cases h0 : n = 0
  · subst h0; rw [Int.cast_zero, rnd_zero]
  refine rnd_rep_normal (f := f) w.p1 (m := n) (e := 0) (h.trans (pow_le_pow_right₀ (by norm_num) w.p))
    (by have := w.qmin; omega) (by simp [pow2]) (w.normal_le.trans ?_)
  have : (1 : ℚ) ≤ |(n : ℚ)| := by exact_mod_cast Int.one_le_abs h0
  exact le_trans (by norm_num) this

/-- values of `float` are values of the format -/
theorem isFl {x : ℚ} (h : IsFl b32 x) : IsFl f x := by
  obtain ⟨m, e, h1, h2, h3⟩ := h
  refine ⟨m, e, lt_of_lt_of_le h1 (pow_le_pow_right₀ (by norm_num) w.p), ?_, h3⟩
  have := w.qmin
  have h2 : (-149 : Int) ≤ e := h2
  omega

/-- one rounding -/
theorem round {v x B E e : ℚ} (h : |v - x| ≤ E) (hx : |x| ≤ B) (hB : B ≤ 100) (hE : E ≤ 100)
    (he : E + (B + E) / 2 ^ 24 + 1 / 2 ^ 126 ≤ e) : |v| ≤ 2 ^ 100 ∧ |rnd f v - x| ≤ e := by
  have hv : |v| ≤ B + E := by
    calc |v| = |x + (v - x)| := by congr 1; ring
      _ ≤ |x| + |v - x| := abs_add_le _ _
      _ ≤ _ := add_le_add hx h
  refine ⟨hv.trans (by norm_num; linarith), ?_⟩
  have hr := w.err v
  calc |rnd f v - x| = |(rnd f v - v) + (v - x)| := by congr 1; ring
    _ ≤ |rnd f v - v| + |v - x| := abs_add_le _ _
    _ ≤ (|v| / 2 ^ 24 + 1 / 2 ^ 126) + E := add_le_add hr h
    _ ≤ ((B + E) / 2 ^ 24 + 1 / 2 ^ 126) + E := by
        gcongr
    _ ≤ e := by linarith

end Wide

/-! ### how much better than `float` -/

/-- rounding errors are at most `ω` times those of `float` -/
structure Fine (f : Fmt) (ω : ℚ) : Prop extends Wide f where
  u : f.u ≤ ω / 2 ^ 24
  eta : f.eta ≤ ω / 2 ^ 126
  lo : 1 / 2 ^ 40 ≤ ω
  hi : ω ≤ 1

theorem fine32 : Fine b32 1 :=
  ⟨wide32, by rw [b32_u], wide32.eta_le, by norm_num, le_refl _⟩

theorem fine32z : Fine b32z 1 :=
  ⟨wide32z, fine32.u, wide32z.eta_le, by norm_num, le_refl _⟩

theorem Fine.of_eta64 {f : Fmt} (h : f.qmin + (f.p - 1) ≤ -179) (hp : 1 ≤ f.p) :
    f.eta ≤ 1 / 2 ^ 29 / 2 ^ 126 := by
  have hn : f.normal ≤ 1 / 2 ^ 29 / 2 ^ 126 := by
    refine (pow2_le h).trans ?_
    rw [pow2_eq]; norm_num
  unfold Fmt.eta
  split
  · exact hn
  · exact le_trans (pow2_le (by omega)) hn

theorem fine64 : Fine b64 (1 / 2 ^ 29) := by
  refine ⟨wide64, ?_, Fine.of_eta64 (by decide) (by decide), by norm_num, by norm_num⟩
  show pow2 (-53) ≤ _; rw [pow2_eq]; norm_num

theorem fine64z : Fine b64z (1 / 2 ^ 29) :=
  ⟨wide64z, fine64.u, Fine.of_eta64 (by decide) (by decide), by norm_num, by norm_num⟩

namespace Fine

variable {f : Fmt} {ω : ℚ} (w : Fine f ω)
include w

theorem pos : 0 < ω := lt_of_lt_of_le (by norm_num) w.lo

theorem ferr (x : ℚ) : |rnd f x - x| ≤ ω * |x| / 2 ^ 24 + ω / 2 ^ 126 := by
  have h := rnd_err w.p1 x
  have := mul_le_mul_of_nonneg_right w.u (abs_nonneg x)
  have := w.eta
  have e : ω / 2 ^ 24 * |x| = ω * |x| / 2 ^ 24 := by ring
  linarith

/-- the error in numbers -/
theorem err_le {x B : ℚ} (h : |x| ≤ B) : |rnd f x - x| ≤ ω * B / 2 ^ 24 + ω / 2 ^ 126 := by
  refine (w.ferr x).trans ?_
  have := mul_le_mul_of_nonneg_left h w.pos.le
  gcongr

/-- the error below `1` -/
theorem err_unit {x : ℚ} (h : |x| < 1) : |rnd f x - x| ≤ ω / 2 ^ 25 := by
  have h0 := w.pos
  refine (rnd_err_unit w.p1 h).trans (max_le ?_ ?_)
  · have := w.u; linarith
  · have := w.eta
    have : ω / 2 ^ 126 ≤ ω / 2 ^ 25 := by
      rw [div_le_div_iff_of_pos_left h0 (by positivity) (by positivity)]; norm_num
    linarith

/-- one rounding -/
theorem fround {v x B E e : ℚ} (h : |v - x| ≤ E) (hx : |x| ≤ B) (hB : B ≤ 100) (hE : E ≤ 100)
    (he : E + (ω * B + E) / 2 ^ 24 + ω / 2 ^ 126 ≤ e) : |v| ≤ 2 ^ 100 ∧ |rnd f v - x| ≤ e := by
  have hv : |v| ≤ B + E := by
    calc |v| = |x + (v - x)| := by congr 1; ring
      _ ≤ |x| + |v - x| := abs_add_le _ _
      _ ≤ _ := add_le_add hx h
  refine ⟨hv.trans (by norm_num; linarith), ?_⟩
  have hr := w.err_le hv
  have hE0 : 0 ≤ E := (abs_nonneg _).trans h
  have hωE : ω * E ≤ 1 * E := mul_le_mul_of_nonneg_right w.hi hE0
  calc |rnd f v - x| = |(rnd f v - v) + (v - x)| := by congr 1; ring
    _ ≤ |rnd f v - v| + |v - x| := abs_add_le _ _
    _ ≤ (ω * (B + E) / 2 ^ 24 + ω / 2 ^ 126) + E := add_le_add hr h
    _ ≤ e := by
      have : ω * (B + E) / 2 ^ 24 ≤ (ω * B + E) / 2 ^ 24 := by
        gcongr; linarith
      linarith

end Fine

/-! ### the grid -/

/-- the grid coordinate as computed in the format, with the edge length computed in `float` -/
def gcoordF (f : Fmt) (gr : Int) (x : ℚ) : Int := ⌊rnd f (x / gl32 gr)⌋

theorem gcoordF_b32 (gr : Int) (x : ℚ) : gcoordF b32 gr x = gcoord32 gr x := rfl

namespace Wide

variable {f : Fmt} (w : Wide f)
include w

theorem gcoord_nonneg {gr : Int} (h1 : 1 ≤ gr) (h2 : gr ≤ 2 ^ 24) {x : ℚ} (hx : 0 ≤ x) :
    0 ≤ gcoordF f gr x :=
  have _ := w
  Int.floor_nonneg.mpr (rnd_nonneg _ (div_nonneg hx (gl32_pos h1 h2).le))

theorem gcoord_mono {gr : Int} (h1 : 1 ≤ gr) (h2 : gr ≤ 2 ^ 24) {x y : ℚ} (h : x ≤ y) :
    gcoordF f gr x ≤ gcoordF f gr y :=
  Int.floor_le_floor (rnd_mono w.p1 (div_le_div_of_nonneg_right h (gl32_pos h1 h2).le))

theorem gcoord_lt {gr : Int} (h1 : 1 ≤ gr) (h2 : gr ≤ 2 ^ 24) {x : ℚ} (hx : 0 ≤ x)
    (hx1 : x ≤ 1 - 1 / 2 ^ 23) : gcoordF f gr x < gr := by
  have hg : (1 : ℚ) ≤ gr := by exact_mod_cast h1
  unfold gcoordF
  rw [Int.floor_lt]
  have ht := quot32_le h1 h2 hx
  have ht0 : 0 ≤ x / gl32 gr := div_nonneg hx (gl32_pos h1 h2).le
  have he := (abs_le.mp (w.err (x / gl32 gr))).2
  rw [abs_of_nonneg ht0] at he
  have hu : (0 : ℚ) < 1 - 1 / 2 ^ 24 := by norm_num
  rw [le_div_iff₀ hu] at ht
  have : x * gr ≤ (1 - 1 / 2 ^ 23) * gr := mul_le_mul_of_nonneg_right hx1 (by linarith)
  norm_num at *
  linarith

/-- the quotient and its integer part in numbers -/
theorem gcoord_range {gr : Int} (h1 : 1 ≤ gr) (h2 : gr ≤ 2 ^ 24) {x : ℚ} (hx : 0 ≤ x) (hx1 : x ≤ 1) :
    0 ≤ x / gl32 gr ∧ x / gl32 gr ≤ 2 ^ 25 ∧ 0 ≤ gcoordF f gr x ∧ gcoordF f gr x < 2 ^ 26 := by
  have hg : (1 : ℚ) ≤ gr := by exact_mod_cast h1
  have hg2 : (gr : ℚ) ≤ 2 ^ 24 := by exact_mod_cast h2
  have ht := quot32_le h1 h2 hx
  have ht0 : 0 ≤ x / gl32 gr := div_nonneg hx (gl32_pos h1 h2).le
  have hu : (0 : ℚ) < 1 - 1 / 2 ^ 24 := by norm_num
  rw [le_div_iff₀ hu] at ht
  have hxg : x * gr ≤ 2 ^ 24 := by nlinarith
  have ht2 : x / gl32 gr ≤ 2 ^ 25 := by
    have : (1 : ℚ) / 2 ≤ 1 - 1 / 2 ^ 24 := by norm_num
    nlinarith
  have he := abs_le.mp (w.err (x / gl32 gr))
  rw [abs_of_nonneg ht0] at he
  have hr1 : rnd f (x / gl32 gr) < 2 ^ 26 := by
    have := he.2
    norm_num at *
    linarith
  refine ⟨ht0, ht2, w.gcoord_nonneg h1 h2 hx, ?_⟩
  unfold gcoordF; rw [Int.floor_lt]; exact_mod_cast hr1

theorem floorInt_gcoord {gr : Int} (h1 : 1 ≤ gr) (h2 : gr ≤ 2 ^ 24) {x : ℚ} (hx : 0 ≤ x) (hx1 : x ≤ 1) :
    Fl.floorInt (.fin (rnd f (x / gl32 gr)) : Fl f) = some (gcoordF f gr x) := by
  obtain ⟨-, -, a, b⟩ := w.gcoord_range h1 h2 hx hx1
  rw [Fl.floorInt_fin, if_pos]
  · rfl
  · show -2 ^ 31 ≤ gcoordF f gr x ∧ gcoordF f gr x < 2 ^ 31
    constructor <;> omega

end Wide

/-- coordinates between `0` and `1`, in range of the grid -/
structure GridF (f : Fmt) (gr : Int) (p : Pt ℚ) : Prop where
  x : 0 ≤ p.x ∧ p.x ≤ 1
  y : 0 ≤ p.y ∧ p.y ≤ 1
  z : 0 ≤ p.z ∧ p.z ≤ 1
  rx : gcoordF f gr p.x < gr
  ry : gcoordF f gr p.y < gr
  rz : gcoordF f gr p.z < gr

theorem GridPt.gridF {gr : Int} {p : Pt ℚ} (h : GridPt gr p) : GridF b32 gr p := ⟨h.x, h.y, h.z, h.rx, h.ry, h.rz⟩

theorem GridF.diff {f : Fmt} {gr : Int} {p q : Pt ℚ} (hp : GridF f gr p) (hq : GridF f gr q) :
    |p.x - q.x| ≤ 1 ∧ |p.y - q.y| ≤ 1 ∧ |p.z - q.z| ≤ 1 := by
  obtain ⟨a, b, c, -, -, -⟩ := hp
  obtain ⟨a', b', c', -, -, -⟩ := hq
  refine ⟨?_, ?_, ?_⟩ <;> rw [abs_le] <;> constructor <;> linarith

theorem GridF.sqDist_le {f : Fmt} {gr : Int} {p q : Pt ℚ} (hp : GridF f gr p) (hq : GridF f gr q) : sqDist p q ≤ 3 := by
  obtain ⟨a, b, c⟩ := hp.diff hq
  have s : ∀ t : ℚ, |t| ≤ 1 → t ^ 2 ≤ 1 := fun t ht => by
    rw [← sq_abs]; have := abs_nonneg t; nlinarith
  unfold sqDist
  linarith [s _ a, s _ b, s _ c]

/-- the cell of a coordinate contains it, up to a rounding error -/
theorem Fine.gcoord_bounds {f : Fmt} {ω : ℚ} (w : Fine f ω) {gr : Int} (h1 : 1 ≤ gr) (h2 : gr ≤ 2 ^ 24) {x : ℚ}
    (hx : 0 ≤ x) (hx1 : x ≤ 1) :
    gl32 gr * gcoordF f gr x - 2 * ω / 2 ^ 24 ≤ x ∧ x ≤ gl32 gr * (gcoordF f gr x + 1) + 2 * ω / 2 ^ 24 := by
  have hg := gl32_pos h1 h2
  have hω := w.pos
  have hg1 : gl32 gr ≤ 2 := by
    have := gl32_le h1 h2 (r := 1) (by exact_mod_cast h1)
    norm_num at *; linarith
  have ht0 : 0 ≤ x / gl32 gr := div_nonneg hx hg.le
  have r := abs_le.mp (w.ferr (x / gl32 gr))
  rw [abs_of_nonneg ht0] at r
  have f1 : (gcoordF f gr x : ℚ) ≤ rnd f (x / gl32 gr) := Int.floor_le _
  have f2 : rnd f (x / gl32 gr) < gcoordF f gr x + 1 := Int.lt_floor_add_one _
  have e : gl32 gr * (x / gl32 gr) = x := by field_simp
  generalize x / gl32 gr = t at *
  generalize rnd f t = t' at *
  generalize (gcoordF f gr x : ℚ) = c at *
  generalize gl32 gr = g at *
  have b1 : g * c ≤ g * (t + (ω * t / 2 ^ 24 + ω / 2 ^ 126)) := by
    apply mul_le_mul_of_nonneg_left _ hg.le; linarith [r.2]
  have b2 : g * (t - (ω * t / 2 ^ 24 + ω / 2 ^ 126)) ≤ g * (c + 1) := by
    apply mul_le_mul_of_nonneg_left _ hg.le; linarith [r.1]
  have e2 : g * (ω * t / 2 ^ 24) = ω * x / 2 ^ 24 := by rw [← e]; ring
  have b1' : g * c ≤ x + (ω * x / 2 ^ 24 + ω * g / 2 ^ 126) := by
    calc _ ≤ _ := b1
      _ = g * t + (g * (ω * t / 2 ^ 24) + ω * g / 2 ^ 126) := by ring
      _ = _ := by rw [e, e2]
  have b2' : x - (ω * x / 2 ^ 24 + ω * g / 2 ^ 126) ≤ g * (c + 1) := by
    calc _ = g * t - (g * (ω * t / 2 ^ 24) + ω * g / 2 ^ 126) := by rw [e, e2]
      _ = g * (t - (ω * t / 2 ^ 24 + ω / 2 ^ 126)) := by ring
      _ ≤ _ := b2
  have k1 : ω * x ≤ ω * 1 := mul_le_mul_of_nonneg_left hx1 hω.le
  have k2 : ω * g ≤ ω * 2 := mul_le_mul_of_nonneg_left hg1 hω.le
  norm_num at *
  constructor <;> linarith

/-! ### relative errors -/

/-- rounding adds one unit to the relative error (`c` in units of `ω * 2^-24`, at most 10) -/
theorem Fine.near_rnd {f : Fmt} {ω : ℚ} (w : Fine f ω) {c t x' x : ℚ} (h : Near (c * ω / 2 ^ 24) t x' x) (hx : 0 ≤ x)
    (hc : c ≤ 10) (hc0 : 0 ≤ c) (ht : 0 ≤ t) :
    Near ((c + 1 + 1 / 100) * ω / 2 ^ 24) (2 * t + ω / 2 ^ 126) (rnd f x') x := by
  unfold Near at *
  have hω := w.pos
  have r := abs_le.mp (w.ferr x')
  have h' := abs_le.mp h
  have hx' : |x'| ≤ x + (c * ω / 2 ^ 24 * x + t) := by
    rw [abs_le]
    have : 0 ≤ c * ω / 2 ^ 24 * x := by positivity
    constructor <;> linarith [h'.1, h'.2]
  have k := mul_le_mul_of_nonneg_left hx' hω.le
  have hωx : 0 ≤ ω * x := mul_nonneg hω.le hx
  have k1 : c * (ω * x) ≤ 10 * (ω * x) := mul_le_mul_of_nonneg_right hc hωx
  have k0 : 0 ≤ c * (ω * x) := mul_nonneg hc0 hωx
  have k2 : ω * (c * (ω * x)) ≤ 1 * (c * (ω * x)) := mul_le_mul_of_nonneg_right w.hi k0
  have k3 : ω * t ≤ 1 * t := mul_le_mul_of_nonneg_right w.hi ht
  have e1 : ω * (x + (c * ω / 2 ^ 24 * x + t)) = ω * x + ω * (c * (ω * x)) / 2 ^ 24 + ω * t := by ring
  have e2 : c * ω / 2 ^ 24 * x = c * (ω * x) / 2 ^ 24 := by ring
  have e3 : (c + 1 + 1 / 100) * ω / 2 ^ 24 * x = c * (ω * x) / 2 ^ 24 + (1 + 1 / 100) * (ω * x) / 2 ^ 24 := by ring
  rw [e1] at k
  rw [e2] at h'
  rw [e3, abs_le]
  generalize ω * (c * (ω * x)) = A at *
  generalize c * (ω * x) = B at *
  generalize ω * x = C at *
  generalize ω * t = T at *
  generalize ω * |x'| = X at *
  norm_num at *
  constructor <;> linarith [r.1, r.2, h'.1, h'.2]

/-- the square of a rounded difference, before it is rounded -/
theorem Fine.near_square_exact {f : Fmt} {ω : ℚ} (w : Fine f ω) {d : ℚ} (hd : |d| ≤ 1) :
    Near ((2 + 1 / 100) * ω / 2 ^ 24) (4 * ω / 2 ^ 126) (rnd f d * rnd f d) (d ^ 2) := by
  have r := w.ferr d
  have hω := w.pos
  have hω1 := w.hi
  unfold Near
  have e : rnd f d * rnd f d - d ^ 2 = (rnd f d - d) * (rnd f d - d + 2 * d) := by ring
  rw [e, abs_mul]
  have h1 : |rnd f d - d + 2 * d| ≤ |rnd f d - d| + 2 * |d| := by
    refine (abs_add_le _ _).trans ?_
    rw [abs_mul, abs_of_pos (by norm_num : (0 : ℚ) < 2)]
  have hd0 := abs_nonneg d
  have hB0 := abs_nonneg (rnd f d - d + 2 * d)
  rw [← sq_abs d]
  generalize |rnd f d - d + 2 * d| = B at *
  generalize |rnd f d - d| = A at *
  generalize |d| = D at *
  have q : ω * D / 2 ^ 24 + ω / 2 ^ 126 ≤ D / 2 ^ 24 + 1 / 2 ^ 126 := by
    have : ω * D ≤ 1 * D := mul_le_mul_of_nonneg_right hω1 hd0
    norm_num at *; linarith
  have hA0 : A * B ≤ (ω * D / 2 ^ 24 + ω / 2 ^ 126) * (D / 2 ^ 24 + 1 / 2 ^ 126 + 2 * D) :=
    mul_le_mul r (h1.trans (by linarith)) hB0 (by positivity)
  refine hA0.trans ?_
  have hDD : D * D ≤ D := by nlinarith
  have k : (D / 2 ^ 24 + 1 / 2 ^ 126) * (D / 2 ^ 24 + 1 / 2 ^ 126 + 2 * D) ≤ (2 + 1 / 100) / 2 ^ 24 * D ^ 2 + 4 / 2 ^ 126 := by
    norm_num
    nlinarith
  calc _ = ω * ((D / 2 ^ 24 + 1 / 2 ^ 126) * (D / 2 ^ 24 + 1 / 2 ^ 126 + 2 * D)) := by ring
    _ ≤ ω * ((2 + 1 / 100) / 2 ^ 24 * D ^ 2 + 4 / 2 ^ 126) := mul_le_mul_of_nonneg_left k hω.le
    _ = _ := by ring

/-- the square of a rounded difference -/
theorem Fine.near_square {f : Fmt} {ω : ℚ} (w : Fine f ω) {d : ℚ} (hd : |d| ≤ 1) :
    Near ((3 + 1 / 10) * ω / 2 ^ 24) (ω / 2 ^ 122) (rnd f (rnd f d * rnd f d)) (d ^ 2) := by
  have hω := w.pos
  have := w.near_rnd (w.near_square_exact hd) (sq_nonneg d) (by norm_num) (by norm_num) (by positivity)
  exact this.mono (sq_nonneg d) (by norm_num; linarith) (by norm_num; linarith)

/-- a candidate that beat the exit bound -/
theorem Fine.near_unvisited {f : Fmt} {ω κ : ℚ} (w : Fine f ω) (hκ : ω ≤ κ) (hκ1 : κ ≤ 1) {D B s d : ℚ}
    (hn : Near (6 * ω / 2 ^ 24) (ω / 2 ^ 116) D s) (hB0 : 0 ≤ B) (hD : D ≤ rnd f (B * B)) (hd0 : 0 ≤ d)
    (hB : B ≤ d + 14 * κ / 2 ^ 24) (hs3 : s ≤ 3) : s ≤ (d + κ / 2 ^ 19) ^ 2 := by
  have hω := w.pos
  by_cases hd2 : 2 ≤ d
  · have : (0 : ℚ) ≤ κ / 2 ^ 19 := div_nonneg (by linarith) (by positivity)
    nlinarith
  have hd2 := (not_le.mp hd2).le
  have r := (abs_le.mp (w.ferr (B * B))).2
  rw [abs_of_nonneg (mul_nonneg hB0 hB0)] at r
  have n := (abs_le.mp hn).1
  have lo := w.lo
  obtain ⟨a, ha⟩ : ∃ a, a = κ / 2 ^ 24 := ⟨_, rfl⟩
  obtain ⟨u, hu⟩ : ∃ u, u = ω / 2 ^ 24 := ⟨_, rfl⟩
  obtain ⟨y, hy⟩ : ∃ y, y = d + 14 * a := ⟨_, rfl⟩
  have e1 : 14 * κ / 2 ^ 24 = 14 * a := by rw [ha]; ring
  have e2 : d + κ / 2 ^ 19 = y + 18 * a := by rw [hy, ha]; ring
  have u0 : 0 < u := by rw [hu]; positivity
  have ua : u ≤ a := by rw [hu, ha]; gcongr
  have a1 : a ≤ 1 / 2 ^ 24 := by rw [ha]; gcongr
  have al : 1 / 2 ^ 64 ≤ a := by
    rw [ha]; norm_num at *; linarith
  rw [e1, ← hy] at hB
  rw [e2]
  have y0 : 0 ≤ y := by rw [hy]; linarith
  have y2 : y ≤ 21 / 10 := by rw [hy]; norm_num at *; linarith
  have hBB : B * B ≤ y * y := mul_le_mul hB hB hB0 y0
  have hωB : ω * (B * B) / 2 ^ 24 ≤ u * (y * y) := by
    calc _ = u * (B * B) := by rw [hu]; ring
      _ ≤ _ := mul_le_mul_of_nonneg_left hBB u0.le
  have t1 : ω / 2 ^ 116 = u / 2 ^ 92 := by rw [hu]; ring
  have t2 : ω / 2 ^ 126 = u / 2 ^ 102 := by rw [hu]; ring
  have t3 : 6 * ω / 2 ^ 24 * s = 6 * (u * s) := by rw [hu]; ring
  have aa : a * (1 / 2 ^ 64) ≤ a * a := mul_le_mul_of_nonneg_left al (by linarith)
  have hay : 0 ≤ a * y := mul_nonneg (by linarith) y0
  have k1 : u * y ≤ a * y := mul_le_mul_of_nonneg_right ua y0
  have k2 : u * y * y ≤ u * y * (21 / 10) := mul_le_mul_of_nonneg_left y2 (mul_nonneg u0.le y0)
  have k3 : u * (a * y) ≤ 1 / 2 ^ 24 * (a * y) := mul_le_mul_of_nonneg_right (ua.trans a1) hay
  have k4 : u * (a * a) ≤ 1 / 2 ^ 24 * (a * a) := mul_le_mul_of_nonneg_right (ua.trans a1) (mul_self_nonneg a)
  have main : s - 6 * (u * s) ≤ y * y + u * (y * y) + u / 2 ^ 92 + u / 2 ^ 102 := by
    rw [t1, t3] at n
    rw [t2] at r
    linarith
  by_contra hc
  have hc := not_le.mp hc
  have u6 : 0 < 1 - 6 * u := by norm_num at *; linarith
  have := mul_lt_mul_of_pos_right hc u6
  have e3 : (y + 18 * a) ^ 2 * (1 - 6 * u)
      = y * y + 36 * (a * y) + 324 * (a * a) - 6 * (u * y * y) - 216 * (u * (a * y)) - 1944 * (u * (a * a)) := by ring
  have e4 : s * (1 - 6 * u) = s - 6 * (u * s) := by ring
  have e5 : u * (y * y) = u * y * y := by ring
  rw [e3, e4] at this
  rw [e5] at main
  generalize u * y * y = Y at *
  generalize u * (a * y) = Z at *
  generalize u * (a * a) = W at *
  generalize a * y = V at *
  generalize a * a = A at *
  norm_num at *
  linarith

/-- a candidate that beat another -/
theorem Fine.near_visited {f : Fmt} {ω κ : ℚ} (w : Fine f ω) (hκ : ω ≤ κ) (hκ1 : κ ≤ 1) {D E s t d : ℚ}
    (hn : Near (6 * ω / 2 ^ 24) (ω / 2 ^ 116) D s) (hm : Near (6 * ω / 2 ^ 24) (ω / 2 ^ 116) E t)
    (hD : D ≤ E) (hd0 : 0 ≤ d) (htd : t ≤ d ^ 2) (hs3 : s ≤ 3) : s ≤ (d + κ / 2 ^ 19) ^ 2 := by
  have hω := w.pos
  by_cases hd2 : 2 ≤ d
  · have : (0 : ℚ) ≤ κ / 2 ^ 19 := div_nonneg (by linarith) (by positivity)
    nlinarith
  have hd2 := (not_le.mp hd2).le
  have n := (abs_le.mp hn).1
  have m := (abs_le.mp hm).2
  have lo := w.lo
  obtain ⟨a, ha⟩ : ∃ a, a = κ / 2 ^ 24 := ⟨_, rfl⟩
  obtain ⟨u, hu⟩ : ∃ u, u = ω / 2 ^ 24 := ⟨_, rfl⟩
  have e2 : d + κ / 2 ^ 19 = d + 32 * a := by rw [ha]; ring
  have u0 : 0 < u := by rw [hu]; positivity
  have ua : u ≤ a := by rw [hu, ha]; gcongr
  have a1 : a ≤ 1 / 2 ^ 24 := by rw [ha]; gcongr
  have al : 1 / 2 ^ 64 ≤ a := by
    rw [ha]; norm_num at *; linarith
  rw [e2]
  have t1 : ω / 2 ^ 116 = u / 2 ^ 92 := by rw [hu]; ring
  have t3 : 6 * ω / 2 ^ 24 * s = 6 * (u * s) := by rw [hu]; ring
  have t4 : 6 * ω / 2 ^ 24 * t = 6 * (u * t) := by rw [hu]; ring
  have hut : u * t ≤ u * (d * d) := mul_le_mul_of_nonneg_left (by linarith [sq d]) u0.le
  have aa : a * (1 / 2 ^ 64) ≤ a * a := mul_le_mul_of_nonneg_left al (by linarith)
  have hay : 0 ≤ a * d := mul_nonneg (by linarith) hd0
  have k1 : u * d ≤ a * d := mul_le_mul_of_nonneg_right ua hd0
  have k2 : u * d * d ≤ u * d * 2 := mul_le_mul_of_nonneg_left hd2 (mul_nonneg u0.le hd0)
  have k3 : u * (a * d) ≤ 1 / 2 ^ 24 * (a * d) := mul_le_mul_of_nonneg_right (ua.trans a1) hay
  have k4 : u * (a * a) ≤ 1 / 2 ^ 24 * (a * a) := mul_le_mul_of_nonneg_right (ua.trans a1) (mul_self_nonneg a)
  have main : s - 6 * (u * s) ≤ d * d + 6 * (u * d * d) + u / 2 ^ 91 := by
    rw [t1, t3] at n
    rw [t1, t4] at m
    have : u * (d * d) = u * d * d := by ring
    have h91 : u / 2 ^ 91 = u / 2 ^ 92 + u / 2 ^ 92 := by ring
    linarith [sq d]
  by_contra hc
  have hc := not_le.mp hc
  have u6 : 0 < 1 - 6 * u := by norm_num at *; linarith
  have := mul_lt_mul_of_pos_right hc u6
  have e3 : (d + 32 * a) ^ 2 * (1 - 6 * u)
      = d * d + 64 * (a * d) + 1024 * (a * a) - 6 * (u * d * d) - 384 * (u * (a * d)) - 6144 * (u * (a * a)) := by ring
  have e4 : s * (1 - 6 * u) = s - 6 * (u * s) := by ring
  rw [e3, e4] at this
  generalize u * d * d = Y at *
  generalize u * (a * d) = Z at *
  generalize u * (a * a) = W at *
  generalize a * d = V at *
  generalize a * a = A at *
  norm_num at *
  linarith

end Votess
