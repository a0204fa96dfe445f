import Verif.Proofs.IeeeKnn
import Verif.Proofs.CellSim
/-! Rounding errors of the cell computation in single precision. -/
namespace Votess

/-- `y` is a finite value that differs from `x` by at most `e` -/
def Ap (e : ℚ) (y : F32) (x : ℚ) : Prop := ∃ v, y = .fin v ∧ |v - x| ≤ e

theorem Ap.mono {e e' : ℚ} {y : F32} {x : ℚ} (h : Ap e y x) (he : e ≤ e') : Ap e' y x := by
  obtain ⟨v, h1, h2⟩ := h
  exact ⟨v, h1, h2.trans he⟩

theorem Ap.fin (x : ℚ) : Ap 0 (.fin x) x := ⟨x, rfl, by simp⟩

/-- one rounding -/
theorem Ap.round {v x B E e : ℚ} (h : |v - x| ≤ E) (hx : |x| ≤ B) (hB : B ≤ 100) (hE : E ≤ 100)
    (he : E + (B + E) / 2 ^ 24 + 1 / 2 ^ 150 ≤ e) : |v| ≤ 2 ^ 100 ∧ |rnd b32 v - x| ≤ e := by
  have hv : |v| ≤ B + E := by
    calc |v| = |x + (v - x)| := by congr 1; ring
      _ ≤ |x| + |v - x| := abs_add_le _ _
      _ ≤ _ := add_le_add hx h
  refine ⟨hv.trans (by norm_num; linarith), ?_⟩
  have hr := rnd32_err v
  calc |rnd b32 v - x| = |(rnd b32 v - v) + (v - x)| := by congr 1; ring
    _ ≤ |rnd b32 v - v| + |v - x| := abs_add_le _ _
    _ ≤ (|v| / 2 ^ 24 + 1 / 2 ^ 150) + E := add_le_add hr h
    _ ≤ ((B + E) / 2 ^ 24 + 1 / 2 ^ 150) + E := by
        gcongr
    _ ≤ e := by linarith

theorem Ap.add {e1 e2 e B x1 x2 : ℚ} {y1 y2 : F32} (h1 : Ap e1 y1 x1) (h2 : Ap e2 y2 x2)
    (hx : |x1 + x2| ≤ B) (hB : B ≤ 100) (hE : e1 + e2 ≤ 100)
    (he : e1 + e2 + (B + (e1 + e2)) / 2 ^ 24 + 1 / 2 ^ 150 ≤ e) : Ap e (FP.add y1 y2) (x1 + x2) := by
  obtain ⟨v1, rfl, g1⟩ := h1
  obtain ⟨v2, rfl, g2⟩ := h2
  obtain ⟨r1, r2⟩ := Ap.round (v := v1 + v2) (x := x1 + x2) (E := e1 + e2) (by
    calc |v1 + v2 - (x1 + x2)| = |(v1 - x1) + (v2 - x2)| := by congr 1; ring
      _ ≤ _ := (abs_add_le _ _).trans (add_le_add g1 g2)) hx hB hE he
  exact ⟨_, addF32 r1, r2⟩

theorem Ap.neg {e x : ℚ} {y : F32} (h : Ap e y x) : Ap e (FP.neg y) (-x) := by
  obtain ⟨v, rfl, g⟩ := h
  exact ⟨-v, rfl, by rw [show -v - -x = -(v - x) by ring, abs_neg]; exact g⟩

theorem Ap.sub {e1 e2 e B x1 x2 : ℚ} {y1 y2 : F32} (h1 : Ap e1 y1 x1) (h2 : Ap e2 y2 x2)
    (hx : |x1 - x2| ≤ B) (hB : B ≤ 100) (hE : e1 + e2 ≤ 100)
    (he : e1 + e2 + (B + (e1 + e2)) / 2 ^ 24 + 1 / 2 ^ 150 ≤ e) : Ap e (FP.sub y1 y2) (x1 - x2) := by
  rw [sub_eq_add_neg] at hx ⊢
  exact h1.add h2.neg hx hB hE he

theorem Ap.mul {e1 e2 e B1 B2 x1 x2 : ℚ} {y1 y2 : F32} (h1 : Ap e1 y1 x1) (h2 : Ap e2 y2 x2)
    (hx1 : |x1| ≤ B1) (hx2 : |x2| ≤ B2) (hB : B1 * B2 ≤ 100) (hE : e1 * B2 + e2 * B1 + e1 * e2 ≤ 100)
    (he : (e1 * B2 + e2 * B1 + e1 * e2) + (B1 * B2 + (e1 * B2 + e2 * B1 + e1 * e2)) / 2 ^ 24
      + 1 / 2 ^ 150 ≤ e) : Ap e (FP.mul y1 y2) (x1 * x2) := by
  obtain ⟨v1, rfl, g1⟩ := h1
  obtain ⟨v2, rfl, g2⟩ := h2
  have p1 := abs_nonneg (v1 - x1)
  have p2 := abs_nonneg (v2 - x2)
  have p3 := abs_nonneg x1
  have p4 := abs_nonneg x2
  obtain ⟨r1, r2⟩ := Ap.round (v := v1 * v2) (x := x1 * x2) (E := e1 * B2 + e2 * B1 + e1 * e2) (by
    calc |v1 * v2 - x1 * x2| = |(v1 - x1) * x2 + (v2 - x2) * x1 + (v1 - x1) * (v2 - x2)| := by
          congr 1; ring
      _ ≤ |(v1 - x1) * x2| + |(v2 - x2) * x1| + |(v1 - x1) * (v2 - x2)| := abs_add_three _ _ _
      _ ≤ _ := by
          rw [abs_mul, abs_mul, abs_mul]
          gcongr <;> linarith)
    (by rw [abs_mul]; exact mul_le_mul hx1 hx2 p4 (p3.trans hx1)) hB hE he
  exact ⟨_, mulF32 r1, r2⟩

theorem abs_sub_unit {a b : ℚ} (ha : 0 ≤ a ∧ a ≤ 1) (hb : 0 ≤ b ∧ b ≤ 1) : |a - b| ≤ 1 := by
  rw [abs_le]; constructor <;> linarith [ha.1, ha.2, hb.1, hb.2]

theorem abs_unit {a : ℚ} (ha : 0 ≤ a ∧ a ≤ 1) : |a| ≤ 1 := by
  rw [abs_le]; constructor <;> linarith [ha.1, ha.2]

theorem sq_unit {a : ℚ} (ha : 0 ≤ a ∧ a ≤ 1) : 0 ≤ a * a ∧ a * a ≤ 1 :=
  ⟨mul_nonneg ha.1 ha.1, by nlinarith [ha.1, ha.2]⟩

/-- how many times the margins for exactly given points are needed; 1 for exactly given points, 2 for
points given up to rounding -/
structure Fac (μ : ℚ) : Prop where
  one : 1 ≤ μ
  four : μ ≤ 4

theorem Fac.sq {μ : ℚ} (h : Fac μ) : μ * μ ≤ 4 * μ := by nlinarith [h.one, h.four]

theorem Fac.mpos {μ : ℚ} (h : Fac μ) : 0 < μ := lt_of_lt_of_le one_pos h.one

theorem fac_one : Fac 1 := ⟨by norm_num, by norm_num⟩
theorem fac_two : Fac 2 := ⟨by norm_num, by norm_num⟩

/-- a stored point and the point that was meant -/
structure PtAp (μ : ℚ) (p' p : Pt ℚ) : Prop where
  x : |p'.x - p.x| ≤ (μ - 1) / 2 / 2 ^ 24
  y : |p'.y - p.y| ≤ (μ - 1) / 2 / 2 ^ 24
  z : |p'.z - p.z| ≤ (μ - 1) / 2 / 2 ^ 24

theorem PtAp.refl (p : Pt ℚ) : PtAp 1 p p := ⟨by simp, by simp, by simp⟩

/-- a stored plane and the exact one -/
structure PlaneAp (μ : ℚ) (h : Plane F32) (h' : Plane ℚ) : Prop where
  a : Ap (101 / 100 * μ / 2 ^ 24) h.a h'.a
  b : Ap (101 / 100 * μ / 2 ^ 24) h.b h'.b
  c : Ap (101 / 100 * μ / 2 ^ 24) h.c h'.c
  d : Ap (9 * μ / 2 ^ 24) h.d h'.d
  la : |h'.a| ≤ 1
  lb : |h'.b| ≤ 1
  lc : |h'.c| ≤ 1
  ld : |h'.d| ≤ 3 / 2

theorem ofInt32' (n : Int) (h : |n| ≤ 2 ^ 24) : Ap 0 (FP.ofInt n : F32) n := by
  rw [ofInt32 h]; exact Ap.fin _

theorem planeAp_init {μ : ℚ} (hμ : Fac μ) : ∀ j, j < 6 → PlaneAp μ ((pInit : List (Plane F32)).getD j zeroPlane)
    ((pInit : List (Plane ℚ)).getD j zeroPlane) := by
  have p1 : 0 ≤ 101 / 100 * μ / 2 ^ 24 := by have := hμ.one; positivity
  have p2 : 0 ≤ 9 * μ / 2 ^ 24 := by have := hμ.one; positivity
  have z := (ofInt32' 0 (by norm_num)).mono p1
  have o := (ofInt32' 1 (by norm_num)).mono p1
  have m := (ofInt32' (-1) (by norm_num)).mono p1
  have z' := (ofInt32' 0 (by norm_num)).mono p2
  have o' := (ofInt32' 1 (by norm_num)).mono p2
  intro j hj
  have : j = 0 ∨ j = 1 ∨ j = 2 ∨ j = 3 ∨ j = 4 ∨ j = 5 := by omega
  rcases this with rfl | rfl | rfl | rfl | rfl | rfl <;>
    constructor <;> first | assumption | (simp [pInit, FP.ofInt]; try norm_num)

theorem planeAp_bisect {μ : ℚ} (hμ : Fac μ) {p q p' q' : Pt ℚ} (hp : InUnitBox p) (hq : InUnitBox q)
    (ap : PtAp μ p' p) (aq : PtAp μ q' q) : PlaneAp μ (bisect (toF32 q') (toF32 p')) (bisect q p) := by
  obtain ⟨px, py, pz⟩ := hp
  obtain ⟨qx, qy, qz⟩ := hq
  have h1 := hμ.one
  have h4 := hμ.four
  have h2 := hμ.sq
  have cf : ∀ {a' a : ℚ}, |a' - a| ≤ (μ - 1) / 2 / 2 ^ 24 → Ap ((μ - 1) / 2 / 2 ^ 24) (.fin a') a :=
    fun h => ⟨_, rfl, h⟩
  have n : ∀ {a b a' b' : ℚ}, 0 ≤ a ∧ a ≤ 1 → 0 ≤ b ∧ b ≤ 1 → |a' - a| ≤ (μ - 1) / 2 / 2 ^ 24 →
      |b' - b| ≤ (μ - 1) / 2 / 2 ^ 24 →
      Ap (101 / 100 * μ / 2 ^ 24) (FP.sub (.fin a') (.fin b')) (a - b) := fun ha hb ea eb =>
    (cf ea).sub (cf eb) (abs_sub_unit ha hb) (by norm_num) (by linarith) (by linarith)
  have sq : ∀ {a a' : ℚ}, 0 ≤ a ∧ a ≤ 1 → |a' - a| ≤ (μ - 1) / 2 / 2 ^ 24 →
      Ap ((μ + 1 / 100) / 2 ^ 24) (square (.fin a' : F32)) (a * a) := fun ha ea =>
    (cf ea).mul (cf ea) (abs_unit ha) (abs_unit ha) (by norm_num) (by nlinarith) (by nlinarith)
  have s : ∀ {a b a' b' : ℚ}, 0 ≤ a ∧ a ≤ 1 → 0 ≤ b ∧ b ≤ 1 → |a' - a| ≤ (μ - 1) / 2 / 2 ^ 24 →
      |b' - b| ≤ (μ - 1) / 2 / 2 ^ 24 →
      Ap ((2 * μ + 103 / 100) / 2 ^ 24) (FP.sub (square (.fin a')) (square (.fin b'))) (a * a - b * b) :=
    fun ha hb ea eb => (sq ha ea).sub (sq hb eb) (abs_sub_unit (sq_unit ha) (sq_unit hb))
      (by norm_num) (by linarith) (by linarith)
  have l : ∀ {a b : ℚ}, 0 ≤ a ∧ a ≤ 1 → 0 ≤ b ∧ b ≤ 1 → |a * a - b * b| ≤ 1 := fun ha hb =>
    abs_sub_unit (sq_unit ha) (sq_unit hb)
  have t1 := (s qx px aq.x ap.x).add (s qy py aq.y ap.y) (e := (4 * μ + 407 / 100) / 2 ^ 24) (B := 2)
    ((abs_add_le _ _).trans (by linarith [l qx px, l qy py])) (by norm_num) (by linarith) (by linarith)
  have b3 : |q.x * q.x - p.x * p.x + (q.y * q.y - p.y * p.y) + (q.z * q.z - p.z * p.z)| ≤ 3 :=
    (abs_add_three _ _ _).trans (by linarith [l qx px, l qy py, l qz pz])
  have t2 := t1.add (s qz pz aq.z ap.z) (e := (6 * μ + 812 / 100) / 2 ^ 24) (B := 3) b3 (by norm_num)
    (by linarith) (by linarith)
  refine ⟨n qx px aq.x ap.x, n qy py aq.y ap.y, n qz pz aq.z ap.z, ?_, abs_sub_unit qx px, abs_sub_unit qy py,
    abs_sub_unit qz pz, ?_⟩
  · obtain ⟨v, hv, he⟩ := t2.neg
    have hd : (bisect (toF32 q') (toF32 p')).d = FP.div (.fin v) (FP.ofInt 2) := by rw [← hv]; rfl
    have hd' : (bisect q p).d = -(q.x * q.x - p.x * p.x + (q.y * q.y - p.y * p.y)
      + (q.z * q.z - p.z * p.z)) / 2 := by
      simp [bisect, FP.sub, FP.add, FP.neg, FP.div, square, FP.mul, FP.ofInt]
    rw [hd, hd', ofInt32 (by norm_num)]
    obtain ⟨r1, r2⟩ := Ap.round (v := v / 2) (x := -(q.x * q.x - p.x * p.x + (q.y * q.y - p.y * p.y)
      + (q.z * q.z - p.z * p.z)) / 2) (E := (3 * μ + 406 / 100) / 2 ^ 24) (e := 9 * μ / 2 ^ 24) (B := 3 / 2) (by
        rw [← sub_div, abs_div, abs_of_pos (by norm_num : (0:ℚ) < 2), div_le_iff₀ (by norm_num)]
        refine he.trans (by linarith)) (by
        rw [abs_div, abs_neg, abs_of_pos (by norm_num : (0:ℚ) < 2), div_le_iff₀ (by norm_num)]
        linarith) (by norm_num) (by linarith) (by linarith)
    exact ⟨_, divF32 (by norm_num) (by simpa using r1), by simpa using r2⟩
  · have hd' : (bisect q p).d = -(q.x * q.x - p.x * p.x + (q.y * q.y - p.y * p.y)
      + (q.z * q.z - p.z * p.z)) / 2 := by
      simp [bisect, FP.sub, FP.add, FP.neg, FP.div, square, FP.mul, FP.ofInt]
    rw [hd', abs_div, abs_neg, abs_of_pos (by norm_num : (0:ℚ) < 2), div_le_iff₀ (by norm_num)]
    linarith

/-- `b1 c2 - b2 c1` -/
theorem cross_ap {μ : ℚ} (hμ : Fac μ) {b1 c1 b2 c2 : F32} {b1' c1' b2' c2' : ℚ} (hb1 : Ap (101 / 100 * μ / 2 ^ 24) b1 b1')
    (hc1 : Ap (101 / 100 * μ / 2 ^ 24) c1 c1') (hb2 : Ap (101 / 100 * μ / 2 ^ 24) b2 b2')
    (hc2 : Ap (101 / 100 * μ / 2 ^ 24) c2 c2') (lb1 : |b1'| ≤ 1) (lc1 : |c1'| ≤ 1) (lb2 : |b2'| ≤ 1)
    (lc2 : |c2'| ≤ 1) :
    Ap (81 / 10 * μ / 2 ^ 24) (FP.sub (FP.mul b1 c2) (FP.mul b2 c1)) (b1' * c2' - b2' * c1') ∧
    Ap (81 / 10 * μ / 2 ^ 24) (FP.add (FP.mul (FP.neg b1) c2) (FP.mul b2 c1)) (-b1' * c2' + b2' * c1') ∧
    |b1' * c2' - b2' * c1'| ≤ 2 ∧ |-b1' * c2' + b2' * c1'| ≤ 2 := by
  have g1' := hμ.one
  have g2' := hμ.four
  have g3' := hμ.sq
  have m : ∀ {x y : ℚ}, |x| ≤ 1 → |y| ≤ 1 → |x * y| ≤ 1 := fun hx hy => by
    rw [abs_mul]; exact mul_le_one₀ hx (abs_nonneg _) hy
  have ln : |-b1'| ≤ 1 := by rw [abs_neg]; exact lb1
  have l1 : |b1' * c2' - b2' * c1'| ≤ 2 := by
    refine (abs_sub _ _).trans ?_
    linarith [m lb1 lc2, m lb2 lc1]
  have l2 : |-b1' * c2' + b2' * c1'| ≤ 2 := by
    refine (abs_add_le _ _).trans ?_
    linarith [m ln lc2, m lb2 lc1]
  have m1 := hb1.mul hc2 (e := 304 / 100 * μ / 2 ^ 24) lb1 lc2 (by norm_num) (by linarith) (by linarith)
  have m2 := hb2.mul hc1 (e := 304 / 100 * μ / 2 ^ 24) lb2 lc1 (by norm_num) (by linarith) (by linarith)
  have m3 := hb1.neg.mul hc2 (e := 304 / 100 * μ / 2 ^ 24) ln lc2 (by norm_num) (by linarith) (by linarith)
  exact ⟨m1.sub m2 l1 (by norm_num) (by linarith) (by linarith),
    m3.add m2 l2 (by norm_num) (by linarith) (by linarith), l1, l2⟩

/-- the sum of products for the determinant -/
theorem triple_ap {μ : ℚ} (hμ : Fac μ) {a b c n1 n2 n3 : F32} {a' b' c' n1' n2' n3' : ℚ} (ha : Ap (101 / 100 * μ / 2 ^ 24) a a')
    (hb : Ap (101 / 100 * μ / 2 ^ 24) b b') (hc : Ap (101 / 100 * μ / 2 ^ 24) c c') (la : |a'| ≤ 1)
    (lb : |b'| ≤ 1) (lc : |c'| ≤ 1) (h1 : Ap (81 / 10 * μ / 2 ^ 24) n1 n1') (h2 : Ap (81 / 10 * μ / 2 ^ 24) n2 n2')
    (h3 : Ap (81 / 10 * μ / 2 ^ 24) n3 n3') (l1 : |n1'| ≤ 2) (l2 : |n2'| ≤ 2) (l3 : |n3'| ≤ 2) :
    Ap (47 * μ / 2 ^ 24) (FP.add (FP.add (FP.mul a n1) (FP.mul b n2)) (FP.mul c n3))
      (a' * n1' + b' * n2' + c' * n3') ∧ |a' * n1' + b' * n2' + c' * n3'| ≤ 6 := by
  have g1' := hμ.one
  have g2' := hμ.four
  have g3' := hμ.sq
  have m : ∀ {x y : ℚ}, |x| ≤ 1 → |y| ≤ 2 → |x * y| ≤ 2 := fun {x y} hx hy => by
    rw [abs_mul]; nlinarith [abs_nonneg x, abs_nonneg y]
  have m1 := ha.mul h1 (e := 1214 / 100 * μ / 2 ^ 24) la l1 (by norm_num) (by linarith) (by linarith)
  have m2 := hb.mul h2 (e := 1214 / 100 * μ / 2 ^ 24) lb l2 (by norm_num) (by linarith) (by linarith)
  have m3 := hc.mul h3 (e := 1214 / 100 * μ / 2 ^ 24) lc l3 (by norm_num) (by linarith) (by linarith)
  have s1 := m1.add m2 (e := 2830 / 100 * μ / 2 ^ 24) (B := 4)
    ((abs_add_le _ _).trans (by linarith [m la l1, m lb l2])) (by norm_num) (by linarith) (by linarith)
  have l : |a' * n1' + b' * n2' + c' * n3'| ≤ 6 :=
    (abs_add_three _ _ _).trans (by linarith [m la l1, m lb l2, m lc l3])
  exact ⟨s1.add m3 l (by norm_num) (by linarith) (by linarith), l⟩

/-- a coordinate of the common point, times the determinant -/
theorem coord_ap {μ : ℚ} (hμ : Fac μ) {d1 d2 d3 n1 n2 n3 : F32} {d1' d2' d3' n1' n2' n3' : ℚ} (h1 : Ap (9 * μ / 2 ^ 24) d1 d1')
    (h2 : Ap (9 * μ / 2 ^ 24) d2 d2') (h3 : Ap (9 * μ / 2 ^ 24) d3 d3') (l1 : |d1'| ≤ 3 / 2) (l2 : |d2'| ≤ 3 / 2)
    (l3 : |d3'| ≤ 3 / 2) (g1 : Ap (81 / 10 * μ / 2 ^ 24) n1 n1') (g2 : Ap (81 / 10 * μ / 2 ^ 24) n2 n2')
    (g3 : Ap (81 / 10 * μ / 2 ^ 24) n3 n3') (k1 : |n1'| ≤ 2) (k2 : |n2'| ≤ 2) (k3 : |n3'| ≤ 2) :
    Ap (115 * μ / 2 ^ 24) (FP.sub (FP.sub (FP.mul (FP.neg d1) n1) (FP.mul d2 n2)) (FP.mul d3 n3))
      (-d1' * n1' - d2' * n2' - d3' * n3') := by
  have g1' := hμ.one
  have g2' := hμ.four
  have g3' := hμ.sq
  have m : ∀ {x y : ℚ}, |x| ≤ 3 / 2 → |y| ≤ 2 → |x * y| ≤ 3 := fun {x y} hx hy => by
    rw [abs_mul]; nlinarith [abs_nonneg x, abs_nonneg y]
  have ln : |-d1'| ≤ 3 / 2 := by rw [abs_neg]; exact l1
  have m1 := h1.neg.mul g1 (e := 3316 / 100 * μ / 2 ^ 24) ln k1 (by norm_num) (by linarith) (by linarith)
  have m2 := h2.mul g2 (e := 3316 / 100 * μ / 2 ^ 24) l2 k2 (by norm_num) (by linarith) (by linarith)
  have m3 := h3.mul g3 (e := 3316 / 100 * μ / 2 ^ 24) l3 k3 (by norm_num) (by linarith) (by linarith)
  have b2 : |-d1' * n1' - d2' * n2'| ≤ 6 :=
    (abs_sub _ _).trans (by linarith [m ln k1, m l2 k2])
  have s1 := m1.sub m2 (e := 7234 / 100 * μ / 2 ^ 24) b2 (by norm_num) (by linarith) (by linarith)
  exact s1.sub m3 (B := 9) ((abs_sub _ _).trans (by linarith [m l3 k3])) (by norm_num) (by linarith) (by linarith)

/-- the computed coordinate: `c / det` with rounded `c`, `det`, inverse and product -/
theorem quot_ap {μ : ℚ} (hμ : Fac μ) {c t : F32} {c' det v : ℚ} (hc : Ap (115 * μ / 2 ^ 24) c c')
    (ht : Ap (47 * μ / 2 ^ 24) t det) (hl : |det| ≤ 6) (hd : μ / 2 ^ 12 ≤ |det|) (hv : c' = v * det) (hv1 : |v| ≤ 1) :
    FP.eq t (FP.ofInt 0) = false ∧
      Ap (μ / 2 ^ 16 / |det|) (FP.mul c (FP.div (FP.ofInt 1) t)) v := by
  obtain ⟨c0, rfl, hc0⟩ := hc
  obtain ⟨τ, rfl, hτ⟩ := ht
  have g1' := hμ.one
  have g2' := hμ.four
  have hd1 : 1 / 2 ^ 12 ≤ |det| := le_trans (by linarith) hd
  have hdp : 0 < |det| := lt_of_lt_of_le (by norm_num) hd1
  -- the determinant is not lost
  have hτ1 : 98 / 100 * |det| ≤ |τ| := by
    have : |det| ≤ |τ| + |τ - det| := by
      calc |det| = |τ - (τ - det)| := by congr 1; ring
        _ ≤ _ := abs_sub _ _
    have : 47 * μ / 2 ^ 24 ≤ 2 / 100 * |det| := by
      have : 47 * μ / 2 ^ 24 ≤ 2 / 100 * (μ / 2 ^ 12) := by linarith
      linarith
    linarith
  have hτp : 0 < |τ| := by linarith
  have hτ0 : τ ≠ 0 := abs_pos.mp hτp
  refine ⟨?_, ?_⟩
  · rw [ofInt32 (by norm_num)]
    show decide (τ = ((0 : Int) : ℚ)) = false
    simpa using hτ0
  -- the exact quotient of the computed values
  have hq : |c0 / τ - v| ≤ 166 * μ / 2 ^ 24 / |det| := by
    have e : c0 / τ - v = ((c0 - c') - v * (τ - det)) / τ := by
      rw [hv]; field_simp; ring
    rw [e, abs_div, div_le_div_iff₀ hτp hdp]
    have n : |(c0 - c') - v * (τ - det)| ≤ 162 * μ / 2 ^ 24 := by
      refine (abs_sub _ _).trans ?_
      rw [abs_mul]
      have : |v| * |τ - det| ≤ 1 * (47 * μ / 2 ^ 24) := mul_le_mul hv1 hτ (abs_nonneg _) (by norm_num)
      linarith
    calc _ ≤ 162 * μ / 2 ^ 24 * |det| := mul_le_mul_of_nonneg_right n hdp.le
      _ ≤ 166 * μ / 2 ^ 24 * (98 / 100 * |det|) := by
          rw [← mul_assoc]; apply mul_le_mul_of_nonneg_right _ hdp.le; linarith
      _ ≤ _ := by apply mul_le_mul_of_nonneg_left hτ1; positivity
  have hdi : μ / |det| ≤ 2 ^ 12 := by
    rw [div_le_iff₀ hdp]
    calc μ = 2 ^ 12 * (μ / 2 ^ 12) := by ring
      _ ≤ _ := by apply mul_le_mul_of_nonneg_left hd; norm_num
  have hdl : 1 / 6 ≤ μ / |det| := by
    rw [div_le_div_iff₀ (by norm_num) hdp]; linarith
  have hqs : 166 * μ / 2 ^ 24 / |det| ≤ 5 / 100 := by
    have : 166 * μ / 2 ^ 24 / |det| = 166 / 2 ^ 24 * (μ / |det|) := by ring
    rw [this]
    linarith
  have hqa : |c0 / τ| ≤ 105 / 100 := by
    calc |c0 / τ| = |v + (c0 / τ - v)| := by congr 1; ring
      _ ≤ |v| + |c0 / τ - v| := abs_add_le _ _
      _ ≤ _ := by linarith
  -- the inverse
  have hiv : |1 / τ| ≤ 2 ^ 13 := by
    rw [abs_div, abs_one, div_le_iff₀ hτp]
    have : (1 : ℚ) ≤ 2 ^ 13 * (98 / 100 * (1 / 2 ^ 12)) := by norm_num
    have h2 : (98 / 100 * (1 / 2 ^ 12) : ℚ) ≤ |τ| := by linarith
    calc (1 : ℚ) ≤ 2 ^ 13 * (98 / 100 * (1 / 2 ^ 12)) := this
      _ ≤ _ := by apply mul_le_mul_of_nonneg_left h2; norm_num
  have hdiv : FP.div (FP.ofInt 1 : F32) (.fin τ) = .fin (rnd b32 (1 / τ)) := by
    rw [ofInt32 (by norm_num)]
    rw [divF32 hτ0 (by push_cast; exact hiv.trans (by norm_num))]
    push_cast; rfl
  rw [hdiv]
  have hinv := rnd32_err (1 / τ)
  have hcs : |c0| ≤ 13 := by
    have : |c0| ≤ |c'| + |c0 - c'| := by
      calc |c0| = |c' + (c0 - c')| := by congr 1; ring
        _ ≤ _ := abs_add_le _ _
    have h2 : |c'| ≤ 6 := by
      rw [hv, abs_mul]
      nlinarith [abs_nonneg v]
    linarith
  -- the product before rounding
  have hprod : |c0 * rnd b32 (1 / τ) - c0 / τ| ≤ 106 / 100 / 2 ^ 24 := by
    have e : c0 * rnd b32 (1 / τ) - c0 / τ = c0 * (rnd b32 (1 / τ) - 1 / τ) := by ring
    rw [e, abs_mul]
    have a1 : |c0| * |rnd b32 (1 / τ) - 1 / τ| ≤ |c0| * (|1 / τ| / 2 ^ 24 + 1 / 2 ^ 150) :=
      mul_le_mul_of_nonneg_left hinv (abs_nonneg _)
    have a2 : |c0| * (|1 / τ| / 2 ^ 24 + 1 / 2 ^ 150) = |c0 / τ| / 2 ^ 24 + |c0| * (1 / 2 ^ 150) := by
      rw [show c0 / τ = c0 * (1 / τ) by ring, abs_mul]; ring
    have a3 : |c0| * (1 / 2 ^ 150 : ℚ) ≤ 13 * (1 / 2 ^ 150) := mul_le_mul_of_nonneg_right hcs (by norm_num)
    rw [a2] at a1
    norm_num at *
    linarith
  obtain ⟨r1, r2⟩ := Ap.round (v := c0 * rnd b32 (1 / τ)) (x := v) (B := 1)
    (E := 106 / 100 / 2 ^ 24 + 166 * μ / 2 ^ 24 / |det|) (e := μ / 2 ^ 16 / |det|) (by
      calc _ = |(c0 * rnd b32 (1 / τ) - c0 / τ) + (c0 / τ - v)| := by congr 1; ring
        _ ≤ _ := (abs_add_le _ _).trans (add_le_add hprod hq)) hv1 (by norm_num) (by
      linarith) (by
      have e1 : 166 * μ / 2 ^ 24 / |det| = 166 / 2 ^ 24 * (μ / |det|) := by ring
      have e2 : μ / 2 ^ 16 / |det| = 1 / 2 ^ 16 * (μ / |det|) := by ring
      rw [e1] at hqs ⊢
      rw [e2]
      generalize μ / |det| = w at *
      linarith)
  exact ⟨_, mulF32 r1, r2⟩

/-- the computed vertex -/
theorem vertex_ap {μ : ℚ} (hμ : Fac μ) {h1 h2 h3 : Plane F32} {h1' h2' h3' : Plane ℚ} (a1 : PlaneAp μ h1 h1')
    (a2 : PlaneAp μ h2 h2') (a3 : PlaneAp μ h3 h3') {v : Pt ℚ} (e1 : h1'.eval v = 0) (e2 : h2'.eval v = 0) (e3 : h3'.eval v = 0)
    (hv : InUnitBox v) (hd : μ / 2 ^ 12 ≤ |det3 h1' h2' h3'|) :
    Ap (μ / 2 ^ 16 / |det3 h1' h2' h3'|) (intersect h1 h2 h3).x v.x ∧
    Ap (μ / 2 ^ 16 / |det3 h1' h2' h3'|) (intersect h1 h2 h3).y v.y ∧
    Ap (μ / 2 ^ 16 / |det3 h1' h2' h3'|) (intersect h1 h2 h3).z v.z ∧ |det3 h1' h2' h3'| ≤ 6 := by
  obtain ⟨p23a, -, l23a, -⟩ := cross_ap hμ a2.b a2.c a3.b a3.c a2.lb a2.lc a3.lb a3.lc
  obtain ⟨-, p23b, -, l23b⟩ := cross_ap hμ a2.a a2.c a3.a a3.c a2.la a2.lc a3.la a3.lc
  obtain ⟨p23c, -, l23c, -⟩ := cross_ap hμ a2.a a2.b a3.a a3.b a2.la a2.lb a3.la a3.lb
  obtain ⟨p31a, -, l31a, -⟩ := cross_ap hμ a3.b a3.c a1.b a1.c a3.lb a3.lc a1.lb a1.lc
  obtain ⟨-, p31b, -, l31b⟩ := cross_ap hμ a3.a a3.c a1.a a1.c a3.la a3.lc a1.la a1.lc
  obtain ⟨p31c, -, l31c, -⟩ := cross_ap hμ a3.a a3.b a1.a a1.b a3.la a3.lb a1.la a1.lb
  obtain ⟨p12a, -, l12a, -⟩ := cross_ap hμ a1.b a1.c a2.b a2.c a1.lb a1.lc a2.lb a2.lc
  obtain ⟨-, p12b, -, l12b⟩ := cross_ap hμ a1.a a1.c a2.a a2.c a1.la a1.lc a2.la a2.lc
  obtain ⟨p12c, -, l12c, -⟩ := cross_ap hμ a1.a a1.b a2.a a2.b a1.la a1.lb a2.la a2.lb
  obtain ⟨t1, t2⟩ := triple_ap hμ a1.a a1.b a1.c a1.la a1.lb a1.lc p23a p23b p23c l23a l23b l23c
  have hdet : h1'.a * (h2'.b * h3'.c - h3'.b * h2'.c) + h1'.b * (-h2'.a * h3'.c + h3'.a * h2'.c)
      + h1'.c * (h2'.a * h3'.b - h3'.a * h2'.b) = det3 h1' h2' h3' := by simp only [det3]; ring
  rw [hdet] at t1 t2
  have c0 := coord_ap hμ a1.d a2.d a3.d a1.ld a2.ld a3.ld p23a p31a p12a l23a l31a l12a
  have c1 := coord_ap hμ a1.d a2.d a3.d a1.ld a2.ld a3.ld p23b p31b p12b l23b l31b l12b
  have c2 := coord_ap hμ a1.d a2.d a3.d a1.ld a2.ld a3.ld p23c p31c p12c l23c l31c l12c
  simp only [Plane.eval] at e1 e2 e3
  obtain ⟨vx, vy, vz⟩ := hv
  obtain ⟨q1, q2⟩ := quot_ap hμ c0 t1 t2 hd (v := v.x) (by
    simp only [det3]
    linear_combination -(h2'.b * h3'.c - h3'.b * h2'.c) * e1 - (h3'.b * h1'.c - h1'.b * h3'.c) * e2
      - (h1'.b * h2'.c - h2'.b * h1'.c) * e3) (abs_unit vx)
  obtain ⟨-, q3⟩ := quot_ap hμ c1 t1 t2 hd (v := v.y) (by
    simp only [det3]
    linear_combination -(-h2'.a * h3'.c + h3'.a * h2'.c) * e1 - (-h3'.a * h1'.c + h1'.a * h3'.c) * e2
      - (-h1'.a * h2'.c + h2'.a * h1'.c) * e3) (abs_unit vy)
  obtain ⟨-, q4⟩ := quot_ap hμ c2 t1 t2 hd (v := v.z) (by
    simp only [det3]
    linear_combination -(h2'.a * h3'.b - h3'.a * h2'.b) * e1 - (h3'.a * h1'.b - h1'.a * h3'.b) * e2
      - (h1'.a * h2'.b - h2'.a * h1'.b) * e3) (abs_unit vz)
  simp only [intersect, q1, Bool.false_eq_true, if_false]
  exact ⟨q2, q3, q4, t2⟩

/-- the side of a bisector on which a vertex lies -/
theorem dot_ap {μ : ℚ} (hμ : Fac μ) {x y z : F32} {v : Pt ℚ} {η : ℚ} (hx : Ap η x v.x) (hy : Ap η y v.y) (hz : Ap η z v.z)
    (hη : 42 * μ / 2 ^ 24 ≤ η) (hη1 : η ≤ 1 / 16) (hv : InUnitBox v) {b : Plane F32} {b' : Plane ℚ}
    (hb : PlaneAp μ b b') : Ap (4 * η) (dot x y z (FP.ofInt 1) b.a b.b b.c b.d) (b'.eval v) := by
  obtain ⟨vx, vy, vz⟩ := hv
  have g1' := hμ.one
  have g2' := hμ.four
  have m : ∀ {s t : ℚ}, |s| ≤ 1 → |t| ≤ 1 → |s * t| ≤ 1 := fun hs ht => by
    rw [abs_mul]; exact mul_le_one₀ hs (abs_nonneg _) ht
  have ml : ∀ {s t : F32} {s' t' : ℚ}, Ap η s s' → Ap (101 / 100 * μ / 2 ^ 24) t t' → |s'| ≤ 1 →
      |t'| ≤ 1 → Ap (η + 22 / 10 * μ / 2 ^ 24) (FP.mul s t) (s' * t') := by
    intro s t s' t' hs ht ls lt
    have hq : η * (101 / 100 * μ / 2 ^ 24) ≤ 1 / 16 * (101 / 100 * μ / 2 ^ 24) :=
      mul_le_mul_of_nonneg_right hη1 (by positivity)
    refine hs.mul ht ls lt (by norm_num) ?_ ?_
    · linarith
    · linarith
  have m1 := ml hx hb.a (abs_unit vx) hb.la
  have m2 := ml hy hb.b (abs_unit vy) hb.lb
  have m3 := ml hz hb.c (abs_unit vz) hb.lc
  have m4 : Ap (106 / 10 * μ / 2 ^ 24) (FP.mul (FP.ofInt 1) b.d) (((1 : Int) : ℚ) * b'.d) :=
    (ofInt32' 1 (by norm_num)).mul hb.d (B1 := 1) (by norm_num) hb.ld (by norm_num) (by linarith) (by linarith)
  have l1 := m (abs_unit vx) hb.la
  have l2 := m (abs_unit vy) hb.lb
  have l3 := m (abs_unit vz) hb.lc
  have l4 : |((1 : Int) : ℚ) * b'.d| ≤ 3 / 2 := by simpa using hb.ld
  have s1 := m1.add m2 (e := 2 * η + 66 / 10 * μ / 2 ^ 24) (B := 2) ((abs_add_le _ _).trans (by linarith))
    (by norm_num) (by linarith) (by linarith)
  have b3 : |v.x * b'.a + v.y * b'.b + v.z * b'.c| ≤ 3 := (abs_add_three _ _ _).trans (by linarith)
  have s2 := s1.add m3 (e := 3 * η + 121 / 10 * μ / 2 ^ 24) (B := 3) b3
    (by norm_num) (by linarith) (by linarith)
  have s3 := s2.add m4 (e := 4 * η) (B := 9 / 2) ((abs_add_le _ _).trans (by linarith))
    (by norm_num) (by linarith) (by linarith)
  have e : v.x * b'.a + v.y * b'.b + v.z * b'.c + ((1 : Int) : ℚ) * b'.d = b'.eval v := by
    simp only [Plane.eval]; push_cast; ring
  rw [e] at s3
  exact s3

/-- squared distance of a vertex from the point of the cell, as computed -/
def rad32 (p : Pt F32) (x y z : F32) : F32 :=
  FP.add (FP.add (square (FP.sub p.x x)) (square (FP.sub p.y y))) (square (FP.sub p.z z))

theorem rad32_ap {μ : ℚ} (hμ : Fac μ) {x y z : F32} {v p p' : Pt ℚ} {η : ℚ} (hx : Ap η x v.x) (hy : Ap η y v.y) (hz : Ap η z v.z)
    (hη : 42 * μ / 2 ^ 24 ≤ η) (hη1 : η ≤ 1 / 16) (hv : InUnitBox v) (hp : InUnitBox p) (ap : PtAp μ p' p) :
    Ap (7 * η) (rad32 (toF32 p') x y z) (sqDist p v) := by
  obtain ⟨vx, vy, vz⟩ := hv
  obtain ⟨px, py, pz⟩ := hp
  have g1' := hμ.one
  have g2' := hμ.four
  have sq : ∀ {s : F32} {s' t t' : ℚ}, Ap η s s' → 0 ≤ s' ∧ s' ≤ 1 → 0 ≤ t ∧ t ≤ 1 →
      |t' - t| ≤ (μ - 1) / 2 / 2 ^ 24 →
      Ap (22 / 10 * η) (square (FP.sub (.fin t') s)) ((t - s') * (t - s')) ∧ |(t - s') * (t - s')| ≤ 1 := by
    intro s s' t t' hs ls lt et
    have at' : Ap ((μ - 1) / 2 / 2 ^ 24) (.fin t' : F32) t := ⟨_, rfl, et⟩
    have l := abs_sub_unit lt ls
    have d := at'.sub hs (e := 103 / 100 * η) l (by norm_num) (by linarith)
      (by linarith)
    have hsq : (103 / 100 * η) * (103 / 100 * η) ≤ 7 / 100 * η := by
      have : η * η ≤ η * (1 / 16) := mul_le_mul_of_nonneg_left hη1 (by linarith)
      linarith
    refine ⟨d.mul d l l (by norm_num) ?_ ?_, ?_⟩
    · linarith
    · linarith
    · rw [abs_mul]; exact mul_le_one₀ l (abs_nonneg _) l
  obtain ⟨m1, l1⟩ := sq hx vx px ap.x
  obtain ⟨m2, l2⟩ := sq hy vy py ap.y
  obtain ⟨m3, l3⟩ := sq hz vz pz ap.z
  have s1 := m1.add m2 (e := 446 / 100 * η) (B := 2) ((abs_add_le _ _).trans (by linarith))
    (by norm_num) (by linarith) (by linarith)
  have s2 := s1.add m3 (e := 7 * η) (B := 3) ((abs_add_three _ _ _).trans (by linarith))
    (by norm_num) (by linarith) (by linarith)
  have e : (p.x - v.x) * (p.x - v.x) + (p.y - v.y) * (p.y - v.y) + (p.z - v.z) * (p.z - v.z)
      = sqDist p v := by simp only [sqDist]; ring
  rw [e] at s2
  exact s2

theorem add_isFl {a b : F32} {n : ℚ} (h : FP.add a b = .fin n) : rnd b32 n = n := by
  have key : ∀ x : ℚ, Fl.round b32 x = .fin n → rnd b32 n = n := by
    intro x hx
    unfold Fl.round at hx
    simp only at hx
    split at hx
    · cases hx
    · split at hx
      · cases hx
      · injection hx with hx; rw [← hx]; exact rnd_rnd x
  cases a <;> cases b <;> first | exact key _ h | cases h

/-- the radius in floats is exactly the larger of the two values -/
theorem srUpdate32 {p : Pt F32} {x y z : F32} {s n : ℚ} (hn : rad32 p x y z = .fin n) (hs : rnd b32 s = s)
    (ls : |s| ≤ 2 ^ 100) (ln : |n| ≤ 2 ^ 100) :
    srUpdate p x y z (.fin s) = .fin (max s n) ∧ rnd b32 (max s n) = max s n ∧ |max s n| ≤ 2 ^ 100 := by
  have hfn := add_isFl hn
  unfold rad32 at hn
  unfold srUpdate
  simp only [hn, lt32]
  have o0 : (FP.ofInt 0 : F32) = .fin 0 := by rw [ofInt32 (by norm_num)]; norm_num
  have o1 : (FP.ofInt 1 : F32) = .fin 1 := by rw [ofInt32 (by norm_num)]; norm_num
  have z0 : rnd b32 0 = 0 := rnd_zero _
  by_cases h : s < n
  · rw [max_eq_right h.le]
    refine ⟨?_, hfn, ln⟩
    simp only [h, decide_true, Bool.not_true, FP.ofBool, if_true, Bool.false_eq_true, if_false, o0, o1]
    rw [mulF32 (by simp), mulF32 (by simpa using ln), zero_mul, one_mul, z0, hfn,
      addF32 (by simpa using ln), zero_add, hfn]
  · have h' := not_lt.mp h
    rw [max_eq_left h']
    refine ⟨?_, hs, ls⟩
    simp only [h, decide_false, Bool.not_false, FP.ofBool, if_true, Bool.false_eq_true, if_false, o0, o1]
    rw [mulF32 (by simpa using ls), mulF32 (by simp), zero_mul, one_mul, z0, hs,
      addF32 (by simpa using ls), add_zero, hs]

theorem radiusOf32 {P : List (Plane F32)} {p : Pt F32} : ∀ {vs : List Tri} {n : Tri → ℚ} {s : ℚ},
    (∀ t ∈ vs, rad32 p (vtx P t).x (vtx P t).y (vtx P t).z = .fin (n t) ∧ |n t| ≤ 2 ^ 100) →
    rnd b32 s = s → |s| ≤ 2 ^ 100 →
    radiusOf P p vs (.fin s) = .fin ((vs.map n).foldl max s) ∧ |(vs.map n).foldl max s| ≤ 2 ^ 100 := by
  intro vs
  induction vs with
  | nil => intro n s _ _ hs; exact ⟨rfl, hs⟩
  | cons t vs ih =>
    intro n s h hs ls
    obtain ⟨h1, h2⟩ := h t List.mem_cons_self
    obtain ⟨u1, u2, u3⟩ := srUpdate32 h1 hs ls h2
    have := ih (n := n) (fun t ht => h t (List.mem_cons_of_mem _ ht)) u2 u3
    unfold radiusOf at this ⊢
    simp only [List.map_cons, List.foldl_cons, u1]
    exact this

theorem radiusOf_exact {P : List (Plane ℚ)} {p : Pt ℚ} : ∀ {vs : List Tri} {s : ℚ},
    radiusOf P p vs s = (vs.map fun t => sqDist p (vtx P t).pt).foldl max s := by
  intro vs
  induction vs with
  | nil => intro s; rfl
  | cons t vs ih =>
    intro s
    have e := srUpdate_eq p (vtx P t).pt s
    unfold radiusOf at ih ⊢
    simp only [List.map_cons, List.foldl_cons]
    rw [← e, ← ih]; rfl

theorem foldl_max_lt {f : ℚ → ℚ} (hf : Monotone f) (c : ℚ) : ∀ (l : List ℚ) (a : ℚ),
    f (l.foldl max a) < c ↔ f a < c ∧ ∀ x ∈ l, f x < c := by
  intro l
  induction l with
  | nil => intro a; simp
  | cons b l ih =>
    intro a
    rw [List.foldl_cons, ih, hf.map_max, max_lt_iff]
    simp only [List.mem_cons, forall_eq_or_imp, and_assoc]

/-- what is needed of one vertex: it is computed up to `η`, and it is clear on which side it is -/
structure TriMargin (μ : ℚ) (P : List (Plane F32)) (p q v : Pt ℚ) (t : Tri) (η : ℚ) : Prop where
  lo : 42 * μ / 2 ^ 24 ≤ η
  hi : η ≤ 1 / 16
  box : InUnitBox v
  x : Ap η (vtx P t).x v.x
  y : Ap η (vtx P t).y v.y
  z : Ap η (vtx P t).z v.z
  cut : 8 * η < |sqDist v p - sqDist v q|

theorem isCut32 {μ : ℚ} (hμ : Fac μ) {P : List (Plane F32)} {p q v p' q' : Pt ℚ} {t : Tri} {η : ℚ} (h : TriMargin μ P p q v t η)
    (hp : InUnitBox p) (hq : InUnitBox q) (ap : PtAp μ p' p) (aq : PtAp μ q' q) :
    isCut P (bisect (toF32 q') (toF32 p')) t = decide (0 < (bisect q p).eval v) := by
  obtain ⟨d, hd, he⟩ := dot_ap hμ h.x h.y h.z h.lo h.hi h.box (planeAp_bisect hμ hp hq ap aq)
  have hw : (vtx P t).w = FP.ofInt 1 := rfl
  unfold isCut
  rw [hw, hd, ofInt32 (by norm_num), lt32, decide_eq_decide]
  have hc := h.cut
  rw [bisect_eval] at he ⊢
  have he' := abs_le.mp he
  have hlo : 42 / 2 ^ 24 ≤ η := le_trans (by have := hμ.one; linarith) h.lo
  push_cast
  rcases lt_or_ge (sqDist v p - sqDist v q) 0 with hn | hn
  · rw [abs_of_neg hn] at hc
    constructor <;> intro g <;> linarith [he'.1, he'.2]
  · rw [abs_of_nonneg hn] at hc
    constructor <;> intro g <;> norm_num at * <;> linarith [he'.1, he'.2]

theorem InUnitBox.diff {p q : Pt ℚ} (hp : InUnitBox p) (hq : InUnitBox q) :
    |p.x - q.x| ≤ 1 ∧ |p.y - q.y| ≤ 1 ∧ |p.z - q.z| ≤ 1 :=
  ⟨abs_sub_unit hp.1 hq.1, abs_sub_unit hp.2.1 hq.2.1, abs_sub_unit hp.2.2 hq.2.2⟩

theorem InUnitBox.sqDist_le {p q : Pt ℚ} (hp : InUnitBox p) (hq : InUnitBox q) : sqDist p q ≤ 3 := by
  obtain ⟨h1, h2, h3⟩ := hp.diff hq
  have e : ∀ {a : ℚ}, |a| ≤ 1 → a ^ 2 ≤ 1 := fun {a} h => by
    rw [← sq_abs]; exact pow_le_one₀ (abs_nonneg _) h
  unfold sqDist
  linarith [e h1, e h2, e h3]

/-- distances of stored points -/
theorem PtAp.dist {μ : ℚ} (hμ : Fac μ) {p q p' q' : Pt ℚ} (hp : InUnitBox p) (hq : InUnitBox q) (ap : PtAp μ p' p)
    (aq : PtAp μ q' q) : |sqDist p' q' - sqDist p q| ≤ 7 * (μ - 1) / 2 ^ 24 := by
  obtain ⟨d1, d2, d3⟩ := hp.diff hq
  have g1' := hμ.one
  have g2' := hμ.four
  have key : ∀ {a b a' b' : ℚ}, |a - b| ≤ 1 → |a' - a| ≤ (μ - 1) / 2 / 2 ^ 24 → |b' - b| ≤ (μ - 1) / 2 / 2 ^ 24 →
      |(a' - b') ^ 2 - (a - b) ^ 2| ≤ 7 / 3 * (μ - 1) / 2 ^ 24 := by
    intro a b a' b' h ha hb
    have e : (a' - b') ^ 2 - (a - b) ^ 2 = ((a' - a) - (b' - b)) * (2 * (a - b) + ((a' - a) - (b' - b))) := by ring
    have s1 : |(a' - a) - (b' - b)| ≤ (μ - 1) / 2 ^ 24 := (abs_sub _ _).trans (by linarith)
    have s2 : |2 * (a - b) + ((a' - a) - (b' - b))| ≤ 7 / 3 := by
      refine (abs_add_le _ _).trans ?_
      rw [abs_mul, abs_of_pos (by norm_num : (0 : ℚ) < 2)]
      linarith
    rw [e, abs_mul]
    calc _ ≤ (μ - 1) / 2 ^ 24 * (7 / 3) := mul_le_mul s1 s2 (abs_nonneg _) (div_nonneg (by linarith) (by norm_num))
      _ = _ := by ring
  have e : sqDist p' q' - sqDist p q = ((p'.x - q'.x) ^ 2 - (p.x - q.x) ^ 2) + ((p'.y - q'.y) ^ 2 - (p.y - q.y) ^ 2)
      + ((p'.z - q'.z) ^ 2 - (p.z - q.z) ^ 2) := by simp only [sqDist]; ring
  rw [e]
  refine (abs_add_three _ _ _).trans ?_
  linarith [key d1 ap.x aq.x, key d2 ap.y aq.y, key d3 ap.z aq.z]

theorem srReached32 {μ : ℚ} (hμ : Fac μ) {P : List (Plane F32)} {P' : List (Plane ℚ)} {p q p' q' : Pt ℚ}
    (hp : InUnitBox p) (hq : InUnitBox q) (hp' : InUnitBox p') (hq' : InUnitBox q') (ap : PtAp μ p' p)
    (aq : PtAp μ q' q) {vs : List Tri} (hne : vs ≠ [])
    (h : ∀ t ∈ vs, ∃ η, TriMargin μ P p q (vtx P' t).pt t η)
    (hrad : (∀ t ∈ vs, ∃ η, TriMargin μ P p q (vtx P' t).pt t η ∧
        32 * η < sqDist p q - 4 * sqDist p (vtx P' t).pt) ∨
      ∃ t ∈ vs, ∃ η, TriMargin μ P p q (vtx P' t).pt t η ∧
        32 * η < 4 * sqDist p (vtx P' t).pt - sqDist p q) :
    srReached (toF32 p') (toF32 q') (radiusOf P (toF32 p') vs (FP.ofInt 0))
      = srReached p q (radiusOf P' p vs (FP.ofInt 0)) := by
  obtain ⟨d1, d2, d3⟩ := hp'.diff hq'
  obtain ⟨r, hr, hre⟩ := getDistance32 d1 d2 d3
  have g1' := hμ.one
  have g2' := hμ.four
  have hR := hp.sqDist_le hq
  have hR0 := sqDist_nonneg p q
  have hre' : |r - sqDist p q| ≤ (19 + 7 * (μ - 1)) / 2 ^ 24 := by
    unfold Near at hre
    have h3 := hp'.sqDist_le hq'
    have h4 := PtAp.dist hμ hp hq ap aq
    calc |r - sqDist p q| = |(r - sqDist p' q') + (sqDist p' q' - sqDist p q)| := by congr 1; ring
      _ ≤ _ := (abs_add_le _ _).trans (by linarith)
  have hre' := abs_le.mp hre'
  -- the computed values
  have hn : ∀ t ∈ vs, ∃ n, rad32 (toF32 p') (vtx P t).x (vtx P t).y (vtx P t).z = .fin n ∧ |n| ≤ 2 ^ 100 ∧
      (∀ η, TriMargin μ P p q (vtx P' t).pt t η → 32 * η < sqDist p q - 4 * sqDist p (vtx P' t).pt →
        rnd b32 (4 * n) < r ∧ 0 < r) ∧
      (∀ η, TriMargin μ P p q (vtx P' t).pt t η → 32 * η < 4 * sqDist p (vtx P' t).pt - sqDist p q →
        r ≤ rnd b32 (4 * n)) := by
    intro t ht
    -- one error bound
    have key : ∀ η, TriMargin μ P p q (vtx P' t).pt t η → ∃ n,
        rad32 (toF32 p') (vtx P t).x (vtx P t).y (vtx P t).z = .fin n ∧ |n| ≤ 2 ^ 100 ∧
        (32 * η < sqDist p q - 4 * sqDist p (vtx P' t).pt → rnd b32 (4 * n) < r ∧ 0 < r) ∧
        (32 * η < 4 * sqDist p (vtx P' t).pt - sqDist p q → r ≤ rnd b32 (4 * n)) := by
      intro η hm
      obtain ⟨n, e1, e2⟩ := rad32_ap hμ hm.x hm.y hm.z hm.lo hm.hi hm.box hp ap
      have hN := hp.sqDist_le hm.box
      have hN0 := sqDist_nonneg p (vtx P' t).pt
      have hlo := hm.lo
      have hhi := hm.hi
      generalize sqDist p (vtx P' t).pt = N at *
      generalize sqDist p q = R at *
      obtain ⟨-, r2⟩ := Ap.round (v := 4 * n) (x := 4 * N) (E := 28 * η) (B := 12) (e := 285 / 10 * η) (by
        rw [← mul_sub, abs_mul, abs_of_pos (by norm_num : (0 : ℚ) < 4)]; linarith) (by
        rw [abs_of_nonneg (by linarith)]; linarith) (by norm_num) (by linarith) (by norm_num at *; linarith)
      have e2' := abs_le.mp e2
      have r2' := abs_le.mp r2
      refine ⟨n, e1, ?_, ?_, ?_⟩
      · have : |n| ≤ 100 := by rw [abs_le]; constructor <;> linarith [e2'.1, e2'.2]
        exact this.trans (by norm_num)
      · intro g
        constructor <;> norm_num at * <;> linarith [hre'.1, hre'.2, r2'.1, r2'.2]
      · intro g
        norm_num at *
        linarith [hre'.1, hre'.2, r2'.1, r2'.2]
    obtain ⟨η, hm⟩ := h t ht
    obtain ⟨n, e1, e2, -⟩ := key η hm
    refine ⟨n, e1, e2, ?_, ?_⟩
    · intro η' hm'
      obtain ⟨n', f1, -, f3, -⟩ := key η' hm'
      rw [e1] at f1; cases f1
      exact f3
    · intro η' hm'
      obtain ⟨n', f1, -, -, f3⟩ := key η' hm'
      rw [e1] at f1; cases f1
      exact f3
  have hex : ∃ n : Tri → ℚ, ∀ t ∈ vs, rad32 (toF32 p') (vtx P t).x (vtx P t).y (vtx P t).z = .fin (n t) ∧
      |n t| ≤ 2 ^ 100 ∧
      (∀ η, TriMargin μ P p q (vtx P' t).pt t η → 32 * η < sqDist p q - 4 * sqDist p (vtx P' t).pt →
        rnd b32 (4 * n t) < r ∧ 0 < r) ∧
      (∀ η, TriMargin μ P p q (vtx P' t).pt t η → 32 * η < 4 * sqDist p (vtx P' t).pt - sqDist p q →
        r ≤ rnd b32 (4 * n t)) := by
    classical
    refine ⟨fun t => if ht : t ∈ vs then (hn t ht).choose else 0, fun t ht => ?_⟩
    simp only [dif_pos ht]
    exact (hn t ht).choose_spec
  obtain ⟨n, hn⟩ := hex
  have o0 : (FP.ofInt 0 : F32) = .fin 0 := by rw [ofInt32 (by norm_num)]; norm_num
  have o4 : (FP.ofInt 4 : F32) = .fin 4 := by rw [ofInt32 (by norm_num)]; norm_num
  have q0 : (FP.ofInt 0 : ℚ) = 0 := by simp [FP.ofInt]
  obtain ⟨m1, m2⟩ := radiusOf32 (P := P) (p := toF32 p') (vs := vs) (n := n) (s := 0)
    (fun t ht => ⟨(hn t ht).1, (hn t ht).2.1⟩) (rnd_zero _) (by simp)
  have lhs : srReached (toF32 p') (toF32 q') (radiusOf P (toF32 p') vs (FP.ofInt 0))
      = decide (rnd b32 (4 * (vs.map n).foldl max 0) < r) := by
    rw [o0, m1]
    show FP.lt (FP.mul (FP.ofInt 4) (.fin _)) (getDistance (toF32 p') (toF32 q')) = _
    have hr' : getDistance (toF32 p') (toF32 q') = .fin r := hr
    have hm4 : |4 * (vs.map n).foldl max 0| ≤ 2 ^ 128 := by
      rw [abs_mul, abs_of_pos (by norm_num : (0 : ℚ) < 4)]; norm_num at *; linarith
    rw [hr', o4]
    have : FP.mul (.fin 4 : F32) (.fin ((vs.map n).foldl max 0)) = .fin (rnd b32 (4 * (vs.map n).foldl max 0)) := by
      have e := abs_le.mp (rnd32_err (4 * (vs.map n).foldl max 0))
      have m4 : |4 * (vs.map n).foldl max 0| ≤ 4 * 2 ^ 100 := by
        rw [abs_mul, abs_of_pos (by norm_num : (0 : ℚ) < 4)]; linarith
      have m4' := abs_le.mp m4
      apply Fl.round_fin
      · norm_num at *; linarith [e.1, e.2, m4'.1, m4'.2]
      · norm_num at *; linarith [e.1, e.2, m4'.1, m4'.2]
    rw [this, lt32]
  rw [lhs, Bool.eq_iff_iff, decide_eq_true_eq, srReached_eq, radiusOf_exact, q0]
  have mono : Monotone fun x : ℚ => rnd b32 (4 * x) := fun x y hxy => rnd_mono b32_p (by linarith)
  have mono' : Monotone fun x : ℚ => 4 * x := fun x y hxy => by simp only; linarith
  have k1 := foldl_max_lt mono r (vs.map n) 0
  have k2 := foldl_max_lt mono' (sqDist p q) (vs.map fun t => sqDist p (vtx P' t).pt) 0
  rw [k1, k2]
  obtain ⟨t0, ht0⟩ := List.exists_mem_of_ne_nil vs hne
  simp only [List.mem_map, forall_exists_index, and_imp, forall_apply_eq_imp_iff₂, mul_zero, rnd_zero]
  rcases hrad with hb | ⟨t, ht, η, hm, ha⟩
  · have g' : ∀ t ∈ vs, 4 * sqDist p (vtx P' t).pt < sqDist p q := fun t ht => by
      obtain ⟨η, hm, hb⟩ := hb t ht
      have := hm.lo
      norm_num at *
      linarith
    constructor
    · intro _
      refine ⟨?_, g'⟩
      have := g' t0 ht0
      have := sqDist_nonneg p (vtx P' t0).pt
      linarith
    · intro _
      refine ⟨?_, fun t ht => ?_⟩
      · obtain ⟨η, hm, hb⟩ := hb t0 ht0
        exact ((hn t0 ht0).2.2.1 η hm hb).2
      · obtain ⟨η, hm, hb⟩ := hb t ht
        exact ((hn t ht).2.2.1 η hm hb).1
  · have h1 := (hn t ht).2.2.2 η hm ha
    have hlo := hm.lo
    constructor
    · rintro ⟨-, g⟩
      exact absurd (g t ht) (not_lt.mpr h1)
    · rintro ⟨-, g⟩
      have := g t ht
      norm_num at *
      linarith

end Votess
