import Verif.Proofs.SglKnn
import Verif.Proofs.MarginBase
import Verif.Proofs.IeeeCell
/-! Rounding errors of the cell computation in the arithmetic of `Sgl`. -/
namespace Votess.Sgl

variable {F : Type} [FP F (WithTop ℚ)] [Sgl F]

/-- how many times the margins for exactly given points are needed; `ω` for exactly given points, `4 * ω` for
points given up to rounding -/
structure Fac (ω μ : ℚ) : Prop where
  pos : 0 < ω
  one : ω ≤ μ
  four : μ ≤ 4

theorem Fac.sq {ω μ : ℚ} (h : Fac ω μ) : μ * μ ≤ 4 * μ :=
  mul_le_mul_of_nonneg_right h.four (h.pos.le.trans h.one)

theorem Fac.mpos {ω μ : ℚ} (h : Fac ω μ) : 0 < μ := lt_of_lt_of_le h.pos h.one

theorem Fac.of {μ : ℚ} (h : Votess.Fac μ) : Fac 1 μ := ⟨one_pos, h.one, h.four⟩

/-- a stored point and the point that was meant -/
structure PtAp (ω μ : ℚ) (p' p : Pt ℚ) : Prop where
  x : |p'.x - p.x| ≤ (μ - ω) / 2 / 2 ^ 24
  y : |p'.y - p.y| ≤ (μ - ω) / 2 / 2 ^ 24
  z : |p'.z - p.z| ≤ (μ - ω) / 2 / 2 ^ 24

theorem PtAp.refl (ω : ℚ) (p : Pt ℚ) : PtAp ω ω p p := ⟨by simp, by simp, by simp⟩

theorem PtAp.of {μ : ℚ} {p' p : Pt ℚ} (h : Votess.PtAp μ p' p) : PtAp 1 μ p' p := ⟨h.x, h.y, h.z⟩

theorem span_x (p q : Pt ℚ) : |q.x - p.x| ≤ span p q := Plane.abs_a _
theorem span_y (p q : Pt ℚ) : |q.y - p.y| ≤ span p q := Plane.abs_b _
theorem span_z (p q : Pt ℚ) : |q.z - p.z| ≤ span p q := Plane.abs_c _

/-- distances of stored points -/
theorem PtAp.dist {ω μ : ℚ} (hμ : Fac ω μ) {p q p' q' : Pt ℚ} (ap : PtAp ω μ p' p)
    (aq : PtAp ω μ q' q) : |sqDist q' p' - sqDist q p| ≤ 7 * (μ - ω) / 2 ^ 24 * span p q := by
  have d1 := span_x p q
  have d2 := span_y p q
  have d3 := span_z p q
  have g0' := hμ.pos
  have g1' := hμ.one
  have g2' := hμ.four
  have hs := span_lo p q
  have key : ∀ {a b a' b' : ℚ}, |a - b| ≤ span p q → |a' - a| ≤ (μ - ω) / 2 / 2 ^ 24 → |b' - b| ≤ (μ - ω) / 2 / 2 ^ 24 →
      |(a' - b') ^ 2 - (a - b) ^ 2| ≤ 7 / 3 * (μ - ω) / 2 ^ 24 * span p q := by
    intro a b a' b' h ha hb
    have e : (a' - b') ^ 2 - (a - b) ^ 2 = ((a' - a) - (b' - b)) * (2 * (a - b) + ((a' - a) - (b' - b))) := by ring
    have s1 : |(a' - a) - (b' - b)| ≤ (μ - ω) / 2 ^ 24 := (abs_sub _ _).trans (by linarith)
    have s2 : |2 * (a - b) + ((a' - a) - (b' - b))| ≤ 7 / 3 * span p q := by
      refine (abs_add_le _ _).trans ?_
      rw [abs_mul, abs_of_pos (by norm_num : (0 : ℚ) < 2)]
      linarith
    rw [e, abs_mul]
    calc _ ≤ (μ - ω) / 2 ^ 24 * (7 / 3 * span p q) := mul_le_mul s1 s2 (abs_nonneg _) (div_nonneg (by linarith) (by norm_num))
      _ = _ := by ring
  have e : sqDist q' p' - sqDist q p = ((q'.x - p'.x) ^ 2 - (q.x - p.x) ^ 2) + ((q'.y - p'.y) ^ 2 - (q.y - p.y) ^ 2)
      + ((q'.z - p'.z) ^ 2 - (q.z - p.z) ^ 2) := by simp only [sqDist]; ring
  rw [e]
  refine (abs_add_three _ _ _).trans ?_
  linarith [key d1 aq.x ap.x, key d2 aq.y ap.y, key d3 aq.z ap.z]

/-- `y` is finite and the values used for it differ from `x` by at most `e` -/
def Ap (e : ℚ) (y : F) (x : ℚ) : Prop := Ns y ∧ (∃ v, val y = .fin v) ∧ ∀ v, Rd y v → |v - x| ≤ e

theorem Ap.finite {e x : ℚ} {y : F} (h : Ap e y x) : ∃ v, val y = .fin v ∧ |v - x| ≤ e := by
  obtain ⟨-, ⟨v, h1⟩, h2⟩ := h
  exact ⟨v, h1, h2 v (rd_val h1)⟩

theorem Ap.of {e x v : ℚ} {y : F} (n : Ns y) (p : Plain y) (h : val y = .fin v) (he : |v - x| ≤ e) : Ap e y x :=
  ⟨n, ⟨v, h⟩, fun w hw => by rw [p.eq h hw]; exact he⟩

theorem Ap.mono {e e' : ℚ} {y : F} {x : ℚ} (h : Ap e y x) (he : e ≤ e') : Ap e' y x :=
  ⟨h.1, h.2.1, fun v hv => (h.2.2 v hv).trans he⟩

theorem Ap.add {e1 e2 e B x1 x2 : ℚ} {y1 y2 : F} (h1 : Ap e1 y1 x1) (h2 : Ap e2 y2 x2)
    (hx : |x1 + x2| ≤ B) (hB : B ≤ 100) (hE : e1 + e2 ≤ 100)
    (he : e1 + e2 + (om F * B + (e1 + e2)) / 2 ^ 24 + om F / 2 ^ 126 ≤ e) : Ap e (FP.add y1 y2) (x1 + x2) := by
  obtain ⟨n1, ⟨w1, f1⟩, g1⟩ := h1
  obtain ⟨n2, ⟨w2, f2⟩, g2⟩ := h2
  obtain ⟨v1, v2, k1, k2, k3⟩ := add_val (okN n1 n2) f1 f2
  have g1 := g1 v1 k1
  have g2 := g2 v2 k2
  obtain ⟨r1, r2⟩ := (fine (F := F)).fround (v := v1 + v2) (x := x1 + x2) (E := e1 + e2) (by
    calc |v1 + v2 - (x1 + x2)| = |(v1 - x1) + (v2 - x2)| := by congr 1; ring
      _ ≤ _ := (abs_add_le _ _).trans (add_le_add g1 g2)) hx hB hE he
  exact .of (full_ns (add_full (okN n1 n2))) (plain_add _ _) (k3.trans (small r1)) r2

theorem Ap.neg {e x : ℚ} {y : F} (h : Ap e y x) : Ap e (FP.neg y) (-x) := by
  obtain ⟨n, ⟨v, h1⟩, h2⟩ := h
  refine ⟨full_ns (neg_full n), ⟨-v, by rw [neg_val n, h1]; rfl⟩, fun w hw => ?_⟩
  have := h2 _ (neg_rd n hw)
  rw [show w - -x = -(-w - x) by ring, abs_neg]; exact this

theorem Ap.sub {e1 e2 e B x1 x2 : ℚ} {y1 y2 : F} (h1 : Ap e1 y1 x1) (h2 : Ap e2 y2 x2)
    (hx : |x1 - x2| ≤ B) (hB : B ≤ 100) (hE : e1 + e2 ≤ 100)
    (he : e1 + e2 + (om F * B + (e1 + e2)) / 2 ^ 24 + om F / 2 ^ 126 ≤ e) : Ap e (FP.sub y1 y2) (x1 - x2) := by
  obtain ⟨n1, ⟨w1, f1⟩, g1⟩ := h1
  obtain ⟨n2, ⟨w2, f2⟩, g2⟩ := h2
  obtain ⟨v1, v2, k1, k2, k3⟩ := sub_val (okN n1 n2) f1 f2
  have g1 := g1 v1 k1
  have g2 := g2 v2 k2
  obtain ⟨r1, r2⟩ := (fine (F := F)).fround (v := v1 - v2) (x := x1 - x2) (E := e1 + e2) (by
    calc |v1 - v2 - (x1 - x2)| = |(v1 - x1) - (v2 - x2)| := by congr 1; ring
      _ ≤ _ := (abs_sub _ _).trans (add_le_add g1 g2)) hx hB hE he
  exact .of (full_ns (sub_full (okN n1 n2))) (plain_sub _ _) (k3.trans (small r1)) r2

theorem Ap.mulB {e1 e2 e B1 B2 B x1 x2 : ℚ} {y1 y2 : F} (h1 : Ap e1 y1 x1) (h2 : Ap e2 y2 x2)
    (hx1 : |x1| ≤ B1) (hx2 : |x2| ≤ B2) (hx : |x1 * x2| ≤ B) (hB : B ≤ 100) (hE : e1 * B2 + e2 * B1 + e1 * e2 ≤ 100)
    (he : (e1 * B2 + e2 * B1 + e1 * e2) + (om F * B + (e1 * B2 + e2 * B1 + e1 * e2)) / 2 ^ 24
      + om F / 2 ^ 126 ≤ e) : Ap e (FP.mul y1 y2) (x1 * x2) := by
  obtain ⟨v1, f1, g1⟩ := h1.finite
  obtain ⟨v2, f2, g2⟩ := h2.finite
  have o := okN h1.1 h2.1
  have p1 := abs_nonneg (v1 - x1)
  have p2 := abs_nonneg (v2 - x2)
  have p3 := abs_nonneg x1
  have p4 := abs_nonneg x2
  have q1 : 0 ≤ e1 := p1.trans g1
  have q2 : 0 ≤ e2 := p2.trans g2
  have hE1 : |v1 * v2 - x1 * x2| ≤ e1 * B2 + e2 * B1 + e1 * e2 := by
    calc |v1 * v2 - x1 * x2| = |(v1 - x1) * x2 + (v2 - x2) * x1 + (v1 - x1) * (v2 - x2)| := by
          congr 1; ring
      _ ≤ |(v1 - x1) * x2| + |(v2 - x2) * x1| + |(v1 - x1) * (v2 - x2)| := abs_add_three _ _ _
      _ ≤ _ := by
          rw [abs_mul, abs_mul, abs_mul]
          gcongr
  obtain ⟨r1, r2⟩ := (fine (F := F)).fround (v := v1 * v2) (x := x1 * x2) (E := e1 * B2 + e2 * B1 + e1 * e2) hE1
    hx hB hE he
  refine ⟨full_ns (mul_full o), ⟨_, val_mul o f1 f2 r1⟩, fun v hv => ?_⟩
  rcases rd_mul o f1 f2 r1 hv with rfl | rfl
  · refine hE1.trans (le_trans ?_ he)
    have b1 : 0 ≤ B1 := p3.trans hx1
    have b2 : 0 ≤ B2 := p4.trans hx2
    have hω := om_pos (F := F)
    have hB0 := (abs_nonneg _).trans hx
    have : 0 ≤ (om F * B + (e1 * B2 + e2 * B1 + e1 * e2)) / 2 ^ 24 := by positivity
    linarith [show (0 : ℚ) ≤ om F / 2 ^ 126 by positivity]
  · exact r2

theorem Ap.mul {e1 e2 e B1 B2 x1 x2 : ℚ} {y1 y2 : F} (h1 : Ap e1 y1 x1) (h2 : Ap e2 y2 x2)
    (hx1 : |x1| ≤ B1) (hx2 : |x2| ≤ B2) (hB : B1 * B2 ≤ 100) (hE : e1 * B2 + e2 * B1 + e1 * e2 ≤ 100)
    (he : (e1 * B2 + e2 * B1 + e1 * e2) + (om F * (B1 * B2) + (e1 * B2 + e2 * B1 + e1 * e2)) / 2 ^ 24
      + om F / 2 ^ 126 ≤ e) : Ap e (FP.mul y1 y2) (x1 * x2) :=
  h1.mulB h2 hx1 hx2 (by rw [abs_mul]; exact mul_le_mul hx1 hx2 (abs_nonneg _) ((abs_nonneg _).trans hx1)) hB hE he

theorem ap_emb (x : ℚ) : Ap 0 (emb (.fin x) : F) x := .of (full_ns (full_emb _)) (plain_emb _) (val_emb _) (by simp)

theorem ap_near {x' x e : ℚ} (h : |x' - x| ≤ e) : Ap e (emb (.fin x') : F) x := .of (full_ns (full_emb _)) (plain_emb _) (val_emb _) h

/-- a stored plane and the exact one -/
structure PlaneAp (μ : ℚ) (h : Plane F) (h' : Plane ℚ) : Prop where
  a : Ap (101 / 100 * μ / 2 ^ 24) h.a h'.a
  b : Ap (101 / 100 * μ / 2 ^ 24) h.b h'.b
  c : Ap (101 / 100 * μ / 2 ^ 24) h.c h'.c
  d : Ap (9 * μ / 2 ^ 24) h.d h'.d
  size : h'.size ≤ 1
  ld : |h'.d| ≤ 3 / 2
  lds : |h'.d| ≤ 3 * h'.size

theorem PlaneAp.la {μ : ℚ} {h : Plane F} {h' : Plane ℚ} (a : PlaneAp μ h h') : |h'.a| ≤ 1 := h'.abs_a.trans a.size
theorem PlaneAp.lb {μ : ℚ} {h : Plane F} {h' : Plane ℚ} (a : PlaneAp μ h h') : |h'.b| ≤ 1 := h'.abs_b.trans a.size
theorem PlaneAp.lc {μ : ℚ} {h : Plane F} {h' : Plane ℚ} (a : PlaneAp μ h h') : |h'.c| ≤ 1 := h'.abs_c.trans a.size

theorem ap_ofInt (n : Int) (h : |n| ≤ 2 ^ 24) : Ap 0 (FP.ofInt n : F) n :=
  .of (ns_ofInt _) (plain_ofInt _) (ofInt_val h) (by simp)

theorem planeAp_init {μ : ℚ} (hμ : Fac (om F) μ) : ∀ j, j < 6 → PlaneAp μ ((pInit : List (Plane F)).getD j zeroPlane)
    ((pInit : List (Plane ℚ)).getD j zeroPlane) := by
  have p1 : 0 ≤ 101 / 100 * μ / 2 ^ 24 := by have := hμ.mpos; positivity
  have p2 : 0 ≤ 9 * μ / 2 ^ 24 := by have := hμ.mpos; positivity
  have z := (ap_ofInt (F := F) 0 (by norm_num)).mono p1
  have o := (ap_ofInt (F := F) 1 (by norm_num)).mono p1
  have m := (ap_ofInt (F := F) (-1) (by norm_num)).mono p1
  have z' := (ap_ofInt (F := F) 0 (by norm_num)).mono p2
  have o' := (ap_ofInt (F := F) 1 (by norm_num)).mono p2
  intro j hj
  have : j = 0 ∨ j = 1 ∨ j = 2 ∨ j = 3 ∨ j = 4 ∨ j = 5 := by omega
  rcases this with rfl | rfl | rfl | rfl | rfl | rfl <;>
    constructor <;> first | assumption | (simp [pInit, FP.ofInt, Plane.size]; try norm_num)

theorem planeAp_bisect {μ : ℚ} (hμ : Fac (om F) μ) {p q p' q' : Pt ℚ} (hp : InUnitBox p) (hq : InUnitBox q)
    (ap : PtAp (om F) μ p' p) (aq : PtAp (om F) μ q' q) : PlaneAp μ (bisect (toS q') (toS p') : Plane F) (bisect q p) := by
  obtain ⟨px, py, pz⟩ := hp
  obtain ⟨qx, qy, qz⟩ := hq
  have h0 := hμ.pos
  have h1 := hμ.one
  have h4 := hμ.four
  have h2 := hμ.sq
  have cf : ∀ {a' a : ℚ}, |a' - a| ≤ (μ - om F) / 2 / 2 ^ 24 → Ap ((μ - om F) / 2 / 2 ^ 24) (emb (.fin a') : F) a :=
    fun h => ap_near h
  have n : ∀ {a b a' b' : ℚ}, 0 ≤ a ∧ a ≤ 1 → 0 ≤ b ∧ b ≤ 1 → |a' - a| ≤ (μ - om F) / 2 / 2 ^ 24 →
      |b' - b| ≤ (μ - om F) / 2 / 2 ^ 24 →
      Ap (101 / 100 * μ / 2 ^ 24) (FP.sub (emb (.fin a')) (emb (.fin b')) : F) (a - b) := fun ha hb ea eb =>
    (cf ea).sub (cf eb) (abs_sub_unit ha hb) (by norm_num) (by linarith) (by linarith)
  have sq : ∀ {a a' : ℚ}, 0 ≤ a ∧ a ≤ 1 → |a' - a| ≤ (μ - om F) / 2 / 2 ^ 24 →
      Ap (101 / 100 * μ / 2 ^ 24) (square (emb (.fin a') : F)) (a * a) := fun ha ea =>
    (cf ea).mul (cf ea) (abs_unit ha) (abs_unit ha) (by norm_num) (by nlinarith) (by nlinarith)
  have s : ∀ {a b a' b' : ℚ}, 0 ≤ a ∧ a ≤ 1 → 0 ≤ b ∧ b ≤ 1 → |a' - a| ≤ (μ - om F) / 2 / 2 ^ 24 →
      |b' - b| ≤ (μ - om F) / 2 / 2 ^ 24 →
      Ap ((203 / 100 * μ + 101 / 100 * om F) / 2 ^ 24) (FP.sub (square (emb (.fin a'))) (square (emb (.fin b'))) : F) (a * a - b * b) :=
    fun ha hb ea eb => (sq ha ea).sub (sq hb eb) (abs_sub_unit (sq_unit ha) (sq_unit hb))
      (by norm_num) (by linarith) (by linarith)
  have l : ∀ {a b : ℚ}, 0 ≤ a ∧ a ≤ 1 → 0 ≤ b ∧ b ≤ 1 → |a * a - b * b| ≤ 1 := fun ha hb =>
    abs_sub_unit (sq_unit ha) (sq_unit hb)
  have t1 := (s qx px aq.x ap.x).add (s qy py aq.y ap.y) (e := (408 / 100 * μ + 404 / 100 * om F) / 2 ^ 24) (B := 2)
    ((abs_add_le _ _).trans (by linarith [l qx px, l qy py])) (by norm_num) (by linarith) (by linarith)
  have b3 : |q.x * q.x - p.x * p.x + (q.y * q.y - p.y * p.y) + (q.z * q.z - p.z * p.z)| ≤ 3 :=
    (abs_add_three _ _ _).trans (by linarith [l qx px, l qy py, l qz pz])
  have t2 := t1.add (s qz pz aq.z ap.z) (e := (614 / 100 * μ + 808 / 100 * om F) / 2 ^ 24) (B := 3) b3 (by norm_num)
    (by linarith) (by linarith)
  refine ⟨n qx px aq.x ap.x, n qy py aq.y ap.y, n qz pz aq.z ap.z, ?_, ?_, ?_, ?_⟩
  · obtain ⟨v, hv, he⟩ := t2.neg.finite
    have od := okN t2.neg.1 (ns_ofInt (F := F) 2)
    have hd' : (bisect q p).d = -(q.x * q.x - p.x * p.x + (q.y * q.y - p.y * p.y)
      + (q.z * q.z - p.z * p.z)) / 2 := by
      simp [bisect, FP.sub, FP.add, FP.neg, FP.div, square, FP.mul, FP.ofInt]
    rw [hd']
    obtain ⟨r1, r2⟩ := (fine (F := F)).fround (v := v / 2) (x := -(q.x * q.x - p.x * p.x + (q.y * q.y - p.y * p.y)
      + (q.z * q.z - p.z * p.z)) / 2) (E := (307 / 100 * μ + 404 / 100 * om F) / 2 ^ 24) (e := 9 * μ / 2 ^ 24) (B := 3 / 2) (by
        rw [← sub_div, abs_div, abs_of_pos (by norm_num : (0:ℚ) < 2), div_le_iff₀ (by norm_num)]
        refine he.trans (by linarith)) (by
        rw [abs_div, abs_neg, abs_of_pos (by norm_num : (0:ℚ) < 2), div_le_iff₀ (by norm_num)]
        linarith) (by norm_num) (by linarith) (by linarith)
    have v2 : val (FP.ofInt 2 : F) = .fin 2 := by rw [ofInt_val (by norm_num)]; norm_num
    exact .of (full_ns (div_full od)) (plain_div _ _) (val_div od (lf_ofInt 2) hv v2 (by norm_num) r1) r2
  · rw [bisect_bisectorPlane]
    exact span_le_one ⟨px, py, pz⟩ ⟨qx, qy, qz⟩
  · have hd' : (bisect q p).d = -(q.x * q.x - p.x * p.x + (q.y * q.y - p.y * p.y)
      + (q.z * q.z - p.z * p.z)) / 2 := by
      simp [bisect, FP.sub, FP.add, FP.neg, FP.div, square, FP.mul, FP.ofInt]
    rw [hd', abs_div, abs_neg, abs_of_pos (by norm_num : (0:ℚ) < 2), div_le_iff₀ (by norm_num)]
    linarith
  · rw [bisect_bisectorPlane]
    show |((p.x ^ 2 + p.y ^ 2 + p.z ^ 2) - (q.x ^ 2 + q.y ^ 2 + q.z ^ 2)) / 2| ≤ 3 * span p q
    have k : ∀ {a b : ℚ}, 0 ≤ a ∧ a ≤ 1 → 0 ≤ b ∧ b ≤ 1 → |b - a| ≤ span p q → |b ^ 2 - a ^ 2| ≤ 2 * span p q := by
      intro a b ha hb hab
      rw [show b ^ 2 - a ^ 2 = (b - a) * (b + a) by ring, abs_mul, mul_comm (2 : ℚ)]
      refine mul_le_mul hab ?_ (abs_nonneg _) (span_pos p q).le
      rw [abs_le]; constructor <;> linarith [ha.1, ha.2, hb.1, hb.2]
    have e : ((p.x ^ 2 + p.y ^ 2 + p.z ^ 2) - (q.x ^ 2 + q.y ^ 2 + q.z ^ 2)) / 2
        = -((q.x ^ 2 - p.x ^ 2) + (q.y ^ 2 - p.y ^ 2) + (q.z ^ 2 - p.z ^ 2)) / 2 := by ring
    rw [e, abs_div, abs_neg, abs_of_pos (by norm_num : (0:ℚ) < 2), div_le_iff₀ (by norm_num)]
    refine (abs_add_three _ _ _).trans ?_
    linarith [k px qx (span_x p q), k py qy (span_y p q), k pz qz (span_z p q)]

/-- `b1 c2 - b2 c1`; the sizes are `s` and `t` -/
theorem cross_ap {μ : ℚ} (hμ : Fac (om F) μ) {b1 c1 b2 c2 : F} {b1' c1' b2' c2' s t : ℚ} (hb1 : Ap (101 / 100 * μ / 2 ^ 24) b1 b1')
    (hc1 : Ap (101 / 100 * μ / 2 ^ 24) c1 c1') (hb2 : Ap (101 / 100 * μ / 2 ^ 24) b2 b2')
    (hc2 : Ap (101 / 100 * μ / 2 ^ 24) c2 c2') (lb1 : |b1'| ≤ s) (lc1 : |c1'| ≤ s) (lb2 : |b2'| ≤ t)
    (lc2 : |c2'| ≤ t) (s0 : 1 / 2 ^ 12 ≤ s) (s1 : s ≤ 1) (t0 : 1 / 2 ^ 12 ≤ t) (t1 : t ≤ 1) :
    Ap (81 / 10 * μ / 2 ^ 24 * ((s + t) / 2)) (FP.sub (FP.mul b1 c2) (FP.mul b2 c1)) (b1' * c2' - b2' * c1') ∧
    Ap (81 / 10 * μ / 2 ^ 24 * ((s + t) / 2)) (FP.add (FP.mul (FP.neg b1) c2) (FP.mul b2 c1)) (-b1' * c2' + b2' * c1') ∧
    |b1' * c2' - b2' * c1'| ≤ 2 * (s * t) ∧ |-b1' * c2' + b2' * c1'| ≤ 2 * (s * t) := by
  have g0' := hμ.pos
  have g1' := hμ.one
  have g2' := hμ.four
  have g3' := hμ.sq
  have gm := hμ.mpos
  have sp : 0 < s := lt_of_lt_of_le (by norm_num) s0
  have tp : 0 < t := lt_of_lt_of_le (by norm_num) t0
  have m : ∀ {x y : ℚ}, |x| ≤ s → |y| ≤ t → |x * y| ≤ s * t := fun hx hy => by
    rw [abs_mul]; exact mul_le_mul hx hy (abs_nonneg _) sp.le
  have m' : ∀ {x y : ℚ}, |x| ≤ t → |y| ≤ s → |x * y| ≤ s * t := fun hx hy => by
    rw [mul_comm]; exact m hy hx
  have ln : |-b1'| ≤ s := by rw [abs_neg]; exact lb1
  have l1 : |b1' * c2' - b2' * c1'| ≤ 2 * (s * t) := by
    refine (abs_sub _ _).trans ?_
    linarith [m lb1 lc2, m' lb2 lc1]
  have l2 : |-b1' * c2' + b2' * c1'| ≤ 2 * (s * t) := by
    refine (abs_add_le _ _).trans ?_
    linarith [m ln lc2, m' lb2 lc1]
  have st1 : s * t ≤ 1 := mul_le_one₀ s1 tp.le t1
  -- all terms against `μ * (s + t)`
  have k1 : om F * (s * t) ≤ μ * ((s + t) / 2) := by
    refine mul_le_mul g1' ?_ (by positivity) gm.le
    have := mul_le_mul_of_nonneg_left t1 sp.le
    have := mul_le_mul_of_nonneg_right s1 tp.le
    linarith
  have k2 : μ ≤ 2 ^ 12 * (μ * ((s + t) / 2)) := by
    have := mul_le_mul_of_nonneg_left (show 1 / 2 ^ 12 ≤ (s + t) / 2 by linarith) gm.le
    linarith
  have e1 : μ * s ≤ μ := mul_le_of_le_one_right gm.le s1
  have e2 : μ * t ≤ μ := mul_le_of_le_one_right gm.le t1
  have m1 := hb1.mul hc2 (e := 304 / 100 * μ / 2 ^ 24 * ((s + t) / 2)) lb1 lc2 (by linarith) (by linarith) (by linarith)
  have m2 := hb2.mul hc1 (e := 304 / 100 * μ / 2 ^ 24 * ((s + t) / 2)) lb2 lc1 (by linarith) (by linarith) (by linarith)
  have m3 := hb1.neg.mul hc2 (e := 304 / 100 * μ / 2 ^ 24 * ((s + t) / 2)) ln lc2 (by linarith) (by linarith) (by linarith)
  exact ⟨m1.sub m2 l1 (by linarith) (by linarith) (by linarith),
    m3.add m2 l2 (by linarith) (by linarith) (by linarith), l1, l2⟩

/-- sizes of three planes: `P` is the product of two of them, `g` their mean, `s` the third one -/
structure Mags (M s P g : ℚ) : Prop where
  s0 : 0 < s
  s1 : s ≤ 1
  P0 : 0 < P
  PM : P ≤ M
  g0 : 0 < g
  g1 : g ≤ 1
  gM : g ≤ 2 ^ 12 * M
  sg : s * g ≤ M
  M0 : 1 / 2 ^ 24 ≤ M
  M1 : M ≤ 1

theorem Mags.of {s t r M : ℚ} (s0 : 1 / 2 ^ 12 ≤ s) (s1 : s ≤ 1) (t0 : 1 / 2 ^ 12 ≤ t) (t1 : t ≤ 1) (r0 : 1 / 2 ^ 12 ≤ r)
    (r1 : r ≤ 1) (h1 : s * t ≤ M) (h2 : s * r ≤ M) (h3 : t * r ≤ M) (hM : M ≤ 1) : Mags M s (t * r) ((t + r) / 2) := by
  have sp : 0 < s := lt_of_lt_of_le (by norm_num) s0
  have tp : 0 < t := lt_of_lt_of_le (by norm_num) t0
  have rp : 0 < r := lt_of_lt_of_le (by norm_num) r0
  refine ⟨sp, s1, by positivity, h3, by positivity, by linarith, ?_, by linarith, ?_, hM⟩
  · have a := mul_le_mul_of_nonneg_left r0 tp.le
    have b := mul_le_mul_of_nonneg_right t0 rp.le
    linarith
  · have : (1 / 2 ^ 12 : ℚ) * (1 / 2 ^ 12) ≤ t * r := mul_le_mul t0 r0 (by norm_num) tp.le
    norm_num at *
    linarith

/-- a term of the determinant -/
theorem det_term {μ : ℚ} (hμ : Fac (om F) μ) {a n : F} {a' n' M s P g : ℚ} (z : Mags M s P g)
    (ha : Ap (101 / 100 * μ / 2 ^ 24) a a') (la : |a'| ≤ s) (h : Ap (81 / 10 * μ / 2 ^ 24 * g) n n') (l : |n'| ≤ 2 * P) :
    Ap (1214 / 100 * μ / 2 ^ 24 * M) (FP.mul a n) (a' * n') ∧ |a' * n'| ≤ 2 * M := by
  obtain ⟨s0, s1, P0, PM, gg0, gg1, gM, sg, M0, M1⟩ := z
  have g0' := hμ.pos
  have g1' := hμ.one
  have g2' := hμ.four
  have g3' := hμ.sq
  have gm := hμ.mpos
  have hl : |a' * n'| ≤ 2 * M := by
    rw [abs_mul]
    calc |a'| * |n'| ≤ 1 * (2 * P) := mul_le_mul (la.trans s1) l (abs_nonneg _) (by norm_num)
      _ ≤ _ := by linarith
  refine ⟨?_, hl⟩
  have k1 : μ * P ≤ μ * M := mul_le_mul_of_nonneg_left PM gm.le
  have k2 : μ * (s * g) ≤ μ * M := mul_le_mul_of_nonneg_left sg gm.le
  have k3 : μ * (μ * g) ≤ 4 * (μ * g) := mul_le_mul_of_nonneg_right g2' (by positivity)
  have k4 : μ * g ≤ μ * (2 ^ 12 * M) := mul_le_mul_of_nonneg_left gM gm.le
  have k5 : om F * M ≤ μ * M := mul_le_mul_of_nonneg_right g1' (by linarith)
  have k6 : μ * (1 / 2 ^ 24) ≤ μ * M := mul_le_mul_of_nonneg_left M0 gm.le
  have k7 : μ * M ≤ μ := mul_le_of_le_one_right gm.le M1
  have e : 101 / 100 * μ / 2 ^ 24 * (2 * P) + 81 / 10 * μ / 2 ^ 24 * g * s + 101 / 100 * μ / 2 ^ 24 * (81 / 10 * μ / 2 ^ 24 * g)
      ≤ 1013 / 100 * μ / 2 ^ 24 * M := by linarith
  refine ha.mulB h la l hl (by linarith) (by linarith) ?_
  linarith

/-- the sum of products for the determinant -/
theorem triple_ap {μ : ℚ} (hμ : Fac (om F) μ) {a b c n1 n2 n3 : F} {a' b' c' n1' n2' n3' M s P g : ℚ} (z : Mags M s P g)
    (ha : Ap (101 / 100 * μ / 2 ^ 24) a a')
    (hb : Ap (101 / 100 * μ / 2 ^ 24) b b') (hc : Ap (101 / 100 * μ / 2 ^ 24) c c') (la : |a'| ≤ s)
    (lb : |b'| ≤ s) (lc : |c'| ≤ s) (h1 : Ap (81 / 10 * μ / 2 ^ 24 * g) n1 n1') (h2 : Ap (81 / 10 * μ / 2 ^ 24 * g) n2 n2')
    (h3 : Ap (81 / 10 * μ / 2 ^ 24 * g) n3 n3') (l1 : |n1'| ≤ 2 * P) (l2 : |n2'| ≤ 2 * P) (l3 : |n3'| ≤ 2 * P) :
    Ap (47 * μ / 2 ^ 24 * M) (FP.add (FP.add (FP.mul a n1) (FP.mul b n2)) (FP.mul c n3))
      (a' * n1' + b' * n2' + c' * n3') ∧ |a' * n1' + b' * n2' + c' * n3'| ≤ 6 * M := by
  have g0' := hμ.pos
  have g1' := hμ.one
  have g2' := hμ.four
  have gm := hμ.mpos
  have M0 := z.M0
  have M1 := z.M1
  obtain ⟨m1, k1⟩ := det_term hμ z ha la h1 l1
  obtain ⟨m2, k2⟩ := det_term hμ z hb lb h2 l2
  obtain ⟨m3, k3⟩ := det_term hμ z hc lc h3 l3
  have k5 : om F * M ≤ μ * M := mul_le_mul_of_nonneg_right g1' (by linarith)
  have k6 : μ * (1 / 2 ^ 24) ≤ μ * M := mul_le_mul_of_nonneg_left M0 gm.le
  have k7 : μ * M ≤ μ := mul_le_of_le_one_right gm.le M1
  have s1 := m1.add m2 (e := 2830 / 100 * μ / 2 ^ 24 * M) (B := 4 * M)
    ((abs_add_le _ _).trans (by linarith)) (by linarith) (by linarith) (by linarith)
  have l : |a' * n1' + b' * n2' + c' * n3'| ≤ 6 * M := (abs_add_three _ _ _).trans (by linarith)
  exact ⟨s1.add m3 l (by linarith) (by linarith) (by linarith), l⟩

/-- a term of a coordinate of the common point -/
theorem coord_term {μ : ℚ} (hμ : Fac (om F) μ) {d n : F} {d' n' M s P g : ℚ} (z : Mags M s P g) (hd : Ap (9 * μ / 2 ^ 24) d d')
    (ld : |d'| ≤ 3 / 2) (lds : |d'| ≤ 3 * s) (h : Ap (81 / 10 * μ / 2 ^ 24 * g) n n') (l : |n'| ≤ 2 * P) :
    Ap (4538 / 100 * μ / 2 ^ 24 * M) (FP.mul d n) (d' * n') ∧ |d' * n'| ≤ 3 * M := by
  obtain ⟨s0, s1, P0, PM, gg0, gg1, gM, sg, M0, M1⟩ := z
  have g0' := hμ.pos
  have g1' := hμ.one
  have g2' := hμ.four
  have g3' := hμ.sq
  have gm := hμ.mpos
  have hl : |d' * n'| ≤ 3 * M := by
    rw [abs_mul]
    calc |d'| * |n'| ≤ 3 / 2 * (2 * P) := mul_le_mul ld l (abs_nonneg _) (by norm_num)
      _ ≤ _ := by linarith
  refine ⟨?_, hl⟩
  have k1 : μ * P ≤ μ * M := mul_le_mul_of_nonneg_left PM gm.le
  have k2 : μ * (s * g) ≤ μ * M := mul_le_mul_of_nonneg_left sg gm.le
  have k3 : μ * (μ * g) ≤ 4 * (μ * g) := mul_le_mul_of_nonneg_right g2' (by positivity)
  have k4 : μ * g ≤ μ * (2 ^ 12 * M) := mul_le_mul_of_nonneg_left gM gm.le
  have k5 : om F * M ≤ μ * M := mul_le_mul_of_nonneg_right g1' (by linarith)
  have k6 : μ * (1 / 2 ^ 24) ≤ μ * M := mul_le_mul_of_nonneg_left M0 gm.le
  have k7 : μ * M ≤ μ := mul_le_of_le_one_right gm.le M1
  have e : 9 * μ / 2 ^ 24 * (2 * P) + 81 / 10 * μ / 2 ^ 24 * g * (3 * s) + 9 * μ / 2 ^ 24 * (81 / 10 * μ / 2 ^ 24 * g)
      ≤ 42375 / 1000 * μ / 2 ^ 24 * M := by linarith
  refine hd.mulB h lds l hl (by linarith) (by linarith) ?_
  linarith

/-- a coordinate of the common point, times the determinant -/
theorem coord_ap {μ : ℚ} (hμ : Fac (om F) μ) {d1 d2 d3 n1 n2 n3 : F} {d1' d2' d3' n1' n2' n3' M s1 s2 s3 P1 P2 P3 w1 w2 w3 : ℚ}
    (z1 : Mags M s1 P1 w1) (z2 : Mags M s2 P2 w2) (z3 : Mags M s3 P3 w3) (h1 : Ap (9 * μ / 2 ^ 24) d1 d1')
    (h2 : Ap (9 * μ / 2 ^ 24) d2 d2') (h3 : Ap (9 * μ / 2 ^ 24) d3 d3') (l1 : |d1'| ≤ 3 / 2) (l2 : |d2'| ≤ 3 / 2)
    (l3 : |d3'| ≤ 3 / 2) (j1 : |d1'| ≤ 3 * s1) (j2 : |d2'| ≤ 3 * s2) (j3 : |d3'| ≤ 3 * s3)
    (g1 : Ap (81 / 10 * μ / 2 ^ 24 * w1) n1 n1') (g2 : Ap (81 / 10 * μ / 2 ^ 24 * w2) n2 n2')
    (g3 : Ap (81 / 10 * μ / 2 ^ 24 * w3) n3 n3') (k1 : |n1'| ≤ 2 * P1) (k2 : |n2'| ≤ 2 * P2) (k3 : |n3'| ≤ 2 * P3) :
    Ap (152 * μ / 2 ^ 24 * M) (FP.sub (FP.sub (FP.mul (FP.neg d1) n1) (FP.mul d2 n2)) (FP.mul d3 n3))
      (-d1' * n1' - d2' * n2' - d3' * n3') := by
  have g0' := hμ.pos
  have g1' := hμ.one
  have g2' := hμ.four
  have gm := hμ.mpos
  have M0 := z1.M0
  have M1 := z1.M1
  obtain ⟨m1, r1⟩ := coord_term hμ z1 h1.neg (by rw [abs_neg]; exact l1) (by rw [abs_neg]; exact j1) g1 k1
  obtain ⟨m2, r2⟩ := coord_term hμ z2 h2 l2 j2 g2 k2
  obtain ⟨m3, r3⟩ := coord_term hμ z3 h3 l3 j3 g3 k3
  have k5 : om F * M ≤ μ * M := mul_le_mul_of_nonneg_right g1' (by linarith)
  have k6 : μ * (1 / 2 ^ 24) ≤ μ * M := mul_le_mul_of_nonneg_left M0 gm.le
  have k7 : μ * M ≤ μ := mul_le_of_le_one_right gm.le M1
  have b2 : |-d1' * n1' - d2' * n2'| ≤ 6 * M := (abs_sub _ _).trans (by linarith)
  have s1 := m1.sub m2 (e := 9680 / 100 * μ / 2 ^ 24 * M) b2 (by linarith) (by linarith) (by linarith)
  exact s1.sub m3 (B := 9 * M) ((abs_sub _ _).trans (by linarith)) (by linarith) (by linarith) (by linarith)

/-- the computed coordinate: `c / det` with rounded `c`, `det`, inverse and product -/
theorem quot_ap {μ : ℚ} (hμ : Fac (om F) μ) {c t : F} {c' det v M : ℚ} (M0 : 1 / 2 ^ 24 ≤ M) (M1 : M ≤ 1)
    (hc : Ap (152 * μ / 2 ^ 24 * M) c c')
    (ht : Ap (47 * μ / 2 ^ 24 * M) t det) (hl : |det| ≤ 6 * M) (hd : μ / 2 ^ 12 ≤ |det| / M) (hv : c' = v * det) (hv1 : |v| ≤ 1) :
    FP.eq t (FP.ofInt 0) = false ∧
      Ap (μ / 2 ^ 16 / (|det| / M)) (FP.mul c (FP.div (FP.ofInt 1) t)) v := by
  obtain ⟨c0, vc, hc0⟩ := hc.finite
  obtain ⟨τ, vt, hτ⟩ := ht.finite
  have g0' := hμ.pos
  have g1' := hμ.one
  have g2' := hμ.four
  have gm := hμ.mpos
  have glo := (fine (F := F)).lo
  have Mp : 0 < M := lt_of_lt_of_le (by norm_num) M0
  rw [le_div_iff₀ Mp] at hd
  have hd1 : 1 / 2 ^ 76 ≤ |det| := by
    refine le_trans ?_ hd
    have : (1 / 2 ^ 52 : ℚ) * (1 / 2 ^ 24) ≤ μ / 2 ^ 12 * M :=
      mul_le_mul (by norm_num at *; linarith) M0 (by norm_num) (by positivity)
    refine le_trans (by norm_num) this
  have hdp : 0 < |det| := lt_of_lt_of_le (by norm_num) hd1
  have k7 : μ * M ≤ μ := mul_le_of_le_one_right gm.le M1
  -- the determinant is not lost
  have hτ1 : 988 / 1000 * |det| ≤ |τ| := by
    have : |det| ≤ |τ| + |τ - det| := by
      calc |det| = |τ - (τ - det)| := by congr 1; ring
        _ ≤ _ := abs_sub _ _
    have : 47 * μ / 2 ^ 24 * M ≤ 12 / 1000 * |det| := by
      have : 47 * μ / 2 ^ 24 * M ≤ 12 / 1000 * (μ / 2 ^ 12 * M) := by
        have : 0 ≤ μ * M := by positivity
        linarith
      linarith
    linarith
  have hτp : 0 < |τ| := by linarith
  have hτ0 : τ ≠ 0 := abs_pos.mp hτp
  refine ⟨?_, ?_⟩
  · rw [eq_eq, vt, ofInt_val (by norm_num)]
    show decide (τ = ((0 : Int) : ℚ)) = false
    simpa using hτ0
  obtain ⟨w, hw⟩ : ∃ w, w = μ * M / |det| := ⟨_, rfl⟩
  have hη : μ / 2 ^ 16 / (|det| / M) = 1 / 2 ^ 16 * w := by
    rw [hw]; field_simp
  -- the exact quotient of the computed values
  have hq : |c0 / τ - v| ≤ 202 / 2 ^ 24 * w := by
    have e : c0 / τ - v = ((c0 - c') - v * (τ - det)) / τ := by
      rw [hv]; field_simp; ring
    have e2 : 202 / 2 ^ 24 * w = (202 / 2 ^ 24 * (μ * M)) / |det| := by rw [hw]; ring
    rw [e, e2, abs_div, div_le_div_iff₀ hτp hdp]
    have n : |(c0 - c') - v * (τ - det)| ≤ 199 / 2 ^ 24 * (μ * M) := by
      refine (abs_sub _ _).trans ?_
      rw [abs_mul]
      have : |v| * |τ - det| ≤ 1 * (47 * μ / 2 ^ 24 * M) := mul_le_mul hv1 hτ (abs_nonneg _) (by norm_num)
      linarith
    have hμM : 0 ≤ μ * M := by positivity
    calc _ ≤ 199 / 2 ^ 24 * (μ * M) * |det| := mul_le_mul_of_nonneg_right n hdp.le
      _ ≤ 202 / 2 ^ 24 * (μ * M) * (988 / 1000 * |det|) := by
          have : 199 / 2 ^ 24 * (μ * M) ≤ 202 / 2 ^ 24 * (μ * M) * (988 / 1000) := by linarith
          calc _ ≤ 202 / 2 ^ 24 * (μ * M) * (988 / 1000) * |det| := mul_le_mul_of_nonneg_right this hdp.le
            _ = _ := by ring
      _ ≤ _ := by apply mul_le_mul_of_nonneg_left hτ1; positivity
  have hdi : w ≤ 2 ^ 12 := by
    rw [hw, div_le_iff₀ hdp]
    calc μ * M = 2 ^ 12 * (μ / 2 ^ 12 * M) := by ring
      _ ≤ _ := by apply mul_le_mul_of_nonneg_left hd; norm_num
  have hdl : om F / 6 ≤ w := by
    rw [hw, div_le_div_iff₀ (by norm_num) hdp]
    have : om F * |det| ≤ μ * (6 * M) := mul_le_mul g1' hl hdp.le (by linarith)
    linarith
  have hqs : 202 / 2 ^ 24 * w ≤ 5 / 100 := by linarith
  have hqa : |c0 / τ| ≤ 105 / 100 := by
    calc |c0 / τ| = |v + (c0 / τ - v)| := by congr 1; ring
      _ ≤ |v| + |c0 / τ - v| := abs_add_le _ _
      _ ≤ _ := by linarith
  -- the inverse
  have hiv : |1 / τ| ≤ 2 ^ 77 := by
    rw [abs_div, abs_one, div_le_iff₀ hτp]
    have : (1 : ℚ) ≤ 2 ^ 77 * (988 / 1000 * (1 / 2 ^ 76)) := by norm_num
    have h2 : (988 / 1000 * (1 / 2 ^ 76) : ℚ) ≤ |τ| := by linarith
    calc (1 : ℚ) ≤ 2 ^ 77 * (988 / 1000 * (1 / 2 ^ 76)) := this
      _ ≤ _ := by apply mul_le_mul_of_nonneg_left h2; norm_num
  have hτ6 : |τ| ≤ 7 := by
    have : |τ| ≤ |det| + |τ - det| := by
      calc |τ| = |det + (τ - det)| := by congr 1; ring
        _ ≤ _ := abs_add_le _ _
    linarith
  have hil : 1 / 7 ≤ |1 / τ| := by
    rw [abs_div, abs_one, div_le_div_iff₀ (by norm_num) hτp]
    linarith
  obtain ⟨ι, hdiv, hι⟩ : ∃ ι, val (FP.div (FP.ofInt 1 : F) t) = .fin ι ∧
      |ι - 1 / τ| ≤ 61 / 10 * om F * |1 / τ| / 2 ^ 24 := by
    have gle := om_le (F := F)
    obtain ⟨q, q1, q2⟩ := div_near (okN (ns_ofInt (F := F) 1) ht.1) val_one vt hτ0 (le_trans (by norm_num) hil)
      (hiv.trans (by norm_num))
    have q2' : |q - 1 / τ| ≤ 5 * om F * |1 / τ| / 2 ^ 24 := q2.trans (le_of_eq (by ring))
    have h5 : om F * |1 / τ| ≤ 1 * |1 / τ| := mul_le_mul_of_nonneg_right gle (abs_nonneg _)
    have hqb : |q| ≤ 101 / 100 * |1 / τ| := by
      have : |q| ≤ |1 / τ| + |q - 1 / τ| := by
        calc |q| = |1 / τ + (q - 1 / τ)| := by congr 1; ring
          _ ≤ _ := abs_add_le _ _
      linarith
    refine ⟨_, by rw [q1]; exact small (hqb.trans (by linarith)), ?_⟩
    have h6 := (fine (F := F)).ferr q
    have h7 : om F * |q| ≤ om F * (101 / 100 * |1 / τ|) := mul_le_mul_of_nonneg_left hqb g0'.le
    have h8 : om F * (1 / 7) ≤ om F * |1 / τ| := mul_le_mul_of_nonneg_left hil g0'.le
    calc |rnd (fmt F) q - 1 / τ| = |(rnd (fmt F) q - q) + (q - 1 / τ)| := by congr 1; ring
      _ ≤ _ := abs_add_le _ _
      _ ≤ _ := by norm_num at *; linarith
  -- the product before rounding
  have hprod : |c0 * ι - c0 / τ| ≤ 641 / 100 * om F / 2 ^ 24 := by
    have e : c0 * ι - c0 / τ = c0 * (ι - 1 / τ) := by ring
    rw [e, abs_mul]
    have a1 : |c0| * |ι - 1 / τ| ≤ |c0| * (61 / 10 * om F * |1 / τ| / 2 ^ 24) :=
      mul_le_mul_of_nonneg_left hι (abs_nonneg _)
    have a2 : |c0| * (61 / 10 * om F * |1 / τ| / 2 ^ 24) = 61 / 10 * (om F * |c0 / τ|) / 2 ^ 24 := by
      rw [show c0 / τ = c0 * (1 / τ) by ring, abs_mul]; ring
    have a4 : om F * |c0 / τ| ≤ om F * (105 / 100) := mul_le_mul_of_nonneg_left hqa g0'.le
    rw [a2] at a1
    linarith
  have hE : |c0 * ι - v| ≤ 641 / 100 * om F / 2 ^ 24 + 202 / 2 ^ 24 * w := by
    calc _ = |(c0 * ι - c0 / τ) + (c0 / τ - v)| := by congr 1; ring
      _ ≤ _ := (abs_add_le _ _).trans (add_le_add hprod hq)
  rw [hη]
  obtain ⟨r1, r2⟩ := (fine (F := F)).fround (v := c0 * ι) (x := v) (B := 1)
    (E := 641 / 100 * om F / 2 ^ 24 + 202 / 2 ^ 24 * w) (e := 1 / 2 ^ 16 * w) hE hv1 (by norm_num) (by
      linarith) (by linarith)
  have oi := okN hc.1 (full_ns (div_full (okN (ns_ofInt (F := F) 1) ht.1)))
  refine ⟨full_ns (mul_full oi), ⟨_, val_mul oi vc hdiv r1⟩, fun w hw => ?_⟩
  rcases rd_mul oi vc hdiv r1 hw with rfl | rfl
  · exact hE.trans (by linarith)
  · exact r2

/-- the computed vertex -/
theorem vertex_ap {μ : ℚ} (hμ : Fac (om F) μ) {h1 h2 h3 : Plane F} {h1' h2' h3' : Plane ℚ} (a1 : PlaneAp μ h1 h1')
    (a2 : PlaneAp μ h2 h2') (a3 : PlaneAp μ h3 h3') {v : Pt ℚ} (e1 : h1'.eval v = 0) (e2 : h2'.eval v = 0) (e3 : h3'.eval v = 0)
    (hv : InUnitBox v) (hd : μ / 2 ^ 12 ≤ sharp h1' h2' h3') :
    Ap (blur μ h1' h2' h3') (intersect h1 h2 h3).x v.x ∧
    Ap (blur μ h1' h2' h3') (intersect h1 h2 h3).y v.y ∧
    Ap (blur μ h1' h2' h3') (intersect h1 h2 h3).z v.z ∧ sharp h1' h2' h3' ≤ 6 := by
  have hM : spread h1' h2' h3' ≤ 1 := max_le (mul_le_one₀ a1.size h2'.size_pos.le a2.size)
    (max_le (mul_le_one₀ a1.size h3'.size_pos.le a3.size) (mul_le_one₀ a2.size h3'.size_pos.le a3.size))
  have f12 := spread_fg h1' h2' h3'
  have f13 := spread_fh h1' h2' h3'
  have f23 := spread_gh h1' h2' h3'
  have c : ∀ {x y M : ℚ}, x * y ≤ M → y * x ≤ M := fun h => by rw [mul_comm]; exact h
  have z1 : Mags (spread h1' h2' h3') h1'.size (h2'.size * h3'.size) ((h2'.size + h3'.size) / 2) :=
    .of h1'.size_lo a1.size h2'.size_lo a2.size h3'.size_lo a3.size f12 f13 f23 hM
  have z2 : Mags (spread h1' h2' h3') h2'.size (h3'.size * h1'.size) ((h3'.size + h1'.size) / 2) :=
    .of h2'.size_lo a2.size h3'.size_lo a3.size h1'.size_lo a1.size f23 (c f12) (c f13) hM
  have z3 : Mags (spread h1' h2' h3') h3'.size (h1'.size * h2'.size) ((h1'.size + h2'.size) / 2) :=
    .of h3'.size_lo a3.size h1'.size_lo a1.size h2'.size_lo a2.size (c f13) (c f23) f12 hM
  have cr : ∀ {f g : Plane F} {f' g' : Plane ℚ}, PlaneAp μ f f' → PlaneAp μ g g' →
      (Ap (81 / 10 * μ / 2 ^ 24 * ((f'.size + g'.size) / 2)) (FP.sub (FP.mul f.b g.c) (FP.mul g.b f.c)) (f'.b * g'.c - g'.b * f'.c) ∧
        |f'.b * g'.c - g'.b * f'.c| ≤ 2 * (f'.size * g'.size)) ∧
      (Ap (81 / 10 * μ / 2 ^ 24 * ((f'.size + g'.size) / 2)) (FP.add (FP.mul (FP.neg f.a) g.c) (FP.mul g.a f.c)) (-f'.a * g'.c + g'.a * f'.c) ∧
        |-f'.a * g'.c + g'.a * f'.c| ≤ 2 * (f'.size * g'.size)) ∧
      (Ap (81 / 10 * μ / 2 ^ 24 * ((f'.size + g'.size) / 2)) (FP.sub (FP.mul f.a g.b) (FP.mul g.a f.b)) (f'.a * g'.b - g'.a * f'.b) ∧
        |f'.a * g'.b - g'.a * f'.b| ≤ 2 * (f'.size * g'.size)) := by
    intro f g f' g' af ag
    obtain ⟨x1, -, x2, -⟩ := cross_ap hμ af.b af.c ag.b ag.c f'.abs_b f'.abs_c g'.abs_b g'.abs_c f'.size_lo af.size g'.size_lo ag.size
    obtain ⟨-, y1, -, y2⟩ := cross_ap hμ af.a af.c ag.a ag.c f'.abs_a f'.abs_c g'.abs_a g'.abs_c f'.size_lo af.size g'.size_lo ag.size
    obtain ⟨w1, -, w2, -⟩ := cross_ap hμ af.a af.b ag.a ag.b f'.abs_a f'.abs_b g'.abs_a g'.abs_b f'.size_lo af.size g'.size_lo ag.size
    exact ⟨⟨x1, x2⟩, ⟨y1, y2⟩, w1, w2⟩
  obtain ⟨⟨p23a, l23a⟩, ⟨p23b, l23b⟩, p23c, l23c⟩ := cr a2 a3
  obtain ⟨⟨p31a, l31a⟩, ⟨p31b, l31b⟩, p31c, l31c⟩ := cr a3 a1
  obtain ⟨⟨p12a, l12a⟩, ⟨p12b, l12b⟩, p12c, l12c⟩ := cr a1 a2
  obtain ⟨t1, t2⟩ := triple_ap hμ z1 a1.a a1.b a1.c h1'.abs_a h1'.abs_b h1'.abs_c p23a p23b p23c l23a l23b l23c
  have hdet : h1'.a * (h2'.b * h3'.c - h3'.b * h2'.c) + h1'.b * (-h2'.a * h3'.c + h3'.a * h2'.c)
      + h1'.c * (h2'.a * h3'.b - h3'.a * h2'.b) = det3 h1' h2' h3' := by simp only [det3]; ring
  rw [hdet] at t1 t2
  have c0 := coord_ap hμ z1 z2 z3 a1.d a2.d a3.d a1.ld a2.ld a3.ld a1.lds a2.lds a3.lds p23a p31a p12a l23a l31a l12a
  have c1 := coord_ap hμ z1 z2 z3 a1.d a2.d a3.d a1.ld a2.ld a3.ld a1.lds a2.lds a3.lds p23b p31b p12b l23b l31b l12b
  have c2 := coord_ap hμ z1 z2 z3 a1.d a2.d a3.d a1.ld a2.ld a3.ld a1.lds a2.lds a3.lds p23c p31c p12c l23c l31c l12c
  simp only [Plane.eval] at e1 e2 e3
  obtain ⟨vx, vy, vz⟩ := hv
  obtain ⟨q1, q2⟩ := quot_ap hμ z1.M0 z1.M1 c0 t1 t2 hd (v := v.x) (by
    simp only [det3]
    linear_combination -(h2'.b * h3'.c - h3'.b * h2'.c) * e1 - (h3'.b * h1'.c - h1'.b * h3'.c) * e2
      - (h1'.b * h2'.c - h2'.b * h1'.c) * e3) (abs_unit vx)
  obtain ⟨-, q3⟩ := quot_ap hμ z1.M0 z1.M1 c1 t1 t2 hd (v := v.y) (by
    simp only [det3]
    linear_combination -(-h2'.a * h3'.c + h3'.a * h2'.c) * e1 - (-h3'.a * h1'.c + h1'.a * h3'.c) * e2
      - (-h1'.a * h2'.c + h2'.a * h1'.c) * e3) (abs_unit vy)
  obtain ⟨-, q4⟩ := quot_ap hμ z1.M0 z1.M1 c2 t1 t2 hd (v := v.z) (by
    simp only [det3]
    linear_combination -(h2'.a * h3'.b - h3'.a * h2'.b) * e1 - (h3'.a * h1'.b - h1'.a * h3'.b) * e2
      - (h1'.a * h2'.b - h2'.a * h1'.b) * e3) (abs_unit vz)
  simp only [intersect, q1, Bool.false_eq_true, if_false]
  refine ⟨q2, q3, q4, ?_⟩
  unfold sharp
  rw [div_le_iff₀ (spread_pos _ _ _)]
  exact t2

/-- the side of a bisector on which a vertex lies -/
theorem dot_ap {μ : ℚ} (hμ : Fac (om F) μ) {x y z : F} {v : Pt ℚ} {η : ℚ} (hx : Ap η x v.x) (hy : Ap η y v.y) (hz : Ap η z v.z)
    (hη : 42 * μ / 2 ^ 24 ≤ η) (hη1 : η ≤ 1 / 16) (hv : InUnitBox v) {b : Plane F} {b' : Plane ℚ}
    (hb : PlaneAp μ b b') : Ap (301 / 100 * (η * b'.size) + 28 * μ / 2 ^ 24) (dot x y z (FP.ofInt 1) b.a b.b b.c b.d) (b'.eval v) := by
  obtain ⟨vx, vy, vz⟩ := hv
  have g0' := hμ.pos
  have g1' := hμ.one
  have g2' := hμ.four
  have m : ∀ {s t : ℚ}, |s| ≤ 1 → |t| ≤ 1 → |s * t| ≤ 1 := fun hs ht => by
    rw [abs_mul]; exact mul_le_one₀ hs (abs_nonneg _) ht
  have η0 : 0 < η := lt_of_lt_of_le (by have := hμ.mpos; positivity) hη
  have sz := hb.size
  have s0 := b'.size_pos
  have gm := hμ.mpos
  have ml : ∀ {s t : F} {s' t' : ℚ}, Ap η s s' → Ap (101 / 100 * μ / 2 ^ 24) t t' → |s'| ≤ 1 →
      |t'| ≤ b'.size → Ap (1001 / 1000 * (η * b'.size) + 22 / 10 * μ / 2 ^ 24) (FP.mul s t) (s' * t') := by
    intro s t s' t' hs ht ls lt
    have hq : η * (101 / 100 * μ / 2 ^ 24) ≤ 1 / 16 * (101 / 100 * μ / 2 ^ 24) :=
      mul_le_mul_of_nonneg_right hη1 (by positivity)
    have h1 : om F * b'.size ≤ om F := mul_le_of_le_one_right g0'.le sz
    have h2 : η * b'.size ≤ η := mul_le_of_le_one_right η0.le sz
    have h3 : 0 < η * b'.size := mul_pos η0 s0
    refine hs.mul ht ls lt (by linarith) ?_ ?_
    · linarith
    · linarith
  have h2 : η * b'.size ≤ η := mul_le_of_le_one_right η0.le sz
  have h3 : 0 < η * b'.size := mul_pos η0 s0
  have m1 := ml hx hb.a (abs_unit vx) b'.abs_a
  have m2 := ml hy hb.b (abs_unit vy) b'.abs_b
  have m3 := ml hz hb.c (abs_unit vz) b'.abs_c
  have m4 : Ap (106 / 10 * μ / 2 ^ 24) (FP.mul (FP.ofInt 1) b.d) (((1 : Int) : ℚ) * b'.d) :=
    (ap_ofInt 1 (by norm_num)).mul hb.d (B1 := 1) (by norm_num) hb.ld (by norm_num) (by linarith) (by linarith)
  have l1 := m (abs_unit vx) hb.la
  have l2 := m (abs_unit vy) hb.lb
  have l3 := m (abs_unit vz) hb.lc
  have l4 : |((1 : Int) : ℚ) * b'.d| ≤ 3 / 2 := by simpa using hb.ld
  have s1 := m1.add m2 (e := 2003 / 1000 * (η * b'.size) + 66 / 10 * μ / 2 ^ 24) (B := 2) ((abs_add_le _ _).trans (by linarith))
    (by norm_num) (by linarith) (by linarith)
  have b3 : |v.x * b'.a + v.y * b'.b + v.z * b'.c| ≤ 3 := (abs_add_three _ _ _).trans (by linarith)
  have s2 := s1.add m3 (e := 3006 / 1000 * (η * b'.size) + 121 / 10 * μ / 2 ^ 24) (B := 3) b3
    (by norm_num) (by linarith) (by linarith)
  have s3 := s2.add m4 (e := 301 / 100 * (η * b'.size) + 28 * μ / 2 ^ 24) (B := 9 / 2) ((abs_add_le _ _).trans (by linarith))
    (by norm_num) (by linarith) (by linarith)
  have e : v.x * b'.a + v.y * b'.b + v.z * b'.c + ((1 : Int) : ℚ) * b'.d = b'.eval v := by
    simp only [Plane.eval]; push_cast; ring
  rw [e] at s3
  exact s3

/-- squared distance of a vertex from the point of the cell, as computed -/
def rad (p : Pt F) (x y z : F) : F :=
  FP.add (FP.add (square (FP.sub p.x x)) (square (FP.sub p.y y))) (square (FP.sub p.z z))

/-- the distance of `v` from `p` along the axis where it is greatest -/
def reach (p v : Pt ℚ) : ℚ := max |p.x - v.x| (max |p.y - v.y| |p.z - v.z|)

theorem slack_eq (m b : ℚ) (p v : Pt ℚ) : slack m b p v = 27 * (b * (reach p v + b)) + m / 2 ^ 18 := by
  unfold slack reach; ring

theorem rad_ap {μ : ℚ} (hμ : Fac (om F) μ) {x y z : F} {v p p' : Pt ℚ} {η : ℚ} (hx : Ap η x v.x) (hy : Ap η y v.y) (hz : Ap η z v.z)
    (hη : 42 * μ / 2 ^ 24 ≤ η) (hη1 : η ≤ 1 / 16) (hv : InUnitBox v) (hp : InUnitBox p) (ap : PtAp (om F) μ p' p) :
    Ap (65 / 10 * (η * (reach p v + η))) (rad (toS p') x y z) (sqDist p v) ∧
      ∀ n, val (rad (toS p') x y z) = .fin n → rnd (fmt F) n = n := by
  obtain ⟨vx, vy, vz⟩ := hv
  obtain ⟨px, py, pz⟩ := hp
  have g0' := hμ.pos
  have g1' := hμ.one
  have g2' := hμ.four
  have gm := hμ.mpos
  have glo := (fine (F := F)).lo
  have r1 : |p.x - v.x| ≤ reach p v := le_max_left _ _
  have r2 : |p.y - v.y| ≤ reach p v := (le_max_left _ _).trans (le_max_right _ _)
  have r3 : |p.z - v.z| ≤ reach p v := (le_max_right _ _).trans (le_max_right _ _)
  have hr0 : 0 ≤ reach p v := (abs_nonneg _).trans r1
  have hr1 : reach p v ≤ 1 := max_le (abs_sub_unit px vx) (max_le (abs_sub_unit py vy) (abs_sub_unit pz vz))
  generalize reach p v = r at *
  have η0 : 0 < η := lt_of_lt_of_le (by positivity) hη
  have k1 : om F * (r * r) ≤ 2 ^ 24 / 42 * (η * r) := by
    have h1 : om F * (r * r) ≤ om F * r := mul_le_mul_of_nonneg_left (mul_le_of_le_one_right hr0 hr1) g0'.le
    have h2 : om F * r ≤ (2 ^ 24 / 42 * η) * r := mul_le_mul_of_nonneg_right (by linarith) hr0
    linarith
  have k2 : om F / 2 ^ 88 ≤ η * η := by
    have : om F / 2 ^ 24 * (1 / 2 ^ 64) ≤ η * η :=
      mul_le_mul (by linarith) (by norm_num at *; linarith) (by norm_num) η0.le
    linarith
  have k3 : η * r ≤ η := mul_le_of_le_one_right η0.le hr1
  have k4 : η * η ≤ η * (1 / 16) := mul_le_mul_of_nonneg_left hη1 η0.le
  have k5 : 0 ≤ η * r := mul_nonneg η0.le hr0
  have k6 : 0 < η * η := mul_pos η0 η0
  have hrr : r * r ≤ 1 := mul_le_one₀ hr1 hr0 hr1
  have sq : ∀ {s : F} {s' t t' : ℚ}, Ap η s s' → 0 ≤ s' ∧ s' ≤ 1 → 0 ≤ t ∧ t ≤ 1 → |t - s'| ≤ r →
      |t' - t| ≤ (μ - om F) / 2 / 2 ^ 24 →
      Ap (21 / 10 * (η * (r + η))) (square (FP.sub (emb (.fin t')) s)) ((t - s') * (t - s')) ∧ |(t - s') * (t - s')| ≤ r * r := by
    intro s s' t t' hs ls lt lr et
    have at' : Ap ((μ - om F) / 2 / 2 ^ 24) (emb (.fin t') : F) t := ap_near et
    have l := abs_sub_unit lt ls
    have d := at'.sub hs (e := 103 / 100 * η) l (by norm_num) (by linarith)
      (by linarith)
    refine ⟨d.mul d lr lr (by linarith) ?_ ?_, ?_⟩
    · linarith
    · linarith
    · rw [abs_mul]; exact mul_le_mul lr lr (abs_nonneg _) hr0
  obtain ⟨m1, l1⟩ := sq hx vx px r1 ap.x
  obtain ⟨m2, l2⟩ := sq hy vy py r2 ap.y
  obtain ⟨m3, l3⟩ := sq hz vz pz r3 ap.z
  have s1 := m1.add m2 (e := 426 / 100 * (η * (r + η))) (B := 2 * (r * r)) ((abs_add_le _ _).trans (by linarith))
    (by linarith) (by linarith) (by linarith)
  have s2 := s1.add m3 (e := 65 / 10 * (η * (r + η))) (B := 3 * (r * r)) ((abs_add_three _ _ _).trans (by linarith))
    (by linarith) (by linarith) (by linarith)
  have e : (p.x - v.x) * (p.x - v.x) + (p.y - v.y) * (p.y - v.y) + (p.z - v.z) * (p.z - v.z)
      = sqDist p v := by simp only [sqDist]; ring
  rw [e] at s2
  refine ⟨s2, fun n hn => ?_⟩
  obtain ⟨a, ha, -⟩ := s1.finite
  obtain ⟨b, hb, -⟩ := m3.finite
  exact add_isFl (okN s1.1 m3.1) ha hb hn

/-- the radius in floats is exactly the larger of the two values -/
theorem srUpdate_val {p : Pt F} {x y z sr : F} {s n : ℚ} (nn : Ns (rad p x y z)) (ns : Ns sr) (hn : val (rad p x y z) = .fin n) (hnf : rnd (fmt F) n = n)
    (hsr : val sr = .fin s) (hs : rnd (fmt F) s = s) (ls : |s| ≤ 2 ^ 100) (ln : |n| ≤ 2 ^ 100) :
    val (srUpdate p x y z sr) = .fin (max s n) ∧ rnd (fmt F) (max s n) = max s n ∧ |max s n| ≤ 2 ^ 100 ∧ Ns (srUpdate p x y z sr) := by
  have b := blend' ns nn hsr hn ls ln (!decide (s < n))
  have e : FP.lt sr (rad p x y z) = decide (s < n) := by rw [lt_eq, hsr, hn]; rfl
  have hv : val (srUpdate p x y z sr) = .fin (rnd (fmt F) (if (!decide (s < n)) = true then s else n)) := by
    rw [← b, Bool.not_not, ← e]; rfl
  have hns : Ns (srUpdate p x y z sr) := full_ns (add_full (okL _ (mul_full (okN (ns_ofBool _) ns))))
  rw [hv]
  by_cases h : s < n
  · rw [max_eq_right h.le]
    refine ⟨?_, hnf, ln, hns⟩
    simp only [h, decide_true, Bool.not_true, Bool.false_eq_true, if_false, hnf]
  · have h' := not_lt.mp h
    rw [max_eq_left h']
    refine ⟨?_, hs, ls, hns⟩
    simp only [h, decide_false, Bool.not_false, if_true, hs]

theorem radiusOf_val {P : List (Plane F)} {p : Pt F} : ∀ {vs : List Tri} {n : Tri → ℚ} {sr : F} {s : ℚ},
    (∀ t ∈ vs, val (rad p (vtx P t).x (vtx P t).y (vtx P t).z) = .fin (n t) ∧ |n t| ≤ 2 ^ 100 ∧ rnd (fmt F) (n t) = n t ∧
      Ns (rad p (vtx P t).x (vtx P t).y (vtx P t).z)) →
    Ns sr → val sr = .fin s → rnd (fmt F) s = s → |s| ≤ 2 ^ 100 →
    val (radiusOf P p vs sr) = .fin ((vs.map n).foldl max s) ∧ |(vs.map n).foldl max s| ≤ 2 ^ 100 ∧
      Ns (radiusOf P p vs sr) := by
  intro vs
  induction vs with
  | nil => intro n sr s _ hn h _ hs; exact ⟨h, hs, hn⟩
  | cons t vs ih =>
    intro n sr s h hn hv hs ls
    obtain ⟨h1, h2, h3, h4⟩ := h t List.mem_cons_self
    obtain ⟨u1, u2, u3, u4⟩ := srUpdate_val h4 hn h1 h3 hv hs ls h2
    have := ih (n := n) (fun t ht => h t (List.mem_cons_of_mem _ ht)) u4 u1 u2 u3
    unfold radiusOf at this ⊢
    simp only [List.map_cons, List.foldl_cons]
    exact this

/-- what is needed of one vertex: it is computed up to `η`, and it is clear on which side it is -/
structure TriMargin (μ : ℚ) (P : List (Plane F)) (p q v : Pt ℚ) (t : Tri) (η : ℚ) : Prop where
  lo : 42 * μ / 2 ^ 24 ≤ η
  hi : η ≤ 1 / 16
  box : InUnitBox v
  x : Ap η (vtx P t).x v.x
  y : Ap η (vtx P t).y v.y
  z : Ap η (vtx P t).z v.z
  cut : 8 * η * span p q < |sqDist v p - sqDist v q|
  cut2 : μ / 2 ^ 16 < |sqDist v p - sqDist v q|

theorem isCut_eq {μ : ℚ} (hμ : Fac (om F) μ) {P : List (Plane F)} {p q v p' q' : Pt ℚ} {t : Tri} {η : ℚ} (h : TriMargin μ P p q v t η)
    (hp : InUnitBox p) (hq : InUnitBox q) (ap : PtAp (om F) μ p' p) (aq : PtAp (om F) μ q' q) :
    isCut P (bisect (toS q') (toS p')) t = decide (0 < (bisect q p).eval v) := by
  obtain ⟨d, hd, he⟩ := (dot_ap hμ h.x h.y h.z h.lo h.hi h.box (planeAp_bisect (F := F) hμ hp hq ap aq)).finite
  have hw : (vtx P t).w = FP.ofInt 1 := rfl
  unfold isCut
  rw [hw, lt_eq, hd, ofInt_val (by norm_num)]
  show decide (((0 : Int) : ℚ) < d) = _
  rw [decide_eq_decide]
  have hc := h.cut
  have hc2 := h.cut2
  rw [show (bisect q p).size = span p q by rw [bisect_bisectorPlane]; rfl] at he
  rw [bisect_eval] at he ⊢
  have he' := abs_le.mp he
  have hlo : 0 < η := lt_of_lt_of_le (by have := hμ.mpos; positivity) h.lo
  push_cast
  have h3 : 0 < η * span p q := mul_pos hlo (span_pos p q)
  rcases lt_or_ge (sqDist v p - sqDist v q) 0 with hn | hn
  · rw [abs_of_neg hn] at hc hc2
    constructor <;> intro g <;> linarith [he'.1, he'.2]
  · rw [abs_of_nonneg hn] at hc hc2
    constructor <;> intro g <;> norm_num at * <;> linarith [he'.1, he'.2]

theorem srReached_sgl {μ : ℚ} (hμ : Fac (om F) μ) {P : List (Plane F)} {P' : List (Plane ℚ)} {p q p' q' : Pt ℚ}
    (hp : InUnitBox p) (hq : InUnitBox q) (hp' : InUnitBox p') (hq' : InUnitBox q') (ap : PtAp (om F) μ p' p)
    (aq : PtAp (om F) μ q' q) {vs : List Tri} (hne : vs ≠ [])
    (h : ∀ t ∈ vs, ∃ η, TriMargin μ P p q (vtx P' t).pt t η)
    (hrad : (∀ t ∈ vs, ∃ η, TriMargin μ P p q (vtx P' t).pt t η ∧
        slack μ η p (vtx P' t).pt < sqDist p q - 4 * sqDist p (vtx P' t).pt) ∨
      ∃ t ∈ vs, ∃ η, TriMargin μ P p q (vtx P' t).pt t η ∧
        slack μ η p (vtx P' t).pt < 4 * sqDist p (vtx P' t).pt - sqDist p q) :
    srReached (toS p') (toS q') (radiusOf P (toS p') vs (FP.ofInt 0))
      = srReached p q (radiusOf P' p vs (FP.ofInt 0)) := by
  obtain ⟨d1, d2, d3⟩ := hp'.diff hq'
  obtain ⟨r, hr, hre⟩ := getDistance_near (F := F) d1 d2 d3
  have g0' := hμ.pos
  have g1' := hμ.one
  have g2' := hμ.four
  have hR := hp.sqDist_le hq
  have hR0 := sqDist_nonneg p q
  have hre' : |r - sqDist p q| ≤ (19 * om F + 7 * (μ - om F)) / 2 ^ 24 := by
    unfold Near at hre
    have h3 := hp'.sqDist_le hq'
    have h4 := PtAp.dist hμ aq ap
    have h4 : |sqDist p' q' - sqDist p q| ≤ 7 * (μ - om F) / 2 ^ 24 := h4.trans
      (mul_le_of_le_one_right (div_nonneg (by linarith) (by norm_num)) (span_le_one hq hp))
    have h5 : om F * sqDist p' q' ≤ om F * 3 := mul_le_mul_of_nonneg_left h3 g0'.le
    have e6 : 6 * om F / 2 ^ 24 * sqDist p' q' = 6 * (om F * sqDist p' q') / 2 ^ 24 := by ring
    rw [e6] at hre
    calc |r - sqDist p q| = |(r - sqDist p' q') + (sqDist p' q' - sqDist p q)| := by congr 1; ring
      _ ≤ _ := (abs_add_le _ _).trans (by linarith)
  have hre' := abs_le.mp hre'
  -- the computed values
  have hn : ∀ t ∈ vs, ∃ n, val (rad (toS p') (vtx P t).x (vtx P t).y (vtx P t).z) = .fin n ∧ (|n| ≤ 2 ^ 100 ∧ rnd (fmt F) n = n ∧ Ns (rad (toS p') (vtx P t).x (vtx P t).y (vtx P t).z)) ∧
      (∀ η, TriMargin μ P p q (vtx P' t).pt t η → slack μ η p (vtx P' t).pt < sqDist p q - 4 * sqDist p (vtx P' t).pt →
        rnd (fmt F) (4 * n) < r ∧ 0 < r) ∧
      (∀ η, TriMargin μ P p q (vtx P' t).pt t η → slack μ η p (vtx P' t).pt < 4 * sqDist p (vtx P' t).pt - sqDist p q →
        r ≤ rnd (fmt F) (4 * n)) := by
    intro t ht
    -- one error bound
    have key : ∀ η, TriMargin μ P p q (vtx P' t).pt t η → ∃ n,
        val (rad (toS p') (vtx P t).x (vtx P t).y (vtx P t).z) = .fin n ∧ (|n| ≤ 2 ^ 100 ∧ rnd (fmt F) n = n ∧ Ns (rad (toS p') (vtx P t).x (vtx P t).y (vtx P t).z)) ∧
        (slack μ η p (vtx P' t).pt < sqDist p q - 4 * sqDist p (vtx P' t).pt → rnd (fmt F) (4 * n) < r ∧ 0 < r) ∧
        (slack μ η p (vtx P' t).pt < 4 * sqDist p (vtx P' t).pt - sqDist p q → r ≤ rnd (fmt F) (4 * n)) := by
      intro η hm
      obtain ⟨hra, hfl⟩ := rad_ap hμ hm.x hm.y hm.z hm.lo hm.hi hm.box hp ap
      obtain ⟨n, e1, e2⟩ := hra.finite
      have hfl := hfl n e1
      have hN := hp.sqDist_le hm.box
      have hN0 := sqDist_nonneg p (vtx P' t).pt
      have hlo := hm.lo
      have hhi := hm.hi
      have hr0 : 0 ≤ reach p (vtx P' t).pt := (abs_nonneg _).trans (le_max_left _ _)
      have hr1 : reach p (vtx P' t).pt ≤ 1 := by
        obtain ⟨vx, vy, vz⟩ := hm.box
        obtain ⟨px, py, pz⟩ := hp
        exact max_le (abs_sub_unit px vx) (max_le (abs_sub_unit py vy) (abs_sub_unit pz vz))
      have η0 : 0 < η := lt_of_lt_of_le (by have := hμ.mpos; positivity) hlo
      have k1 : 0 ≤ η * (reach p (vtx P' t).pt + η) := by positivity
      have k2 : η * (reach p (vtx P' t).pt + η) ≤ 1 / 16 * (1 + 1 / 16) :=
        mul_le_mul hhi (by linarith) (by linarith) (by norm_num)
      rw [slack_eq]
      generalize (vtx P' t).pt = v at *
      generalize sqDist p v = N at *
      generalize sqDist p q = R at *
      generalize η * (reach p v + η) = ρ at *
      obtain ⟨-, r2⟩ := (fine (F := F)).fround (v := 4 * n) (x := 4 * N) (E := 26 * ρ) (B := 12)
        (e := 261 / 10 * ρ + 13 * μ / 2 ^ 24) (by
        rw [← mul_sub, abs_mul, abs_of_pos (by norm_num : (0 : ℚ) < 4)]; linarith) (by
        rw [abs_of_nonneg (by linarith)]; linarith) (by norm_num) (by linarith) (by norm_num at *; linarith)
      have e2' := abs_le.mp e2
      have r2' := abs_le.mp r2
      refine ⟨n, e1, ⟨?_, hfl, hra.1⟩, ?_, ?_⟩
      · have : |n| ≤ 100 := by rw [abs_le]; constructor <;> linarith [e2'.1, e2'.2]
        exact this.trans (by norm_num)
      · intro g
        constructor <;> norm_num at * <;> linarith [hre'.1, hre'.2, r2'.1, r2'.2]
      · intro g
        norm_num at *
        linarith [hre'.1, hre'.2, r2'.1, r2'.2]
    obtain ⟨η, hm⟩ := h t ht
    obtain ⟨n, e1, e2, -⟩ := key η hm
    refine ⟨n, e1, e2, ?_, ?_⟩
    · intro η' hm'
      obtain ⟨n', f1, -, f3, -⟩ := key η' hm'
      rw [e1] at f1; cases f1
      exact f3
    · intro η' hm'
      obtain ⟨n', f1, -, -, f3⟩ := key η' hm'
      rw [e1] at f1; cases f1
      exact f3
  have hex : ∃ n : Tri → ℚ, ∀ t ∈ vs, val (rad (toS p') (vtx P t).x (vtx P t).y (vtx P t).z) = .fin (n t) ∧
      (|n t| ≤ 2 ^ 100 ∧ rnd (fmt F) (n t) = n t ∧ Ns (rad (toS p') (vtx P t).x (vtx P t).y (vtx P t).z)) ∧
      (∀ η, TriMargin μ P p q (vtx P' t).pt t η → slack μ η p (vtx P' t).pt < sqDist p q - 4 * sqDist p (vtx P' t).pt →
        rnd (fmt F) (4 * n t) < r ∧ 0 < r) ∧
      (∀ η, TriMargin μ P p q (vtx P' t).pt t η → slack μ η p (vtx P' t).pt < 4 * sqDist p (vtx P' t).pt - sqDist p q →
        r ≤ rnd (fmt F) (4 * n t)) := by
    classical
    refine ⟨fun t => if ht : t ∈ vs then (hn t ht).choose else 0, fun t ht => ?_⟩
    simp only [dif_pos ht]
    exact (hn t ht).choose_spec
  obtain ⟨n, hn⟩ := hex
  have o0 : val (FP.ofInt 0 : F) = .fin 0 := by rw [ofInt_val (by norm_num)]; norm_num
  have o4 : val (FP.ofInt 4 : F) = .fin 4 := by rw [ofInt_val (by norm_num)]; norm_num
  have q0 : (FP.ofInt 0 : ℚ) = 0 := by simp [FP.ofInt]
  obtain ⟨m1, m2, m3⟩ := radiusOf_val (P := P) (p := toS p') (vs := vs) (n := n) (s := 0)
    (fun t ht => ⟨(hn t ht).1, (hn t ht).2.1⟩) (ns_ofInt 0) o0 (rnd_zero _) (by simp)
  have lhs : srReached (toS p') (toS q') (radiusOf P (toS p') vs (FP.ofInt 0))
      = decide (rnd (fmt F) (4 * (vs.map n).foldl max 0) < r) := by
    show FP.lt (FP.mul (FP.ofInt 4) (radiusOf P (toS p') vs (FP.ofInt 0))) (getDistance (toS p') (toS q')) = _
    have : val (FP.mul (FP.ofInt 4) (radiusOf P (toS p') vs (FP.ofInt 0)))
        = .fin (rnd (fmt F) (4 * (vs.map n).foldl max 0)) := by
      have m4 : |4 * (vs.map n).foldl max 0| ≤ 2 ^ 120 := by
        rw [abs_mul, abs_of_pos (by norm_num : (0 : ℚ) < 4)]; norm_num at *; linarith
      rw [mul_val (okN (ns_ofInt 4) m3), o4, m1]
      exact wide.small m4
    rw [lt_eq, this, hr]
    rfl
  rw [lhs, Bool.eq_iff_iff, decide_eq_true_eq, srReached_eq, radiusOf_exact, q0]
  have mono : Monotone fun x : ℚ => rnd (fmt F) (4 * x) := fun x y hxy => wide.mono (by linarith)
  have mono' : Monotone fun x : ℚ => 4 * x := fun x y hxy => by simp only; linarith
  have k1 := foldl_max_lt mono r (vs.map n) 0
  have k2 := foldl_max_lt mono' (sqDist p q) (vs.map fun t => sqDist p (vtx P' t).pt) 0
  rw [k1, k2]
  obtain ⟨t0, ht0⟩ := List.exists_mem_of_ne_nil vs hne
  simp only [List.mem_map, forall_exists_index, and_imp, forall_apply_eq_imp_iff₂, mul_zero, rnd_zero]
  rcases hrad with hb | ⟨t, ht, η, hm, ha⟩
  · have g' : ∀ t ∈ vs, 4 * sqDist p (vtx P' t).pt < sqDist p q := fun t ht => by
      obtain ⟨η, hm, hb⟩ := hb t ht
      have := hb.trans' (slack_pos hμ.mpos (le_trans (by have := hμ.mpos; positivity) hm.lo) p _)
      linarith
    constructor
    · intro _
      refine ⟨?_, g'⟩
      have := g' t0 ht0
      have := sqDist_nonneg p (vtx P' t0).pt
      linarith
    · intro _
      refine ⟨?_, fun t ht => ?_⟩
      · obtain ⟨η, hm, hb⟩ := hb t0 ht0
        exact ((hn t0 ht0).2.2.1 η hm hb).2
      · obtain ⟨η, hm, hb⟩ := hb t ht
        exact ((hn t ht).2.2.1 η hm hb).1
  · have h1 := (hn t ht).2.2.2 η hm ha
    have hlo := hm.lo
    constructor
    · rintro ⟨-, g⟩
      exact absurd (g t ht) (not_lt.mpr h1)
    · rintro ⟨-, g⟩
      have := g t ht
      have := ha.trans' (slack_pos hμ.mpos (le_trans (by have := hμ.mpos; positivity) hlo) p _)
      linarith

end Votess.Sgl
