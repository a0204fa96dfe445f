import Verif.Model.Planes
import Verif.Spec.Geometry
import Verif.Model.Exact
import Mathlib.Tactic.Ring
import Mathlib.Tactic.Linarith
import Mathlib.Tactic.FieldSimp
import Mathlib.Tactic.LinearCombination
import Mathlib.Algebra.Order.Ring.Rat
import Mathlib.Data.Rat.Floor
/-!
# C13, C14, C15, C50 — bisectors, intersections, security radius, branch-free selections

Exact arithmetic over any linearly ordered field.
-/
namespace Votess

set_option linter.unusedSectionVars false

variable {K : Type} [Field K] [LinearOrder K] [IsStrictOrderedRing K] [FloorRing K]

/-- The squared distance used by the code is the squared Euclidean distance. -/
theorem getDistance_eq (p q : Pt K) : getDistance p q = sqDist p q := by
  simp only [getDistance, square, sqDist, FP.add, FP.mul, FP.sub]; ring

theorem sqDist_comm (p q : Pt K) : sqDist p q = sqDist q p := by
  simp only [sqDist]; ring

theorem sqDist_nonneg (p q : Pt K) : 0 ≤ sqDist p q := by
  simp only [sqDist]; positivity

theorem bisect_eval (p q x : Pt K) : (bisect p q).eval x = (sqDist x q - sqDist x p) / 2 := by
  simp only [bisect, square, Plane.eval, sqDist, FP.add, FP.mul, FP.sub, FP.neg, FP.div, FP.ofInt]
  push_cast; ring

/-- C13: the plane of `bisect p q` is zero exactly at the points equidistant from both. -/
theorem C13_bisect_zero (p q x : Pt K) :
    (bisect p q).eval x = 0 ↔ sqDist x p = sqDist x q := by
  rw [bisect_eval]; constructor <;> intro h <;> linarith

/-- C13: … positive exactly at the points strictly closer to the first point. -/
theorem C13_bisect_pos (p q x : Pt K) :
    0 < (bisect p q).eval x ↔ sqDist x p < sqDist x q := by
  rw [bisect_eval]; constructor <;> intro h <;> linarith

/-- C13: … negative exactly at the points strictly closer to the second point. -/
theorem C13_bisect_neg (p q x : Pt K) :
    (bisect p q).eval x < 0 ↔ sqDist x q < sqDist x p := by
  rw [bisect_eval]; constructor <;> intro h <;> linarith

/-- C13: the test done by the cell code, `planes::dot(vertex, bisector)`, is that value. -/
theorem C13_dot_eval (x : Pt K) (h : Plane K) :
    dot x.x x.y x.z (1 : K) h.a h.b h.c h.d = h.eval x := by
  simp only [dot, Plane.eval, FP.add, FP.mul]; ring

example : (bisect (⟨1/4, 1/2, 1/2⟩ : Pt ℚ) ⟨3/4, 1/2, 1/2⟩).eval ⟨0, 0, 0⟩ = 1/4 := by
  rw [bisect_eval]; norm_num [sqDist]

/-- point part of a homogeneous vertex -/
def Vertex.pt {F : Type} (v : Vertex F) : Pt F := ⟨v.x, v.y, v.z⟩

theorem det3_swap12 (p q r : Plane K) : det3 q p r = - det3 p q r := by
  simp only [det3]; ring
theorem det3_swap23 (p q r : Plane K) : det3 p r q = - det3 p q r := by
  simp only [det3]; ring
theorem det3_rot (p q r : Plane K) : det3 q r p = det3 p q r := by
  simp only [det3]; ring

theorem intersect_w (p q r : Plane K) : (intersect p q r).w = 1 := by
  simp [intersect, FP.ofInt]

/-- C14: for linearly independent normals the computed point is on all three planes. -/
theorem C14_intersect_on (p q r : Plane K) (h : det3 p q r ≠ 0) :
    p.eval (intersect p q r).pt = 0 ∧ q.eval (intersect p q r).pt = 0 ∧
      r.eval (intersect p q r).pt = 0 := by
  have hd : p.a * (q.b * r.c - r.b * q.c) + p.b * (-q.a * r.c + r.a * q.c)
      + p.c * (q.a * r.b - r.a * q.b) = det3 p q r := by simp only [det3]; ring
  simp only [intersect, Vertex.pt, Plane.eval, FP.add, FP.mul, FP.sub, FP.neg, FP.div, FP.ofInt,
    FP.eq, hd, Int.cast_zero, Int.cast_one, decide_eq_true_eq, if_neg h]
  refine ⟨?_, ?_, ?_⟩ <;> field_simp <;> simp only [det3] <;> ring

/-- C14: … and the only such point. -/
theorem C14_intersect_unique (p q r : Plane K) (h : det3 p q r ≠ 0) (x : Pt K)
    (hp : p.eval x = 0) (hq : q.eval x = 0) (hr : r.eval x = 0) :
    x = (intersect p q r).pt := by
  obtain ⟨h1, h2, h3⟩ := C14_intersect_on p q r h
  generalize (intersect p q r).pt = y at *
  simp only [Plane.eval] at *
  have e1 : p.a * (x.x - y.x) + p.b * (x.y - y.y) + p.c * (x.z - y.z) = 0 := by linear_combination hp - h1
  have e2 : q.a * (x.x - y.x) + q.b * (x.y - y.y) + q.c * (x.z - y.z) = 0 := by linear_combination hq - h2
  have e3 : r.a * (x.x - y.x) + r.b * (x.y - y.y) + r.c * (x.z - y.z) = 0 := by linear_combination hr - h3
  have f1 : det3 p q r * (x.x - y.x) = 0 := by
    simp only [det3]
    linear_combination (q.b * r.c - q.c * r.b) * e1 - (p.b * r.c - p.c * r.b) * e2
      + (p.b * q.c - p.c * q.b) * e3
  have f2 : det3 p q r * (x.y - y.y) = 0 := by
    simp only [det3]
    linear_combination -(q.a * r.c - q.c * r.a) * e1 + (p.a * r.c - p.c * r.a) * e2
      - (p.a * q.c - p.c * q.a) * e3
  have f3 : det3 p q r * (x.z - y.z) = 0 := by
    simp only [det3]
    linear_combination (q.a * r.b - q.b * r.a) * e1 - (p.a * r.b - p.b * r.a) * e2
      + (p.a * q.b - p.b * q.a) * e3
  have g1 := (mul_eq_zero.mp f1).resolve_left h
  have g2 := (mul_eq_zero.mp f2).resolve_left h
  have g3 := (mul_eq_zero.mp f3).resolve_left h
  obtain ⟨x1, x2, x3⟩ := x; obtain ⟨y1, y2, y3⟩ := y
  simp only at g1 g2 g3
  simp only [Pt.mk.injEq]
  exact ⟨by linarith, by linarith, by linarith⟩

/-- C14: for dependent normals the computed point is the origin. -/
theorem C14_intersect_singular (p q r : Plane K) (h : det3 p q r = 0) :
    (intersect p q r).pt = ⟨0, 0, 0⟩ := by
  have hd : p.a * (q.b * r.c - r.b * q.c) + p.b * (-q.a * r.c + r.a * q.c)
      + p.c * (q.a * r.b - r.a * q.b) = 0 := by rw [← h]; simp only [det3]; ring
  simp only [intersect, Vertex.pt, FP.add, FP.mul, FP.sub, FP.neg, FP.div, FP.ofInt, FP.eq, hd,
    Int.cast_zero, decide_true, if_true, mul_zero]

/-- a permutation of three planes -/
inductive Perm3 (p q r : Plane K) : Plane K → Plane K → Plane K → Prop
  | id : Perm3 p q r p q r
  | s12 : Perm3 p q r q p r
  | s23 : Perm3 p q r p r q
  | s13 : Perm3 p q r r q p
  | rot : Perm3 p q r q r p
  | rot2 : Perm3 p q r r p q

/-- the same plane, possibly with all coefficients scaled by a non-zero factor (in particular
with the opposite orientation) -/
def SamePlane (p p' : Plane K) : Prop :=
  ∃ s : K, s ≠ 0 ∧ p' = ⟨s * p.a, s * p.b, s * p.c, s * p.d⟩

theorem SamePlane.eval {p p' : Plane K} (h : SamePlane p p') (x : Pt K) :
    p'.eval x = 0 ↔ p.eval x = 0 := by
  obtain ⟨s, hs, rfl⟩ := h
  have : (Plane.mk (s * p.a) (s * p.b) (s * p.c) (s * p.d)).eval x = s * p.eval x := by
    simp only [Plane.eval]; ring
  rw [this]; simp [hs]

/-- C14: the result does not depend on the order, scaling or orientation of the planes. -/
theorem C14_intersect_order (p q r p' q' r' a b c : Plane K) (hp : SamePlane p p')
    (hq : SamePlane q q') (hr : SamePlane r r') (hperm : Perm3 p' q' r' a b c) :
    (intersect a b c).pt = (intersect p q r).pt := by
  by_cases h : det3 p q r = 0
  · rw [C14_intersect_singular p q r h]
    apply C14_intersect_singular
    obtain ⟨s, hs, rfl⟩ := hp
    obtain ⟨t, ht, rfl⟩ := hq
    obtain ⟨u, hu, rfl⟩ := hr
    have e : ∀ x : K, x = s * t * u * det3 p q r ∨ x = - (s * t * u * det3 p q r) → x = 0 := by
      intro x hx; rw [h] at hx; simpa using hx
    apply e
    cases hperm
    · left; simp only [det3]; ring
    · right; simp only [det3]; ring
    · right; simp only [det3]; ring
    · right; simp only [det3]; ring
    · left; simp only [det3]; ring
    · left; simp only [det3]; ring
  · obtain ⟨h1, h2, h3⟩ := C14_intersect_on p q r h
    rw [← hp.eval] at h1
    rw [← hq.eval] at h2
    rw [← hr.eval] at h3
    symm
    have hd : det3 a b c ≠ 0 := by
      obtain ⟨s, hs, rfl⟩ := hp
      obtain ⟨t, ht, rfl⟩ := hq
      obtain ⟨u, hu, rfl⟩ := hr
      have hne : s * t * u * det3 p q r ≠ 0 :=
        mul_ne_zero (mul_ne_zero (mul_ne_zero hs ht) hu) h
      intro h0
      apply hne
      cases hperm <;> simp only [det3] at h0 ⊢ <;>
        first | linear_combination h0 | linear_combination -h0
    cases hperm
    · exact C14_intersect_unique _ _ _ hd _ h1 h2 h3
    · exact C14_intersect_unique _ _ _ hd _ h2 h1 h3
    · exact C14_intersect_unique _ _ _ hd _ h1 h3 h2
    · exact C14_intersect_unique _ _ _ hd _ h3 h2 h1
    · exact C14_intersect_unique _ _ _ hd _ h2 h3 h1
    · exact C14_intersect_unique _ _ _ hd _ h3 h1 h2

example : det3 (⟨1,0,0,0⟩ : Plane ℚ) ⟨0,-1,0,1⟩ ⟨0,0,1,-1/2⟩ ≠ 0 := by norm_num [det3]
example : (intersect (⟨1,0,0,0⟩ : Plane ℚ) ⟨0,-1,0,1⟩ ⟨0,0,1,-1/2⟩).pt = ⟨0, 1, 1/2⟩ := by
  decide +kernel

/-! ### security radius -/

/-- `sr::update` is the maximum of the old radius and the squared distance. -/
theorem srUpdate_eq (p v : Pt K) (sr : K) :
    srUpdate p v.x v.y v.z sr = max sr (sqDist p v) := by
  have e : FP.add (FP.add (square (FP.sub p.x v.x)) (square (FP.sub p.y v.y)))
      (square (FP.sub p.z v.z)) = sqDist p v := by
    simp only [square, sqDist, FP.add, FP.mul, FP.sub]; ring
  unfold srUpdate
  simp only [e]
  simp only [FP.lt, FP.add, FP.mul, FP.ofBool, FP.ofInt]
  by_cases h : sr < sqDist p v
  · simp [h, max_eq_right h.le]
  · simp [h, max_eq_left (not_lt.mp h)]

/-- `sr::is_reached` compares the squared distance of the neighbour with four times the
squared radius. -/
theorem srReached_eq (p q : Pt K) (sr : K) :
    srReached p q sr = true ↔ 4 * sr < sqDist p q := by
  have e : FP.add (FP.add (square (FP.sub p.x q.x)) (square (FP.sub p.y q.y)))
      (square (FP.sub p.z q.z)) = sqDist p q := by
    simp only [square, sqDist, FP.add, FP.mul, FP.sub]; ring
  unfold srReached
  simp only [e]
  simp [FP.lt, FP.mul, FP.ofInt]

/-- reverse triangle inequality in the form used below, without square roots:
if `4·|x-p|² < |q-p|²` then `x` is strictly closer to `p` than to `q`. -/
theorem closer_of_sqDist (p q x : Pt K) (h : 4 * sqDist x p < sqDist q p) :
    sqDist x p < sqDist x q := by
  have key : 2 * (sqDist x q + sqDist x p) - sqDist q p
      = ((x.x - q.x) + (x.x - p.x))^2 + ((x.y - q.y) + (x.y - p.y))^2
        + ((x.z - q.z) + (x.z - p.z))^2 := by
    simp only [sqDist]; ring
  have h2 : 0 ≤ 2 * (sqDist x q + sqDist x p) - sqDist q p := by rw [key]; positivity
  linarith

/-- C15: if `sr::is_reached` answers yes for neighbour `q` of `p` with (squared) radius `sr`,
then every point within that radius of `p` is strictly closer to `p` than to `q` and than to
every point at least as far from `p` as `q`. -/
theorem C15_security_radius (p q : Pt K) (sr : K) (h : srReached p q sr = true) (x q' : Pt K)
    (hx : sqDist x p ≤ sr) (hq : sqDist q p ≤ sqDist q' p) : sqDist x p < sqDist x q' := by
  rw [srReached_eq, sqDist_comm] at h
  exact closer_of_sqDist p q' x (by linarith)

/-- C15: the radius accumulated over a list of vertices (as `cci::compute` does, starting
from 0) bounds the distance of each of them from `p`, and is attained unless all are at `p`. -/
theorem C15_radius_bounds (p : Pt K) (vs : List (Pt K)) (v : Pt K) (hv : v ∈ vs) :
    sqDist p v ≤ vs.foldl (fun sr v => srUpdate p v.x v.y v.z sr) 0 := by
  have mono : ∀ (l : List (Pt K)) (a : K), a ≤ l.foldl (fun sr v => srUpdate p v.x v.y v.z sr) a := by
    intro l
    induction l with
    | nil => intro a; exact le_refl _
    | cons b l ih => intro a; exact le_trans (by simp only [srUpdate_eq]; exact le_max_left _ _) (ih _)
  suffices H : ∀ (l : List (Pt K)) (a : K), v ∈ l →
      sqDist p v ≤ l.foldl (fun sr v => srUpdate p v.x v.y v.z sr) a from H vs 0 hv
  intro l
  induction l with
  | nil => intro a h; cases h
  | cons b l ih =>
    intro a h
    rcases List.mem_cons.mp h with rfl | h
    · exact le_trans (by simp only [srUpdate_eq]; exact le_max_right _ _) (mono l _)
    · exact ih _ h

/-- the factor 4 cannot be lowered: with any smaller factor the conclusion fails -/
example : ∃ p q x : Pt ℚ, (399/100) * sqDist x p < sqDist q p ∧ ¬ sqDist x p < sqDist x q :=
  ⟨⟨0,0,0⟩, ⟨1,0,0⟩, ⟨1001/2000,0,0⟩, by norm_num [sqDist], by norm_num [sqDist]⟩

example : srReached (⟨1/2,1/2,1/2⟩ : Pt ℚ) ⟨1/2,1/2,9/10⟩ (1/36) = true := by decide +kernel

/-! ### branch-free selections -/

/-- C50: `bmax` is the maximum. -/
theorem C50_bmax (a b : K) : bmax a b = max a b := by
  simp only [bmax, FP.lt, FP.add, FP.mul, FP.ofBool, FP.ofInt]
  by_cases h : a < b
  · simp [h, max_eq_right h.le]
  · simp [h, max_eq_left (not_lt.mp h)]

/-- C50: `bmin` is the minimum. -/
theorem C50_bmin (a b : K) : bmin a b = min a b := by
  simp only [bmin, FP.lt, FP.add, FP.mul, FP.ofBool, FP.ofInt]
  by_cases h : b < a
  · simp [h, min_eq_right h.le]
  · simp [h, min_eq_left (not_lt.mp h)]

/-- C50: the three-argument versions. -/
theorem C50_bmax3 (a b c : K) : bmax3 a b c = max (max a b) c := by
  simp only [bmax3, C50_bmax]

theorem C50_bmin3 (a b c : K) : bmin3 a b c = min (min a b) c := by
  simp only [bmin3, C50_bmin]

/-- C50: `!cond * a + cond * b` selects `b` if `cond` holds and `a` otherwise. -/
theorem C50_select (cond : Bool) (a b : K) :
    FP.add (FP.mul (FP.ofBool (!cond)) a) (FP.mul (FP.ofBool cond) b) = if cond then b else a := by
  cases cond <;> simp [FP.add, FP.mul, FP.ofBool, FP.ofInt]

/-- `std::min({a,b,c})` is the minimum -/
theorem min3_eq (a b c : K) : min3 a b c = min (min a b) c := by
  simp only [min3, FP.lt, decide_eq_true_eq]
  by_cases h : b < a
  · simp only [h, if_true, min_eq_right h.le]
    by_cases h2 : c < b
    · simp [h2, min_eq_right h2.le]
    · simp [h2, min_eq_left (not_lt.mp h2)]
  · simp only [h, if_false, min_eq_left (not_lt.mp h)]
    by_cases h2 : c < a
    · simp [h2, min_eq_right h2.le]
    · simp [h2, min_eq_left (not_lt.mp h2)]

end Votess
