import Verif.Proofs.Surface
import Verif.Props.Planes
import Mathlib.Tactic.LinearCombination
import Mathlib.Tactic.Positivity
/-!
Geometry of a cell given by oriented triples of planes, in exact arithmetic.

`h j` is the inward oriented plane number `j`.  Degenerate position is treated by moving the
planes outwards by small offsets `e j`, later planes much more than earlier ones.
-/
set_option linter.unusedSectionVars false
namespace Votess

variable {K : Type} [Field K] [LinearOrder K] [IsStrictOrderedRing K] [FloorRing K]

/-- determinant with the orientation used by the triples -/
def odet (p q r : Plane K) : K := - det3 p q r

def Tri.has (t : Tri) (j : Nat) : Prop := j = t.a ∨ j = t.b ∨ j = t.c

/-- determinant of the normals of a triple -/
def tdet (h : Nat → Plane K) (t : Tri) : K := odet (h t.a) (h t.b) (h t.c)

/-- common point of the planes of a triple -/
def tv (h : Nat → Plane K) (t : Tri) : Pt K := (intersect (h t.a) (h t.b) (h t.c)).pt

theorem tv_on {h : Nat → Plane K} {t : Tri} (hd : tdet h t ≠ 0) {j : Nat} (hj : t.has j) :
    (h j).eval (tv h t) = 0 := by
  obtain ⟨h1, h2, h3⟩ := C14_intersect_on (h t.a) (h t.b) (h t.c) (neg_ne_zero.mp hd)
  rcases hj with rfl | rfl | rfl <;> assumption

/-- every affine function is a combination of three independent planes -/
theorem decomp {p q r : Plane K} {v : Pt K} (h1 : p.eval v = 0) (h2 : q.eval v = 0)
    (h3 : r.eval v = 0) (g : Plane K) (x : Pt K) :
    g.eval x * odet p q r = g.eval v * odet p q r + odet g q r * p.eval x + odet g r p * q.eval x
      + odet g p q * r.eval x := by
  simp only [Plane.eval, odet, det3] at *
  linear_combination
    (g.a * (q.b * r.c - q.c * r.b) - g.b * (q.a * r.c - q.c * r.a) + g.c * (q.a * r.b - q.b * r.a)) * h1
    + (g.a * (r.b * p.c - r.c * p.b) - g.b * (r.a * p.c - r.c * p.a) + g.c * (r.a * p.b - r.b * p.a)) * h2
    + (g.a * (p.b * q.c - p.c * q.b) - g.b * (p.a * q.c - p.c * q.a) + g.c * (p.a * q.b - p.b * q.a)) * h3

theorem RotOf.det {h : Nat → Plane K} {t : Tri} {a b c : Nat} (hr : RotOf t a b c) :
    odet (h a) (h b) (h c) = tdet h t := by
  unfold tdet
  rcases hr with ⟨rfl, rfl, rfl⟩ | ⟨rfl, rfl, rfl⟩ | ⟨rfl, rfl, rfl⟩ <;> simp only [odet, det3] <;> ring

theorem RotOf.has {t : Tri} {a b c : Nat} (hr : RotOf t a b c) (j : Nat) :
    t.has j ↔ j = a ∨ j = b ∨ j = c := by
  unfold Tri.has
  rcases hr with ⟨rfl, rfl, rfl⟩ | ⟨rfl, rfl, rfl⟩ | ⟨rfl, rfl, rfl⟩ <;> tauto

/-- a triangle with a given edge -/
theorem rot_of_edge {t : Tri} {a b : Nat} (h : (a, b) ∈ t.edges) : ∃ c, RotOf t a b c := by
  simp only [Tri.edges, List.mem_cons, List.not_mem_nil, or_false, Prod.mk.injEq] at h
  rcases h with ⟨rfl, rfl⟩ | ⟨rfl, rfl⟩ | ⟨rfl, rfl⟩
  · exact ⟨t.c, Or.inl ⟨rfl, rfl, rfl⟩⟩
  · exact ⟨t.a, Or.inr (Or.inl ⟨rfl, rfl, rfl⟩)⟩
  · exact ⟨t.b, Or.inr (Or.inr ⟨rfl, rfl, rfl⟩)⟩

theorem RotOf.edge {t : Tri} {a b c : Nat} (hr : RotOf t a b c) : (a, b) ∈ t.edges := by
  rw [hr.edges]; left; rfl

theorem RotOf.rot {t : Tri} {a b c : Nat} (hr : RotOf t a b c) : RotOf t b c a := by
  unfold RotOf at *
  rcases hr with ⟨rfl, rfl, rfl⟩ | ⟨rfl, rfl, rfl⟩ | ⟨rfl, rfl, rfl⟩ <;> simp

theorem det_ne {h : Nat → Plane K} {a b c : Nat} (hd : odet (h a) (h b) (h c) ≠ 0) :
    a ≠ b ∧ b ≠ c ∧ c ≠ a := by
  refine ⟨?_, ?_, ?_⟩ <;> rintro rfl <;> apply hd <;> simp only [odet, det3] <;> ring

/-- decomposition at the vertex of a triple -/
theorem tv_decomp {h : Nat → Plane K} {t : Tri} (hd : tdet h t ≠ 0) {a b c : Nat}
    (hr : RotOf t a b c) (g : Plane K) (x : Pt K) :
    g.eval x * tdet h t = g.eval (tv h t) * tdet h t + odet g (h b) (h c) * (h a).eval x
      + odet g (h c) (h a) * (h b).eval x + odet g (h a) (h b) * (h c).eval x := by
  have := decomp (tv_on hd ((hr.has a).mpr (by simp))) (tv_on hd ((hr.has b).mpr (by simp)))
    (tv_on hd ((hr.has c).mpr (by simp))) g x
  rw [hr.det] at this; exact this

theorem list_max {α : Type} (f : α → K) : ∀ l : List α, l ≠ [] → ∃ t ∈ l, ∀ u ∈ l, f u ≤ f t
  | [], h => absurd rfl h
  | [a], _ => ⟨a, by simp, by simp⟩
  | a :: b :: l, _ => by
    obtain ⟨t, h1, h2⟩ := list_max f (b :: l) (by simp)
    rcases le_total (f a) (f t) with h | h
    · exact ⟨t, List.mem_cons_of_mem _ h1, fun u hu => by
        rcases List.mem_cons.mp hu with rfl | hu
        · exact h
        · exact h2 u hu⟩
    · exact ⟨a, by simp, fun u hu => by
        rcases List.mem_cons.mp hu with rfl | hu
        · exact le_refl _
        · exact le_trans (h2 u hu) h⟩

/-- neighbour across the edge opposite to `a` -/
theorem neighbour {h : Nat → Plane K} {S : List Tri} (hc : ClosedTris S)
    (hor : ∀ t ∈ S, 0 < tdet h t) {t : Tri} (ht : t ∈ S) {a b c : Nat} (hr : RotOf t a b c) :
    ∃ u ∈ S, ∃ d, RotOf u c b d ∧ ¬ u.has a := by
  have he : (c, b) ∈ triEdges S := hc (b, c) (mem_triEdges.mpr ⟨t, ht, hr.rot.edge⟩)
  obtain ⟨u, hu, hue⟩ := mem_triEdges.mp he
  obtain ⟨d, hd⟩ := rot_of_edge hue
  refine ⟨u, hu, d, hd, ?_⟩
  have h1 := hor t ht
  have h2 := hor u hu
  rw [← hr.det] at h1
  rw [← hd.det] at h2
  obtain ⟨n1, n2, n3⟩ := det_ne (ne_of_gt h1)
  rw [hd.has]
  rintro (rfl | rfl | rfl)
  · exact n3 rfl
  · exact n1 rfl
  · have : odet (h c) (h b) (h a) = - odet (h a) (h b) (h c) := by simp only [odet, det3]; ring
    rw [this] at h2; linarith

/-- Linear programming on a non-degenerate closed set of vertices: every affine function is
maximal at a vertex. -/
theorem lp_strict {h : Nat → Plane K} {S : List Tri} (hne : S ≠ []) (hc : ClosedTris S)
    (hor : ∀ t ∈ S, 0 < tdet h t)
    (hst : ∀ t ∈ S, ∀ u ∈ S, ∀ j, u.has j → ¬ t.has j → 0 < (h j).eval (tv h t))
    (x : Pt K) (hx : ∀ t ∈ S, ∀ j, t.has j → 0 ≤ (h j).eval x) (g : Plane K) :
    ∃ t ∈ S, g.eval x ≤ g.eval (tv h t) := by
  obtain ⟨t, ht, hmax⟩ := list_max (fun t => g.eval (tv h t)) S hne
  refine ⟨t, ht, ?_⟩
  have hD := hor t ht
  have coef : ∀ a b c, RotOf t a b c → odet g (h b) (h c) ≤ 0 := by
    intro a b c hr
    obtain ⟨u, hu, d, hd, hna⟩ := neighbour hc hor ht hr
    have hpos := hst u hu t ht a ((hr.has a).mpr (by simp)) hna
    have hDu := ne_of_gt (hor u hu)
    have hb := tv_on hDu ((hd.has b).mpr (by simp))
    have hcc := tv_on hDu ((hd.has c).mpr (by simp))
    have hdec := tv_decomp (ne_of_gt hD) hr g (tv h u)
    rw [hb, hcc, mul_zero, mul_zero, add_zero, add_zero] at hdec
    have hle := hmax u hu
    by_contra hneg
    rw [not_le] at hneg
    have h1 := mul_pos hneg hpos
    have h2 := mul_le_mul_of_nonneg_right hle (le_of_lt hD)
    linarith
  have r1 : RotOf t t.a t.b t.c := Or.inl ⟨rfl, rfl, rfl⟩
  have c1 := coef _ _ _ r1
  have c2 := coef _ _ _ r1.rot
  have c3 := coef _ _ _ r1.rot.rot
  have x1 := hx t ht t.a (by simp [Tri.has])
  have x2 := hx t ht t.b (by simp [Tri.has])
  have x3 := hx t ht t.c (by simp [Tri.has])
  have hdec := tv_decomp (ne_of_gt hD) r1 g x
  have m1 := mul_nonneg (neg_nonneg.mpr c1) x1
  have m2 := mul_nonneg (neg_nonneg.mpr c2) x2
  have m3 := mul_nonneg (neg_nonneg.mpr c3) x3
  have hfin : g.eval x * tdet h t ≤ g.eval (tv h t) * tdet h t := by linarith
  exact le_of_mul_le_mul_right hfin hD

/-! ### perturbation -/

/-- the planes moved outwards by `e` -/
def pert (h : Nat → Plane K) (e : Nat → K) (j : Nat) : Plane K := { h j with d := (h j).d + e j }

theorem pert_eval (h : Nat → Plane K) (e : Nat → K) (j : Nat) (x : Pt K) :
    (pert h e j).eval x = (h j).eval x + e j := by
  simp only [pert, Plane.eval]; ring

theorem tdet_pert (h : Nat → Plane K) (e : Nat → K) (t : Tri) : tdet (pert h e) t = tdet h t := rfl

/-- arbitrarily small offsets make the vertices non-degenerate -/
def Gen (n : Nat) (h : Nat → Plane K) (T : List Tri) : Prop :=
  ∀ δ : K, 0 < δ → ∃ e : Nat → K, (∀ j, 0 ≤ e j ∧ e j ≤ δ) ∧
    ∀ t ∈ T, ∀ j, j < n → ¬ t.has j → 0 < (pert h e j).eval (tv (pert h e) t)

/-- how far a vertex moves -/
theorem tv_shift {h : Nat → Plane K} {t : Tri} (hd : 0 < tdet h t) (g : Plane K) :
    ∃ M : K, 0 ≤ M ∧ ∀ (e : Nat → K) (δ : K), (∀ j, 0 ≤ e j ∧ e j ≤ δ) →
      |g.eval (tv (pert h e) t) - g.eval (tv h t)| ≤ M * δ := by
  have r1 : RotOf t t.a t.b t.c := Or.inl ⟨rfl, rfl, rfl⟩
  generalize hA : odet g (h t.b) (h t.c) = A
  generalize hB : odet g (h t.c) (h t.a) = B
  generalize hC : odet g (h t.a) (h t.b) = C
  refine ⟨(|A| + |B| + |C|) / tdet h t, by positivity, ?_⟩
  intro e δ he
  have on : ∀ j, t.has j → (h j).eval (tv (pert h e) t) = - e j := by
    intro j hj
    have h0 := tv_on (h := pert h e) (t := t) (by rw [tdet_pert]; exact ne_of_gt hd) hj
    rw [pert_eval] at h0; linarith
  have hdec := tv_decomp (ne_of_gt hd) r1 g (tv (pert h e) t)
  rw [on _ (by simp [Tri.has]), on _ (by simp [Tri.has]), on _ (by simp [Tri.has]), hA, hB, hC] at hdec
  have hδ : 0 ≤ δ := le_trans (he 0).1 (he 0).2
  have bd : ∀ (X : K) (j : Nat), |X * (- e j)| ≤ |X| * δ := by
    intro X j
    rw [abs_mul, abs_neg, abs_of_nonneg (he j).1]
    exact mul_le_mul_of_nonneg_left (he j).2 (abs_nonneg _)
  have key : (g.eval (tv (pert h e) t) - g.eval (tv h t)) * tdet h t
      = A * (- e t.a) + B * (- e t.b) + C * (- e t.c) := by linear_combination hdec
  have habs : |g.eval (tv (pert h e) t) - g.eval (tv h t)| * tdet h t ≤ (|A| + |B| + |C|) * δ := by
    rw [← abs_of_pos hd, ← abs_mul, key]
    calc |A * (- e t.a) + B * (- e t.b) + C * (- e t.c)|
        ≤ |A * (- e t.a)| + |B * (- e t.b)| + |C * (- e t.c)| := abs_add_three _ _ _
      _ ≤ |A| * δ + |B| * δ + |C| * δ := by
          have := bd A t.a; have := bd B t.b; have := bd C t.c; linarith
      _ = (|A| + |B| + |C|) * δ := by ring
  rw [div_mul_eq_mul_div, le_div_iff₀ hd]
  exact habs

theorem list_bound {α : Type} (Q : α → K → Prop) (hmono : ∀ a M M', M ≤ M' → Q a M → Q a M') :
    ∀ l : List α, (∀ a ∈ l, ∃ M, 0 ≤ M ∧ Q a M) → ∃ M, 0 ≤ M ∧ ∀ a ∈ l, Q a M
  | [], _ => ⟨0, le_refl _, by simp⟩
  | a :: l, h => by
    obtain ⟨M, h1, h2⟩ := list_bound Q hmono l (fun b hb => h b (List.mem_cons_of_mem _ hb))
    obtain ⟨N, h3, h4⟩ := h a (by simp)
    refine ⟨max M N, le_trans h1 (le_max_left _ _), fun b hb => ?_⟩
    rcases List.mem_cons.mp hb with rfl | hb
    · exact hmono _ _ _ (le_max_right _ _) h4
    · exact hmono _ _ _ (le_max_left _ _) (h2 b hb)

theorem tv_shift_list {h : Nat → Plane K} {T : List Tri} (hor : ∀ t ∈ T, 0 < tdet h t) (g : Plane K) :
    ∃ M : K, 0 ≤ M ∧ ∀ t ∈ T, ∀ (e : Nat → K) (δ : K), (∀ j, 0 ≤ e j ∧ e j ≤ δ) →
      |g.eval (tv (pert h e) t) - g.eval (tv h t)| ≤ M * δ := by
  refine list_bound (fun t M => ∀ (e : Nat → K) (δ : K), (∀ j, 0 ≤ e j ∧ e j ≤ δ) →
      |g.eval (tv (pert h e) t) - g.eval (tv h t)| ≤ M * δ) ?_ T (fun t ht => tv_shift (hor t ht) g)
  intro a M M' hM hQ e δ he
  have hδ : 0 ≤ δ := le_trans (he 0).1 (he 0).2
  exact le_trans (hQ e δ he) (mul_le_mul_of_nonneg_right hM hδ)

/-- a positive lower bound of finitely many positive values -/
theorem list_gap {α : Type} (f : α → K) : ∀ l : List α, (∀ a ∈ l, 0 < f a) →
    ∃ g, 0 < g ∧ ∀ a ∈ l, g ≤ f a
  | [], _ => ⟨1, one_pos, by simp⟩
  | a :: l, h => by
    obtain ⟨g, h1, h2⟩ := list_gap f l (fun b hb => h b (List.mem_cons_of_mem _ hb))
    refine ⟨min g (f a), lt_min h1 (h a (by simp)), fun b hb => ?_⟩
    rcases List.mem_cons.mp hb with rfl | hb
    · exact min_le_right _ _
    · exact le_trans (min_le_left _ _) (h2 b hb)

theorem small_delta {M gap : K} (hM : 0 ≤ M) (hg : 0 < gap) : ∃ δ, 0 < δ ∧ M * δ < gap ∧ δ ≤ gap := by
  have h1 : 0 < M + 1 := by linarith
  refine ⟨gap / (M + 1), by positivity, ?_, ?_⟩
  · rw [mul_div_assoc', div_lt_iff₀ h1]; nlinarith
  · rw [div_le_iff₀ h1]; nlinarith

/-- Linear programming: on a closed part `S` of the vertices every affine function reaches at
least its value at any point satisfying the planes used by `S`. -/
theorem lp {n : Nat} {h : Nat → Plane K} {T S : List Tri} (hor : ∀ t ∈ T, 0 < tdet h t)
    (hlt : ∀ t ∈ T, ∀ j, t.has j → j < n) (hgen : Gen n h T) (hne : S ≠ []) (hsub : ∀ t ∈ S, t ∈ T)
    (hc : ClosedTris S) (x : Pt K) (hx : ∀ t ∈ S, ∀ j, t.has j → 0 ≤ (h j).eval x) (g : Plane K) :
    ∃ t ∈ S, g.eval x ≤ g.eval (tv h t) := by
  by_contra hcon
  push Not at hcon
  obtain ⟨gap, hg, hgap⟩ := list_gap (fun t => g.eval x - g.eval (tv h t)) S
    (fun t ht => by have := hcon t ht; linarith)
  obtain ⟨M, hM, hsh⟩ := tv_shift_list (fun t ht => hor t (hsub t ht)) g
  obtain ⟨δ, hδ, hδ2, -⟩ := small_delta hM hg
  obtain ⟨e, he, hst⟩ := hgen δ hδ
  obtain ⟨t, ht, hle⟩ := lp_strict (h := pert h e) hne hc
    (fun t ht => by rw [tdet_pert]; exact hor t (hsub t ht))
    (fun t ht u hu j hj hn => hst t (hsub t ht) j (hlt u (hsub u hu) j hj) hn) x
    (fun t ht j hj => by rw [pert_eval]; have := hx t ht j hj; have := (he j).1; linarith) g
  have h1 := (abs_le.mp (hsh t ht e δ he)).2
  have h2 := hgap t ht
  linarith

/-- vertices satisfy all planes -/
theorem gen_feasible {n : Nat} {h : Nat → Plane K} {T : List Tri} (hor : ∀ t ∈ T, 0 < tdet h t)
    (hgen : Gen n h T) {t : Tri} (ht : t ∈ T) {j : Nat} (hj : j < n) :
    0 ≤ (h j).eval (tv h t) := by
  by_cases hh : t.has j
  · rw [tv_on (ne_of_gt (hor t ht)) hh]
  · by_contra hneg
    rw [not_le] at hneg
    obtain ⟨M, hM, hsh⟩ := tv_shift (hor t ht) (h j)
    obtain ⟨δ, hδ, hδ2, -⟩ := small_delta (M := M + 1) (by linarith) (neg_pos.mpr hneg)
    obtain ⟨e, he, hst⟩ := hgen δ hδ
    have h1 := hst t ht j hj hh
    rw [pert_eval] at h1
    have h2 := (abs_le.mp (hsh e δ he)).2
    have h3 := (he j).2
    linarith

/-- the new vertex on an edge between a removed vertex `u` and a kept vertex `w` -/
theorem new_vertex {A B C N : Plane K} {u w : Pt K} (hu : A.eval u = 0 ∧ B.eval u = 0 ∧ C.eval u = 0)
    (hw : A.eval w = 0 ∧ B.eval w = 0) (hd : 0 < odet A B C) (hC : 0 < C.eval w)
    (hNu : N.eval u < 0) (hNw : 0 < N.eval w) :
    0 < odet A B N ∧ ∀ g : Plane K, 0 ≤ g.eval u → 0 ≤ g.eval w → (0 < g.eval u ∨ 0 < g.eval w) →
      0 < g.eval (intersect A B N).pt := by
  have h1 := decomp hu.1 hu.2.1 hu.2.2 N w
  rw [hw.1, hw.2, mul_zero, mul_zero, add_zero, add_zero] at h1
  have e1 : odet N A B = odet A B N := by simp only [odet, det3]; ring
  rw [e1] at h1
  have hdN : 0 < odet A B N := by
    have : 0 < odet A B N * C.eval w := by
      have : odet A B N * C.eval w = (N.eval w - N.eval u) * odet A B C := by linear_combination -h1
      rw [this]; apply mul_pos _ hd; linarith
    exact (mul_pos_iff_of_pos_right hC).mp this
  refine ⟨hdN, ?_⟩
  intro g hgu hgw hor
  obtain ⟨v1, v2, v3⟩ := C14_intersect_on A B N (neg_ne_zero.mp (ne_of_gt hdN))
  generalize hv : (intersect A B N).pt = v at *
  have du := decomp v1 v2 v3 g u
  have dw := decomp v1 v2 v3 g w
  rw [hu.1, hu.2.1, mul_zero, mul_zero, add_zero, add_zero] at du
  rw [hw.1, hw.2, mul_zero, mul_zero, add_zero, add_zero] at dw
  have key : g.eval v * (odet A B N * (N.eval w - N.eval u))
      = odet A B N * (g.eval u * N.eval w + g.eval w * (- N.eval u)) := by
    linear_combination -(N.eval w) * du + (N.eval u) * dw
  have hpos : 0 < g.eval u * N.eval w + g.eval w * (- N.eval u) := by
    rcases hor with h | h
    · have := mul_pos h hNw
      have := mul_nonneg hgw (by linarith : 0 ≤ - N.eval u)
      linarith
    · have := mul_nonneg hgu (le_of_lt hNw)
      have := mul_pos h (by linarith : 0 < - N.eval u)
      linarith
  have h2 : 0 < odet A B N * (N.eval w - N.eval u) := mul_pos hdN (by linarith)
  have h3 : 0 < g.eval v * (odet A B N * (N.eval w - N.eval u)) := by
    rw [key]; exact mul_pos hdN hpos
  exact (mul_pos_iff_of_pos_right h2).mp h3


/-! ### clipping -/

theorem tv_congr {h h' : Nat → Plane K} {t : Tri} (hh : ∀ j, t.has j → h j = h' j) :
    tv h t = tv h' t := by
  unfold tv
  rw [hh t.a (by simp [Tri.has]), hh t.b (by simp [Tri.has]), hh t.c (by simp [Tri.has])]

/-- all that is known about a cell -/
structure Poly (n : Nat) (h : Nat → Plane K) (T : List Tri) : Prop where
  ne : T ≠ []
  valid : ValidTris n T
  closed : ClosedTris T
  orient : ∀ t ∈ T, 0 < tdet h t
  gen : Gen n h T

theorem ValidTris.has_lt {n : Nat} {T : List Tri} (hv : ValidTris n T) :
    ∀ t ∈ T, ∀ j, t.has j → j < n := by
  intro t ht j hj
  have := hv.tri t ht
  rcases hj with rfl | rfl | rfl <;> omega

theorem Poly.congr {n : Nat} {h h' : Nat → Plane K} {T : List Tri} (hp : Poly n h T)
    (hh : ∀ j, j < n → h j = h' j) : Poly n h' T := by
  have hlt := hp.valid.has_lt
  refine ⟨hp.ne, hp.valid, hp.closed, ?_, ?_⟩
  · intro t ht
    have := hp.orient t ht
    unfold tdet at *
    rwa [← hh t.a (hlt t ht _ (by simp [Tri.has])), ← hh t.b (hlt t ht _ (by simp [Tri.has])),
      ← hh t.c (hlt t ht _ (by simp [Tri.has]))]
  · intro δ hδ
    obtain ⟨e, he, hst⟩ := hp.gen δ hδ
    refine ⟨e, he, fun t ht j hj hn => ?_⟩
    have := hst t ht j hj hn
    have e1 : tv (pert h e) t = tv (pert h' e) t := tv_congr (fun i hi => by
      unfold pert; rw [hh i (hlt t ht i hi)])
    rw [e1, pert_eval, hh j hj] at this
    rw [pert_eval]; exact this

theorem Poly.perm {n : Nat} {h : Nat → Plane K} {T T' : List Tri} (hp : Poly n h T)
    (p : T'.Perm T) : Poly n h T' := by
  refine ⟨?_, hp.valid.perm p, hp.closed.perm p.symm, fun t ht => hp.orient t (p.mem_iff.mp ht), ?_⟩
  · rintro rfl; exact hp.ne p.symm.eq_nil
  · intro δ hδ
    obtain ⟨e, he, hst⟩ := hp.gen δ hδ
    exact ⟨e, he, fun t ht => hst t (p.mem_iff.mp ht)⟩

/-- the points satisfying the first `n` planes -/
def InCell (n : Nat) (h : Nat → Plane K) (x : Pt K) : Prop := ∀ j, j < n → 0 ≤ (h j).eval x

theorem Poly.feasible {n : Nat} {h : Nat → Plane K} {T : List Tri} (hp : Poly n h T) {t : Tri}
    (ht : t ∈ T) : InCell n h (tv h t) := fun _ hj => gen_feasible hp.orient hp.gen ht hj

/-- some vertex of every closed part is not removed by a plane that keeps a point of the cell -/
theorem Poly.kept {n : Nat} {h : Nat → Plane K} {T S : List Tri} (hp : Poly n h T) (hne : S ≠ [])
    (hsub : ∀ t ∈ S, t ∈ T) (hc : ClosedTris S) {x : Pt K} (hx : InCell n h x) {g : Plane K}
    (hg : 0 ≤ g.eval x) : ∃ t ∈ S, 0 ≤ g.eval (tv h t) := by
  obtain ⟨t, ht, hle⟩ := lp hp.orient hp.valid.has_lt hp.gen hne hsub hc x
    (fun t ht j hj => hx j (hp.valid.has_lt t (hsub t ht) j hj)) g
  exact ⟨t, ht, le_trans hg hle⟩

/-- clipping by plane `n` -/
theorem Poly.clip {n : Nat} {h : Nat → Plane K} {T A R N : List Tri} {dR L : List Nat}
    (hp : Poly n h T) (hperm : (A ++ R).Perm T) (hA : ∀ t ∈ A, 0 ≤ (h n).eval (tv h t))
    (hR : ∀ t ∈ R, (h n).eval (tv h t) < 0) (_hRne : R ≠ []) (hL : LoopOf R dR L)
    (hN : N.Perm (cone n L)) {x : Pt K} (hx : InCell n h x) (hxn : 0 ≤ (h n).eval x) :
    Poly (n + 1) h (A ++ N) := by
  have hRT : ∀ t ∈ R, t ∈ T := fun t ht => hperm.mem_iff.mp (List.mem_append_right _ ht)
  have hAT : ∀ t ∈ A, t ∈ T := fun t ht => hperm.mem_iff.mp (List.mem_append_left _ ht)
  have hlt := hp.valid.has_lt
  -- no closed part is removed
  have hncl : NoClosedPart R := by
    intro S h1 h2 h3
    obtain ⟨t, ht, hge⟩ := hp.kept h1 (fun t ht => hRT t (h2 t ht)) h3 hx hxn
    have := hR t (h2 t ht); linarith
  have hbd : ∀ e, e ∈ loopEdges L ↔ Unmatched R e := by
    rcases hL.bd with h | ⟨S, h1, h2, h3⟩
    · exact h
    · exact absurd h3 (hncl S h1 h2)
  have hNm : ∀ t, t ∈ N ↔ ∃ e ∈ loopEdges L, (⟨e.1, e.2, n⟩ : Tri) = t := fun t => by
    rw [hN.mem_iff]; unfold cone; rw [List.mem_map]
  have hvalid := valid_step hp.valid hperm hL hN
  -- the two old vertices at each loop edge
  have hpair : ∀ a b, (a, b) ∈ loopEdges L → ∃ r ∈ R, ∃ k ∈ A, ∃ c d, RotOf r a b c ∧ RotOf k b a d := by
    intro a b hab
    obtain ⟨h1, h2⟩ := (hbd _).mp hab
    obtain ⟨r, hr, hre⟩ := mem_triEdges.mp h1
    obtain ⟨c, hc⟩ := rot_of_edge hre
    have h3 : (b, a) ∈ triEdges T := hp.closed (a, b) (mem_triEdges.mpr ⟨r, hRT r hr, hre⟩)
    obtain ⟨k, hk, hke⟩ := mem_triEdges.mp h3
    obtain ⟨d, hd⟩ := rot_of_edge hke
    rcases List.mem_append.mp (hperm.mem_iff.mpr hk) with hkA | hkR
    · exact ⟨r, hr, k, hkA, c, d, hc, hd⟩
    · exact absurd (mem_triEdges.mpr ⟨k, hkR, hke⟩) h2
  -- the perturbed picture
  have main : ∀ δ : K, 0 < δ → ∃ e : Nat → K, (∀ j, 0 ≤ e j ∧ e j ≤ δ) ∧
      (∀ t ∈ A ++ N, ∀ j, j < n + 1 → ¬ t.has j → 0 < (pert h e j).eval (tv (pert h e) t)) ∧
      (∀ t ∈ N, 0 < tdet h t) := by
    intro δ hδ
    obtain ⟨gap, hg, hgap⟩ := list_gap (fun t => - (h n).eval (tv h t)) R
      (fun t ht => by have := hR t ht; linarith)
    obtain ⟨M, hM, hsh⟩ := tv_shift_list hp.orient (h n)
    have hη : 0 < min δ (gap / 3) := lt_min hδ (by linarith)
    generalize hηe : min δ (gap / 3) = η at hη
    have hηδ : η ≤ δ := by rw [← hηe]; exact min_le_left _ _
    have hηg : η ≤ gap / 3 := by rw [← hηe]; exact min_le_right _ _
    obtain ⟨δ', hδ', hδM, hδη⟩ := small_delta hM hη
    obtain ⟨e, he, hst⟩ := hp.gen δ' hδ'
    have hEj : ∀ j, j ≠ n → pert h (fun j => if j = n then η else e j) j = pert h e j := by
      intro j hj; simp [pert, hj]
    have hEn : ∀ y, (pert h (fun j => if j = n then η else e j) n).eval y = (h n).eval y + η := by
      intro y; rw [pert_eval]; simp
    have hEt : ∀ t ∈ T, tv (pert h (fun j => if j = n then η else e j)) t = tv (pert h e) t := by
      intro t ht
      refine tv_congr (fun j hj => hEj j ?_)
      have := hlt t ht j hj; omega
    have hAn : ∀ t ∈ A, 0 < (h n).eval (tv (pert h e) t) + η := by
      intro t ht
      have h1 := (abs_le.mp (hsh t (hAT t ht) e δ' he)).1
      have h2 := hA t ht
      linarith
    have hRn : ∀ t ∈ R, (h n).eval (tv (pert h e) t) + η < 0 := by
      intro t ht
      have h1 := (abs_le.mp (hsh t (hRT t ht) e δ' he)).2
      have h2 := hgap t ht
      linarith
    -- new vertices
    have hnew : ∀ a b, (a, b) ∈ loopEdges L →
        0 < odet (h a) (h b) (h n) ∧ ∀ j, j < n → j ≠ a → j ≠ b →
          0 < (pert h e j).eval
            (intersect (pert h e a) (pert h e b) (pert h (fun j => if j = n then η else e j) n)).pt := by
      intro a b hab
      obtain ⟨r, hr, k, hk, c, d, hrc, hkd⟩ := hpair a b hab
      have o1 : tdet (pert h e) r ≠ 0 := by rw [tdet_pert]; exact ne_of_gt (hp.orient r (hRT r hr))
      have o2 : tdet (pert h e) k ≠ 0 := by rw [tdet_pert]; exact ne_of_gt (hp.orient k (hAT k hk))
      have p1 := hp.orient r (hRT r hr)
      have p2 := hp.orient k (hAT k hk)
      rw [← hrc.det] at p1
      rw [← hkd.det] at p2
      have hcd : c ≠ d := by
        rintro rfl
        have : odet (h b) (h a) (h c) = - odet (h a) (h b) (h c) := by simp only [odet, det3]; ring
        rw [this] at p2; linarith
      obtain ⟨n1, n2, n3⟩ := det_ne (ne_of_gt p1)
      have hcn : c < n := hlt r (hRT r hr) c ((hrc.has c).mpr (by simp))
      have hCw : 0 < (pert h e c).eval (tv (pert h e) k) := by
        apply hst k (hAT k hk) c hcn
        rw [hkd.has]; tauto
      obtain ⟨q1, q2⟩ := new_vertex (A := pert h e a) (B := pert h e b) (C := pert h e c)
        (N := pert h (fun j => if j = n then η else e j) n) (u := tv (pert h e) r)
        (w := tv (pert h e) k)
        ⟨tv_on o1 ((hrc.has a).mpr (by simp)), tv_on o1 ((hrc.has b).mpr (by simp)),
          tv_on o1 ((hrc.has c).mpr (by simp))⟩
        ⟨tv_on o2 ((hkd.has a).mpr (by simp)), tv_on o2 ((hkd.has b).mpr (by simp))⟩
        p1 hCw (by rw [hEn]; exact hRn r hr) (by rw [hEn]; exact hAn k hk)
      refine ⟨q1, ?_⟩
      intro j hj hja hjb
      have g1 : j ≠ c → 0 < (pert h e j).eval (tv (pert h e) r) := fun hjc =>
        hst r (hRT r hr) j hj (by rw [hrc.has]; tauto)
      have g2 : j ≠ d → 0 < (pert h e j).eval (tv (pert h e) k) := fun hjd =>
        hst k (hAT k hk) j hj (by rw [hkd.has]; tauto)
      have z1 : j = c → (pert h e j).eval (tv (pert h e) r) = 0 := fun hjc =>
        tv_on o1 ((hrc.has j).mpr (by simp [hjc]))
      have z2 : j = d → (pert h e j).eval (tv (pert h e) k) = 0 := fun hjd =>
        tv_on o2 ((hkd.has j).mpr (by simp [hjd]))
      apply q2
      · by_cases hjc : j = c
        · rw [z1 hjc]
        · exact le_of_lt (g1 hjc)
      · by_cases hjd : j = d
        · rw [z2 hjd]
        · exact le_of_lt (g2 hjd)
      · by_cases hjc : j = c
        · right; exact g2 (by rw [hjc]; exact hcd)
        · left; exact g1 hjc
    refine ⟨fun j => if j = n then η else e j, ?_, ?_, ?_⟩
    · intro j
      by_cases hj : j = n
      · simp only [hj, if_true]; exact ⟨le_of_lt hη, hηδ⟩
      · simp only [hj, if_false]
        exact ⟨(he j).1, le_trans (he j).2 (le_trans hδη hηδ)⟩
    · intro t ht j hj hnh
      rcases List.mem_append.mp ht with ht | ht
      · rw [hEt t (hAT t ht)]
        by_cases hjn : j = n
        · rw [hjn, hEn]; exact hAn t ht
        · rw [hEj j hjn]; exact hst t (hAT t ht) j (by omega) hnh
      · obtain ⟨⟨a, b⟩, hab, rfl⟩ := (hNm t).mp ht
        simp only [Tri.has, not_or] at hnh
        have hjn : j < n := by omega
        have ha : a ≠ n := by
          have := hL.lt (validTris_sub (hp.valid.perm hperm) (List.sublist_append_right A R))
            (loopEdges_fst_mem hab)
          simp only at this; omega
        have hb : b ≠ n := by
          have := hL.lt (validTris_sub (hp.valid.perm hperm) (List.sublist_append_right A R))
            (loopEdges_snd_mem hab)
          simp only at this; omega
        have := (hnew a b hab).2 j hjn hnh.1 hnh.2.1
        rw [hEj j (by omega)]
        unfold tv
        simp only
        rw [hEj a ha, hEj b hb]
        exact this
    · intro t ht
      obtain ⟨⟨a, b⟩, hab, rfl⟩ := (hNm t).mp ht
      exact (hnew a b hab).1
  have hNne : N ≠ [] := by
    rintro rfl
    have h1 := hN.length_eq
    have h2 := hL.loop.len
    unfold cone at h1
    rw [List.length_map, loopEdges_length, List.length_nil] at h1; omega
  refine ⟨by simp [hNne], hvalid, ?_, ?_, ?_⟩
  · -- closed
    have hvp := hp.valid.perm hperm
    have hnd := hvp.nodup
    rw [triEdges_append, List.nodup_append] at hnd
    intro e he
    rw [triEdges_append, List.mem_append] at he ⊢
    have hNe : ∀ e, e ∈ triEdges N ↔
        e ∈ loopEdges L ∨ (e.2 = n ∧ e.1 ∈ L) ∨ (e.1 = n ∧ e.2 ∈ L) := fun e => by
      rw [triEdges_perm hN, cone_edges]
    rcases he with he | he
    · have h1 : (e.2, e.1) ∈ triEdges T := hp.closed e (triEdges_mono hAT he)
      rw [← triEdges_perm hperm, triEdges_append, List.mem_append] at h1
      rcases h1 with h1 | h1
      · exact Or.inl h1
      · right
        rw [hNe]; left; rw [hbd]
        exact ⟨h1, fun h2 => hnd.2.2 e he e h2 rfl⟩
    · rw [hNe] at he
      rcases he with he | ⟨h1, h2⟩ | ⟨h1, h2⟩
      · left
        obtain ⟨r, hr, k, hk, c, d, hrc, hkd⟩ := hpair e.1 e.2 he
        exact mem_triEdges.mpr ⟨k, hk, hkd.edge⟩
      · right; rw [hNe]; right; right; exact ⟨h1, h2⟩
      · right; rw [hNe]; right; left; exact ⟨h1, h2⟩
  · intro t ht
    rcases List.mem_append.mp ht with ht | ht
    · exact hp.orient t (hAT t ht)
    · obtain ⟨e, -, -, h3⟩ := main 1 one_pos
      exact h3 t ht
  · intro δ hδ
    obtain ⟨e, h1, h2, -⟩ := main δ hδ
    exact ⟨e, h1, h2⟩

/-- nothing to clip -/
theorem Poly.superfluous {n : Nat} {h : Nat → Plane K} {T : List Tri} (hp : Poly n h T)
    {g : Plane K} (hg : ∀ t ∈ T, 0 ≤ g.eval (tv h t)) {x : Pt K} (hx : InCell n h x) :
    0 ≤ g.eval x := by
  have := lp hp.orient hp.valid.has_lt hp.gen hp.ne (fun _ ht => ht) hp.closed x
    (fun t ht j hj => hx j (hp.valid.has_lt t ht j hj)) ⟨-g.a, -g.b, -g.c, -g.d⟩
  obtain ⟨t, ht, hle⟩ := this
  have e : ∀ y : Pt K, (⟨-g.a, -g.b, -g.c, -g.d⟩ : Plane K).eval y = - g.eval y := by
    intro y; simp only [Plane.eval]; ring
  rw [e, e] at hle
  have := hg t ht
  linarith

/-- only the planes used by a triple matter -/
theorem Poly.used {n : Nat} {h : Nat → Plane K} {T : List Tri} (hp : Poly n h T) {x : Pt K}
    (hx : ∀ j, (∃ t ∈ T, t.has j) → 0 ≤ (h j).eval x) (g : Plane K) :
    ∃ t ∈ T, g.eval x ≤ g.eval (tv h t) :=
  lp hp.orient hp.valid.has_lt hp.gen hp.ne (fun _ ht => ht) hp.closed x
    (fun t ht j hj => hx j ⟨t, ht, hj⟩) g

end Votess
