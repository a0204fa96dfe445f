import Verif.Props.IeeeInput
import Verif.Props.IeeeFma
/-!
# C82 — points close together

`MarginsBy` asks for less the closer the points are.  A test for it, with a proof that it is right, and a
cluster of points that passes it.
-/
namespace Votess

/-- all corners and the planes that meet there -/
def meetList (p : Pt ℚ) (sites : List (Pt ℚ)) : List (Pt ℚ × Plane ℚ × Plane ℚ × Plane ℚ) :=
  (boundaryPlanes p sites).flatMap fun f => (boundaryPlanes p sites).flatMap fun g =>
    (boundaryPlanes p sites).filterMap fun h =>
      if det3 f g h = 0 then none
      else if inCellB p sites (meet f g h) then some (meet f g h, f, g, h) else none

theorem mem_meetList (p : Pt ℚ) (sites : List (Pt ℚ)) (v : Pt ℚ) (f g h : Plane ℚ) :
    (v, f, g, h) ∈ meetList p sites ↔ Meet p sites v f g h := by
  unfold meetList
  simp only [List.mem_flatMap, List.mem_filterMap]
  constructor
  · rintro ⟨f', hf, g', hg, h', hh, e⟩
    split at e
    · cases e
    · rename_i hD
      split at e
      · rename_i hc
        simp only [Option.some.injEq, Prod.mk.injEq] at e
        obtain ⟨rfl, rfl, rfl, rfl⟩ := e
        obtain ⟨e1, e2, e3⟩ := meet_eval hD
        exact ⟨(inCellB_iff _ _ _).mp hc, hD, hf, hg, hh, e1, e2, e3⟩
      · cases e
  · rintro ⟨hc, hD, hf, hg, hh, e1, e2, e3⟩
    refine ⟨f, hf, g, hg, h, hh, ?_⟩
    rw [if_neg hD, meet_unique hD e1 e2 e3, if_pos ((inCellB_iff _ _ _).mpr hc)]

/-- the test for one other point, given the corners -/
def meetB (m : ℚ) (p q : Pt ℚ) (cs : List (Pt ℚ × Plane ℚ × Plane ℚ × Plane ℚ)) : Bool :=
  (cs.all fun c => decide (m / 2 ^ 12 ≤ sharp c.2.1 c.2.2.1 c.2.2.2) &&
    (decide (8 * blur m c.2.1 c.2.2.1 c.2.2.2 * span p q < |sqDist c.1 p - sqDist c.1 q|) &&
      decide (m / 2 ^ 16 < |sqDist c.1 p - sqDist c.1 q|))) &&
  ((cs.all fun c => decide (slack m (blur m c.2.1 c.2.2.1 c.2.2.2) p c.1 < sqDist q p - 4 * sqDist c.1 p)) ||
    cs.any fun c => cs.all fun c' => decide (sqDist c'.1 p < sqDist c.1 p) ||
      decide (slack m (blur m c'.2.1 c'.2.2.1 c'.2.2.2) p c'.1 < 4 * sqDist c'.1 p - sqDist q p))

/-- the test for one point; `ms` are the other points and whether they matter -/
def marginS' (m : ℚ) (L : List (Pt ℚ)) (p : Pt ℚ) (ms : List (Pt ℚ × Bool)) : Bool :=
  decide (ms.Pairwise fun a b => (a.2 = true → m / 2 ^ 17 * span p a.1 < |sqDist a.1 p - sqDist b.1 p|) ∧
    (b.2 = true → m / 2 ^ 17 * span p b.1 < |sqDist a.1 p - sqDist b.1 p|)) &&
  ms.all fun a => !a.2 || meetB m p a.1 (meetList p (closerTo L p a.1))

def marginS (m : ℚ) (L : List (Pt ℚ)) (i : Nat) (p : Pt ℚ) : Bool :=
  marginS' m L p ((L.eraseIdx i).map fun q => (q, mattersB L p q))

theorem marginS_sound {m : ℚ} {L : List (Pt ℚ)} {i : Nat} {p : Pt ℚ} (h : marginS m L i p = true) : MarginsBy m L i p := by
  unfold marginS marginS' at h
  rw [Bool.and_eq_true, decide_eq_true_eq, List.all_eq_true, List.pairwise_map] at h
  have h2 : ∀ q ∈ L.eraseIdx i, Matters L p q → meetB m p q (meetList p (closerTo L p q)) = true := by
    intro q hq hmat
    have := h.2 (q, mattersB L p q) (List.mem_map.mpr ⟨q, hq, rfl⟩)
    simpa only [(mattersB_iff L p q).mpr hmat, Bool.not_true, Bool.false_or] using this
  refine ⟨h.1.imp fun {q q'} hs => by simpa only [mattersB_iff] using hs, fun q hq hmat v f g k hv => ?_, fun q hq hmat => ?_⟩
  · have := h2 q hq hmat
    unfold meetB at this
    rw [Bool.and_eq_true, List.all_eq_true] at this
    have := this.1 (v, f, g, k) ((mem_meetList _ _ _ _ _ _).mpr hv)
    simpa only [Bool.and_eq_true, decide_eq_true_eq] using this
  · have := h2 q hq hmat
    unfold meetB at this
    rw [Bool.and_eq_true, Bool.or_eq_true, List.all_eq_true, List.all_eq_true, List.any_eq_true] at this
    rcases this.2 with hb | ⟨⟨v, f, g, k⟩, hm, ha⟩
    · refine Or.inl fun v f g k hv => ?_
      simpa only [decide_eq_true_eq] using hb (v, f, g, k) ((mem_meetList _ _ _ _ _ _).mpr hv)
    · refine Or.inr ⟨v, f, g, k, (mem_meetList _ _ _ _ _ _).mp hm, fun v' f' g' k' hv' hle => ?_⟩
      rw [List.all_eq_true] at ha
      have := ha (v', f', g', k') ((mem_meetList _ _ _ _ _ _).mpr hv')
      rw [Bool.or_eq_true, decide_eq_true_eq, decide_eq_true_eq] at this
      rcases this with h | h
      · exact absurd hle (not_le.mpr h)
      · exact h

/-- the test for all points -/
def allMarginsS (m : ℚ) (L : List (Pt ℚ)) : Bool := L.zipIdx.all fun e => marginS m L e.2 e.1

theorem allMarginsS_sound {m : ℚ} {L : List (Pt ℚ)} (h : allMarginsS m L = true) : AllMarginsBy m L := by
  intro i p hp
  unfold allMarginsS at h
  rw [List.all_eq_true] at h
  exact marginS_sound (h (p, i) (List.mem_zipIdx_iff_getElem?.mpr hp))

/-- four points in a cube of edge length 1/150 -/
def densePts : List (Pt ℚ) :=
  [⟨1007/2000, 993/2000, 995/2000⟩, ⟨994/2000, 994/2000, 1006/2000⟩, ⟨994/2000, 999/2000, 995/2000⟩,
    ⟨1007/2000, 997/2000, 1005/2000⟩]

theorem dense_input : InputOK densePts := by
  intro p hp
  simp only [densePts, List.mem_cons, List.not_mem_nil, or_false] at hp
  rcases hp with rfl | rfl | rfl | rfl <;> norm_num

set_option maxRecDepth 100000 in
theorem dense_margins : AllMarginsBy 4 densePts := allMarginsS_sound (by decide +kernel)

/-! ### two points -/

/-- the corners of the box -/
def BoxCorner (v : Pt ℚ) : Prop := (v.x = 0 ∨ v.x = 1) ∧ (v.y = 0 ∨ v.y = 1) ∧ (v.z = 0 ∨ v.z = 1)

/-- every corner of the box is clearly closer to one of the points, by an amount that depends on their distance -/
def PairApart (m : ℚ) (p q : Pt ℚ) : Prop :=
  ∀ v, BoxCorner v → m / 2 ^ 13 * span p q < |sqDist v p - sqDist v q| ∧ m / 2 ^ 16 < |sqDist v p - sqDist v q|

theorem box_meet : (meetList ⟨0, 0, 0⟩ []).all (fun e => decide (sharp e.2.1 e.2.2.1 e.2.2.2 = 1) &&
    (decide (e.1.x = 0 ∨ e.1.x = 1) && decide (e.1.y = 0 ∨ e.1.y = 1) && decide (e.1.z = 0 ∨ e.1.z = 1))) = true := by
  decide +kernel

theorem meet_box {p v : Pt ℚ} {f g h : Plane ℚ} (hv : Meet p [p] v f g h) : sharp f g h = 1 ∧ BoxCorner v := by
  have hz : ∀ f g : Plane ℚ, det3 (bisectorPlane p p) f g = 0 ∧ det3 f (bisectorPlane p p) g = 0 ∧
      det3 f g (bisectorPlane p p) = 0 := by
    intro f g
    unfold det3 bisectorPlane
    simp only [sub_self]
    refine ⟨?_, ?_, ?_⟩ <;> ring
  have hb : ∀ f, f ∈ boundaryPlanes p [p] → f = bisectorPlane p p ∨ f ∈ boundaryPlanes (⟨0, 0, 0⟩ : Pt ℚ) [] := by
    intro f hf
    unfold boundaryPlanes at hf ⊢
    rcases List.mem_append.mp hf with hf | hf
    · exact Or.inr (List.mem_append_left _ hf)
    · simp only [List.map_cons, List.map_nil, List.mem_singleton] at hf
      exact Or.inl hf
  obtain ⟨h1, h2, h3, h4, h5, h6, h7, h8⟩ := hv
  have hf := (hb f h3).resolve_left (by rintro rfl; exact h2 (hz _ _).1)
  have hg := (hb g h4).resolve_left (by rintro rfl; exact h2 (hz _ _).2.1)
  have hh := (hb h h5).resolve_left (by rintro rfl; exact h2 (hz _ _).2.2)
  have hm : Meet ⟨0, 0, 0⟩ [] v f g h := ⟨⟨h1.1, by simp⟩, h2, hf, hg, hh, h6, h7, h8⟩
  have := List.all_eq_true.mp box_meet _ ((mem_meetList _ _ _ _ _ _).mpr hm)
  simp only [Bool.and_eq_true, decide_eq_true_eq] at this
  exact ⟨this.1, this.2.1.1, this.2.1.2, this.2.2⟩

theorem box_meets (p : Pt ℚ) (hp : InUnitBox p) {v : Pt ℚ} (hv : BoxCorner v) : ∃ f g h, Meet p [p] v f g h := by
  have hf : ∀ f ∈ boxFaces, f ∈ boundaryPlanes p [p] := fun f hf => List.mem_append_left _ hf
  obtain ⟨x, y, z⟩ := v
  have hc : ∀ v, BoxCorner v → VoronoiCell p [p] v := by
    rintro ⟨a, b, c⟩ ⟨h1, h2, h3⟩
    refine ⟨⟨?_, ?_, ?_⟩, by simp⟩ <;> simp only at h1 h2 h3 ⊢
    · rcases h1 with h | h <;> rw [h] <;> norm_num
    · rcases h2 with h | h <;> rw [h] <;> norm_num
    · rcases h3 with h | h <;> rw [h] <;> norm_num
  have hcv := hc _ hv
  obtain ⟨hx, hy, hz⟩ := hv
  simp only at hx hy hz
  have hX : ∃ f ∈ (boxFaces : List (Plane ℚ)), f.a ≠ 0 ∧ f.b = 0 ∧ f.c = 0 ∧ f.eval ⟨x, y, z⟩ = 0 := by
    rcases hx with h | h
    · exact ⟨⟨1, 0, 0, 0⟩, by simp [boxFaces], by norm_num, rfl, rfl, by simp [Plane.eval, h]⟩
    · exact ⟨⟨-1, 0, 0, 1⟩, by simp [boxFaces], by norm_num, rfl, rfl, by simp [Plane.eval, h]⟩
  have hY : ∃ f ∈ (boxFaces : List (Plane ℚ)), f.a = 0 ∧ f.b ≠ 0 ∧ f.c = 0 ∧ f.eval ⟨x, y, z⟩ = 0 := by
    rcases hy with h | h
    · exact ⟨⟨0, 1, 0, 0⟩, by simp [boxFaces], rfl, by norm_num, rfl, by simp [Plane.eval, h]⟩
    · exact ⟨⟨0, -1, 0, 1⟩, by simp [boxFaces], rfl, by norm_num, rfl, by simp [Plane.eval, h]⟩
  have hZ : ∃ f ∈ (boxFaces : List (Plane ℚ)), f.a = 0 ∧ f.b = 0 ∧ f.c ≠ 0 ∧ f.eval ⟨x, y, z⟩ = 0 := by
    rcases hz with h | h
    · exact ⟨⟨0, 0, 1, 0⟩, by simp [boxFaces], rfl, rfl, by norm_num, by simp [Plane.eval, h]⟩
    · exact ⟨⟨0, 0, -1, 1⟩, by simp [boxFaces], rfl, rfl, by norm_num, by simp [Plane.eval, h]⟩
  obtain ⟨f, f1, f2, f3, f4, f5⟩ := hX
  obtain ⟨g, g1, g2, g3, g4, g5⟩ := hY
  obtain ⟨h, h1, h2, h3, h4, h5⟩ := hZ
  refine ⟨f, g, h, hcv, ?_, hf f f1, hf g g1, hf h h1, f5, g5, h5⟩
  unfold det3
  rw [f3, f4, g2, g4, h2, h3]
  simp [f2, g3, h4]

/-- margins of the first of two points -/
theorem pair_margins_at {m : ℚ} (h0 : 0 < m) (h4 : m ≤ 4) {X : List (Pt ℚ)} {i : Nat} {p q : Pt ℚ}
    (hX : X.eraseIdx i = [q]) (hmem : ∀ c, c ∈ X ↔ c = p ∨ c = q) (hp : InUnitBox p) (hq : InUnitBox q)
    (h : PairApart m p q) : MarginsBy m X i p := by
  have hne : 0 < sqDist p q := by
    rcases lt_or_eq_of_le (sqDist_nonneg p q) with h1 | h1
    · exact h1
    · exfalso
      have hx : p = q := by
        have e : (p.x - q.x) ^ 2 + (p.y - q.y) ^ 2 + (p.z - q.z) ^ 2 = 0 := by rw [h1]; unfold sqDist; ring
        have a := sq_nonneg (p.x - q.x); have b := sq_nonneg (p.y - q.y); have c := sq_nonneg (p.z - q.z)
        have a0 : p.x - q.x = 0 := pow_eq_zero_iff (two_ne_zero) |>.mp (by linarith)
        have b0 : p.y - q.y = 0 := pow_eq_zero_iff (two_ne_zero) |>.mp (by linarith)
        have c0 : p.z - q.z = 0 := pow_eq_zero_iff (two_ne_zero) |>.mp (by linarith)
        cases p; cases q; simp only [Pt.mk.injEq]; simp only at a0 b0 c0
        exact ⟨by linarith, by linarith, by linarith⟩
      have := (h ⟨0, 0, 0⟩ ⟨Or.inl rfl, Or.inl rfl, Or.inl rfl⟩).2
      rw [hx, sub_self, abs_zero] at this
      have : 0 < m / 2 ^ 16 := by positivity
      linarith
  have hpp : sqDist p p = 0 := by simp [sqDist]
  have hcl : ∀ c, c ∈ closerTo X p q ↔ c ∈ [p] := by
    intro c
    unfold closerTo
    rw [List.mem_filter, decide_eq_true_eq, hmem, List.mem_singleton]
    constructor
    · rintro ⟨rfl | rfl, h⟩
      · rfl
      · exact absurd h (lt_irrefl _)
    · rintro rfl
      exact ⟨Or.inl rfl, by rw [hpp]; exact hne⟩
  have hmeet : ∀ v f g k, Meet p (closerTo X p q) v f g k ↔ Meet p [p] v f g k := by
    have key : ∀ {A B : List (Pt ℚ)}, (∀ c, c ∈ A ↔ c ∈ B) → ∀ v f g k, Meet p A v f g k → Meet p B v f g k := by
      intro A B hAB v f g k hv
      have hb : ∀ f, f ∈ boundaryPlanes p A → f ∈ boundaryPlanes p B := by
        intro f hf
        unfold boundaryPlanes at hf ⊢
        rcases List.mem_append.mp hf with hf | hf
        · exact List.mem_append_left _ hf
        · obtain ⟨c, hc, e⟩ := List.mem_map.mp hf
          exact List.mem_append_right _ (List.mem_map.mpr ⟨c, (hAB c).mp hc, e⟩)
      exact ⟨⟨hv.cell.1, fun c hc => hv.cell.2 c ((hAB c).mpr hc)⟩, hv.det, hb f hv.f_mem, hb g hv.g_mem,
        hb k hv.h_mem, hv.f_on, hv.g_on, hv.h_on⟩
    exact fun v f g k => ⟨key hcl v f g k, key (fun c => (hcl c).symm) v f g k⟩
  refine ⟨by rw [hX]; exact List.pairwise_singleton _ _, ?_, ?_⟩
  · intro q' hq' _ v f g k hv
    rw [hX, List.mem_singleton] at hq'
    subst hq'
    obtain ⟨s, hb⟩ := meet_box ((hmeet _ _ _ _).mp hv)
    obtain ⟨h1, h2⟩ := h v hb
    refine ⟨by rw [s]; linarith, ?_, h2⟩
    unfold blur
    rw [s, div_one]
    linarith
  · intro q' hq' _
    rw [hX, List.mem_singleton] at hq'
    subst hq'
    right
    obtain ⟨⟨x1, x2⟩, ⟨y1, y2⟩, z1, z2⟩ := hp
    obtain ⟨⟨u1, u2⟩, ⟨v1, v2⟩, w1, w2⟩ := hq
    have pick : ∀ a b : ℚ, 0 ≤ a → a ≤ 1 → 0 ≤ b → b ≤ 1 → ∃ c : ℚ, (c = 0 ∨ c = 1) ∧ 1 / 4 ≤ (c - a) ^ 2 ∧ (b - a) ^ 2 ≤ (c - a) ^ 2 := by
      intro a b a0 a1 b0 b1
      rcases le_total a (1 / 2) with ha | ha
      · exact ⟨1, Or.inr rfl, by nlinarith, by nlinarith⟩
      · exact ⟨0, Or.inl rfl, by nlinarith, by nlinarith⟩
    obtain ⟨cx, e1, e2, e3⟩ := pick p.x q'.x x1 x2 u1 u2
    obtain ⟨cy, f1, f2, f3⟩ := pick p.y q'.y y1 y2 v1 v2
    obtain ⟨cz, g1, g2, g3⟩ := pick p.z q'.z z1 z2 w1 w2
    have hcb : BoxCorner ⟨cx, cy, cz⟩ := ⟨e1, f1, g1⟩
    obtain ⟨f, g, k, hm⟩ := box_meets p ⟨⟨x1, x2⟩, ⟨y1, y2⟩, z1, z2⟩ hcb
    refine ⟨_, f, g, k, (hmeet _ _ _ _).mpr hm, fun v' f' g' k' hv' hle => ?_⟩
    obtain ⟨s, hb⟩ := meet_box ((hmeet _ _ _ _).mp hv')
    have hv := hv'.cell.1
    obtain ⟨⟨i1, i2⟩, ⟨j1, j2⟩, k1, k2⟩ := hv
    have hmax : max |p.x - v'.x| (max |p.y - v'.y| |p.z - v'.z|) ≤ 1 :=
      max_le (abs_le.mpr ⟨by linarith, by linarith⟩) (max_le (abs_le.mpr ⟨by linarith, by linarith⟩)
        (abs_le.mpr ⟨by linarith, by linarith⟩))
    have hsl : slack m (blur m f' g' k') p v' < 1 := by
      unfold slack blur
      rw [s, div_one]
      have b0 : 0 ≤ m / 2 ^ 16 := by positivity
      have b1 : m / 2 ^ 16 ≤ 1 / 2 ^ 14 := by linarith
      have : 27 * (m / 2 ^ 16) * (max |p.x - v'.x| (max |p.y - v'.y| |p.z - v'.z|) + m / 2 ^ 16) ≤ 27 * (1 / 2 ^ 14) * 2 :=
        mul_le_mul (by linarith) (by linarith) (add_nonneg (le_max_of_le_left (abs_nonneg _)) b0) (by norm_num)
      linarith
    have d1 : sqDist ⟨cx, cy, cz⟩ p = (cx - p.x) ^ 2 + (cy - p.y) ^ 2 + (cz - p.z) ^ 2 := by unfold sqDist; ring
    have d2 : sqDist q' p = (q'.x - p.x) ^ 2 + (q'.y - p.y) ^ 2 + (q'.z - p.z) ^ 2 := by unfold sqDist; ring
    linarith

theorem PairApart.symm {m : ℚ} {p q : Pt ℚ} (h : PairApart m p q) : PairApart m q p := by
  have e : span q p = span p q := by
    unfold span Plane.size bisectorPlane
    simp only
    rw [abs_sub_comm p.x, abs_sub_comm p.y, abs_sub_comm p.z]
  intro v hv
  rw [e, abs_sub_comm]
  exact h v hv

/-- two points have margins if no corner of the box is about as far from the one as from the other -/
theorem pair_margins {m : ℚ} (h0 : 0 < m) (h4 : m ≤ 4) {p q : Pt ℚ} (hp : InUnitBox p) (hq : InUnitBox q)
    (h : PairApart m p q) : AllMarginsBy m [p, q] := by
  intro i a ha
  match i, ha with
  | 0, ha =>
    cases ha
    exact pair_margins_at h0 h4 rfl (by simp) hp hq h
  | 1, ha =>
    cases ha
    exact pair_margins_at h0 h4 rfl (by simp [or_comm]) hq hp h.symm
  | n + 2, ha => simp at ha

/-- a correct row for one of two points -/
theorem pair_row {p q : Pt ℚ} (hpb : InUnitBox p) (hqb : InUnitBox q) {L : List (Pt ℚ)} (hL : L.Perm [p, q]) {i : Nat} {a : Pt ℚ}
    (ha : L[i]? = some a) {row : List Int} (hc : CorrectRow L i a row) (he : ExactRow L i a row) : row = [1 - (i : Int)] := by
  have hlen : L.length = 2 := hL.length_eq
  have hi : i < 2 := by rw [← hlen]; exact (List.getElem?_eq_some_iff.mp ha).1
  have hbox : ∀ v ∈ L, InUnitBox v := by
    intro v hv
    have := hL.mem_iff.mp hv
    simp only [List.mem_cons, List.not_mem_nil, or_false] at this
    rcases this with rfl | rfl <;> assumption
  have hj : 1 - i < L.length := by omega
  have hb : L[1 - i]? = some L[1 - i] := List.getElem?_eq_getElem hj
  -- the midpoint belongs to both cells
  have htouch : Touch L a L[1 - i] := by
    obtain ⟨⟨x1, x2⟩, ⟨y1, y2⟩, z1, z2⟩ := hbox a (List.mem_of_getElem? ha)
    obtain ⟨⟨u1, u2⟩, ⟨v1, v2⟩, w1, w2⟩ := hbox _ (List.getElem_mem hj)
    obtain ⟨b, eb⟩ : ∃ b, b = L[1 - i] := ⟨_, rfl⟩
    rw [← eb] at u1 u2 v1 v2 w1 w2 ⊢
    have hin : InUnitBox (⟨(a.x + b.x) / 2, (a.y + b.y) / 2, (a.z + b.z) / 2⟩ : Pt ℚ) :=
      ⟨⟨by simp only; linarith, by simp only; linarith⟩, ⟨by simp only; linarith, by simp only; linarith⟩,
        by simp only; linarith, by simp only; linarith⟩
    have heq : sqDist ⟨(a.x + b.x) / 2, (a.y + b.y) / 2, (a.z + b.z) / 2⟩ a =
        sqDist ⟨(a.x + b.x) / 2, (a.y + b.y) / 2, (a.z + b.z) / 2⟩ b := by unfold sqDist; ring
    have hall : ∀ c ∈ L, c = a ∨ c = b := by
      intro c hc
      obtain ⟨n, hn, rfl⟩ := List.getElem_of_mem hc
      have : n = i ∨ n = 1 - i := by omega
      rcases this with rfl | rfl
      · rw [List.getElem?_eq_getElem hn] at ha; exact Or.inl (Option.some.inj ha)
      · exact Or.inr eb.symm
    refine ⟨_, ⟨hin, fun c hc => ?_⟩, hin, fun c hc => ?_⟩
    · rcases hall c hc with rfl | rfl
      · exact le_refl _
      · exact heq.le
    · rcases hall c hc with rfl | rfl
      · exact heq.ge
      · exact le_refl _
  have e1 : ((1 - i : Nat) : Int) = 1 - (i : Int) := by omega
  have hmem : (1 - (i : Int)) ∈ row := by
    rw [← e1]
    exact (he (1 - i)).mpr ⟨by omega, _, hb, htouch⟩
  have honly : ∀ v ∈ row, v = 1 - (i : Int) := by
    intro v hv
    obtain ⟨w, b, rfl, hw, hwi, -⟩ := hc.touch v hv
    have : w < L.length := (List.getElem?_eq_some_iff.mp hw).1
    omega
  match row, hmem, honly, hc.distinct with
  | [v], _, honly, _ => rw [honly v (by simp)]
  | v :: w :: r, _, honly, hd =>
    have h1 := honly v (by simp)
    have h2 := honly w (by simp)
    exact absurd (by rw [h1, h2]) ((List.pairwise_cons.mp hd).1 w (by simp))

/-! ### the results -/

/-- C82: two points are each other's only neighbour, also when they are close together, if no corner of the box is about as far
from the one as from the other; what "about" means shrinks with their distance.  For every build, every grid and every
number of threads. -/
theorem C82_pair (ch : Choice b32) {hw : Nat} {prm : Params} {p q : Pt ℚ} (h : FloatSizes hw prm)
    (hX : InputOK [p, q]) (hm : PairApart 2 p q) (hroom : Roomy prm 2) :
    ∃ (out : TessOut (Fm ch)) (L : List (Pt ℚ)), tesellateCpu 4 hw prm ([p, q].map (storeFm ch)) = .ok out ∧
      out.xyz = L.map (storeFm ch) ∧ L.Perm [p, q] ∧ RowIs out.dnn 0 [1] ∧ RowIs out.dnn 1 [0] := by
  have hp := input_box hX p (by simp)
  have hq := input_box hX q (by simp)
  obtain ⟨out, L, h1, h2, h3, h4⟩ := C75_enough_room ch h hX (pair_margins two_pos (by norm_num) hp hq hm) hroom
  have hrow : ∀ i, i < 2 → RowIs out.dnn i [1 - (i : Int)] := by
    intro i hi
    have hi' : i < L.length := by rw [h3.length_eq]; exact hi
    obtain ⟨row, r1, r2, r3⟩ := h4 i _ (List.getElem?_eq_getElem hi')
    rwa [pair_row hp hq h3 (List.getElem?_eq_getElem hi') r2 r3] at r1
  exact ⟨out, L, h1, h2, h3, hrow 0 (by norm_num), hrow 1 (by norm_num)⟩

/-- C82: margins that do not depend on the distances are margins. -/
theorem C82_wide {m : ℚ} (h0 : 0 < m) {X : List (Pt ℚ)} (hX : InputOK X) (h : AllWideMarginsBy m X) : AllMarginsBy m X :=
  h.margins h0 (input_box hX)

set_option maxRecDepth 100000 in
/-- C82: not the other way round: the cluster does not have a two-hundredth of the wide margins needed -/
theorem C82_not_wide : ¬ AllWideMarginsBy (1 / 100) densePts := by
  intro h
  have hw := (h 0 ⟨1007/2000, 993/2000, 995/2000⟩ rfl).room ⟨994/2000, 994/2000, 1006/2000⟩ (by simp [densePts])
    ((mattersB_iff _ _ _).mp (by decide +kernel))
  have ht : ((cornerList ⟨1007/2000, 993/2000, 995/2000⟩ (closerTo densePts ⟨1007/2000, 993/2000, 995/2000⟩
      ⟨994/2000, 994/2000, 1006/2000⟩)).all fun c => decide ((1 / 100 : ℚ) / 2 ^ 12 ≤ |c.2|) &&
      decide ((1 / 100 : ℚ) / 2 ^ 13 < |sqDist c.1 ⟨1007/2000, 993/2000, 995/2000⟩ -
        sqDist c.1 ⟨994/2000, 994/2000, 1006/2000⟩| * |c.2|)) = true := by
    rw [List.all_eq_true]
    rintro ⟨v, D⟩ hv
    simpa only [Bool.and_eq_true, decide_eq_true_eq] using hw v D ((mem_cornerList _ _ _ _).mp hv)
  have hf : ((cornerList ⟨1007/2000, 993/2000, 995/2000⟩ (closerTo densePts ⟨1007/2000, 993/2000, 995/2000⟩
      ⟨994/2000, 994/2000, 1006/2000⟩)).all fun c => decide ((1 / 100 : ℚ) / 2 ^ 12 ≤ |c.2|) &&
      decide ((1 / 100 : ℚ) / 2 ^ 13 < |sqDist c.1 ⟨1007/2000, 993/2000, 995/2000⟩ -
        sqDist c.1 ⟨994/2000, 994/2000, 1006/2000⟩| * |c.2|)) = false := by decide +kernel
  rw [hf] at ht
  cases ht

/-- C82: the rows of the four points of the cluster are exact -/
theorem C82_cluster (ch : Choice b32) (hw : Nat) (h1 : 1 ≤ hw) : ∃ (out : TessOut (Fm ch)) (L : List (Pt ℚ)),
    tesellateCpu 4 hw ⟨3, 5, 12, 20, 0, 0, false, false⟩ (densePts.map (storeFm ch)) = .ok out ∧
    out.xyz = L.map (storeFm ch) ∧ L.Perm densePts ∧
    ∀ i p, L[i]? = some p → ∃ row, RowIs out.dnn i row ∧ CorrectRow L i p row ∧ ExactRow L i p row :=
  C75_enough_room ch ⟨by decide, by decide, by decide, by decide, Or.inr h1⟩ dense_input
    (fun i p hp => (dense_margins i p hp).mono (by norm_num) (by norm_num)) ⟨by decide, by decide, by decide, rfl⟩

/-- the hypotheses of `C82_pair` are met by two points at distance 1/400 along an axis, near a face -/
example : InputOK [⟨3/4, 1/3, 1/5⟩, ⟨301/400, 1/3, 1/5⟩] ∧ PairApart 2 ⟨3/4, 1/3, 1/5⟩ ⟨301/400, 1/3, 1/5⟩ ∧
    Roomy ⟨1, 3, 8, 12, 0, 0, false, false⟩ 2 := by
  refine ⟨?_, ?_, by decide, by decide, by decide, rfl⟩
  · intro p hp
    simp only [List.mem_cons, List.not_mem_nil, or_false] at hp
    rcases hp with rfl | rfl <;> norm_num
  · rintro ⟨x, y, z⟩ ⟨hx, hy, hz⟩
    simp only at hx hy hz
    have e : span (⟨3/4, 1/3, 1/5⟩ : Pt ℚ) ⟨301/400, 1/3, 1/5⟩ = 1 / 400 := by
      norm_num [span, Plane.size, bisectorPlane]
    rw [e]
    rcases hx with rfl | rfl <;> norm_num [sqDist]

end Votess
