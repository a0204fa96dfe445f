import Verif.Spec.Symmetry
import Verif.Proofs.MarginBase
/-!
# Symmetries of the box and margins
-/
namespace Votess

variable {K : Type} [Field K] [LinearOrder K]

/-- the greatest difference of coordinates -/
def maxNorm (p v : Pt K) : K := max |p.x - v.x| (max |p.y - v.y| |p.z - v.z|)

/-- what is used about a symmetry `g` of the box; `G` maps planes as `g` maps their points -/
structure BoxIso (g : Pt K → Pt K) (G : Plane K → Plane K) : Prop where
  dist : ∀ a b, sqDist (g a) (g b) = sqDist a b
  box : ∀ a, InUnitBox (g a) ↔ InUnitBox a
  surj : ∀ b, ∃ a, g a = b
  norm : ∀ a b, maxNorm (g a) (g b) = maxNorm a b
  eval : ∀ f v, (G f).eval (g v) = f.eval v
  bis : ∀ a b, G (bisectorPlane a b) = bisectorPlane (g a) (g b)
  face : ∀ f ∈ (boxFaces : List (Plane K)), G f ∈ (boxFaces : List (Plane K))
  back : ∀ f ∈ (boxFaces : List (Plane K)), ∃ f' ∈ (boxFaces : List (Plane K)), G f' = f
  det : ∀ f f' f'', |det3 (G f) (G f') (G f'')| = |det3 f f' f''|
  size : ∀ f, (G f).size = f.size

theorem BoxIso.comp {g g' : Pt K → Pt K} {G G' : Plane K → Plane K} (h : BoxIso g G) (h' : BoxIso g' G') :
    BoxIso (fun p => g (g' p)) (fun f => G (G' f)) where
  dist a b := by rw [h.dist, h'.dist]
  box a := by rw [h.box, h'.box]
  surj b := by
    obtain ⟨a, rfl⟩ := h.surj b
    obtain ⟨c, rfl⟩ := h'.surj a
    exact ⟨c, rfl⟩
  norm a b := by rw [h.norm, h'.norm]
  eval f v := by rw [h.eval, h'.eval]
  bis a b := by rw [h'.bis, h.bis]
  face f hf := h.face _ (h'.face f hf)
  back f hf := by
    obtain ⟨a, ha, rfl⟩ := h.back f hf
    obtain ⟨b, hb, rfl⟩ := h'.back a ha
    exact ⟨b, hb, rfl⟩
  det f f' f'' := by rw [h.det, h'.det]
  size f := by rw [h.size, h'.size]

theorem BoxIso.id : BoxIso (fun p : Pt K => p) (fun f => f) :=
  ⟨fun _ _ => rfl, fun _ => Iff.rfl, fun b => ⟨b, rfl⟩, fun _ _ => rfl, fun _ _ => rfl, fun _ _ => rfl, fun _ h => h,
    fun f h => ⟨f, h, rfl⟩, fun _ _ _ => rfl, fun _ => rfl⟩

variable [IsStrictOrderedRing K]

theorem boxIso_swapXY : BoxIso (K := K) swapXY fun f => ⟨f.b, f.a, f.c, f.d⟩ where
  dist a b := by simp only [sqDist, swapXY]; ring
  box a := by simp only [InUnitBox, swapXY]; tauto
  surj b := ⟨swapXY b, rfl⟩
  norm a b := by simp only [maxNorm, swapXY]; exact max_left_comm _ _ _
  eval f v := by simp only [Plane.eval, swapXY]; ring
  bis a b := by simp only [bisectorPlane, swapXY, Plane.mk.injEq, true_and]; ring
  face f hf := by
    simp only [boxFaces, List.mem_cons, List.not_mem_nil, or_false] at hf ⊢
    rcases hf with rfl | rfl | rfl | rfl | rfl | rfl <;> simp
  back f hf := ⟨⟨f.b, f.a, f.c, f.d⟩, by
    simp only [boxFaces, List.mem_cons, List.not_mem_nil, or_false] at hf ⊢
    rcases hf with rfl | rfl | rfl | rfl | rfl | rfl <;> simp, rfl⟩
  det f f' f'' := by rw [← abs_neg (det3 f f' f'')]; congr 1; simp only [det3]; ring
  size f := by simp only [Plane.size]; rw [max_left_comm |f.b|]

theorem boxIso_swapYZ : BoxIso (K := K) swapYZ fun f => ⟨f.a, f.c, f.b, f.d⟩ where
  dist a b := by simp only [sqDist, swapYZ]; ring
  box a := by simp only [InUnitBox, swapYZ]; tauto
  surj b := ⟨swapYZ b, rfl⟩
  norm a b := by simp only [maxNorm, swapYZ]; rw [max_comm |a.z - b.z|]
  eval f v := by simp only [Plane.eval, swapYZ]; ring
  bis a b := by simp only [bisectorPlane, swapYZ, Plane.mk.injEq, true_and]; ring
  face f hf := by
    simp only [boxFaces, List.mem_cons, List.not_mem_nil, or_false] at hf ⊢
    rcases hf with rfl | rfl | rfl | rfl | rfl | rfl <;> simp
  back f hf := ⟨⟨f.a, f.c, f.b, f.d⟩, by
    simp only [boxFaces, List.mem_cons, List.not_mem_nil, or_false] at hf ⊢
    rcases hf with rfl | rfl | rfl | rfl | rfl | rfl <;> simp, rfl⟩
  det f f' f'' := by rw [← abs_neg (det3 f f' f'')]; congr 1; simp only [det3]; ring
  size f := by simp only [Plane.size]; rw [max_comm |f.c|]

theorem boxIso_flipX : BoxIso (K := K) flipX fun f => ⟨-f.a, f.b, f.c, f.d + f.a⟩ where
  dist a b := by simp only [sqDist, flipX]; ring
  box a := by
    simp only [InUnitBox, flipX]
    constructor <;> rintro ⟨⟨h1, h2⟩, h3⟩ <;> exact ⟨⟨by linarith, by linarith⟩, h3⟩
  surj b := ⟨flipX b, by simp [flipX]⟩
  norm a b := by
    simp only [maxNorm, flipX]
    rw [show (1 - a.x - (1 - b.x)) = -(a.x - b.x) by ring, abs_neg]
  eval f v := by simp only [Plane.eval, flipX]; ring
  bis a b := by
    simp only [bisectorPlane, flipX, Plane.mk.injEq, true_and]
    exact ⟨by ring, by ring⟩
  face f hf := by
    simp only [boxFaces, List.mem_cons, List.not_mem_nil, or_false] at hf ⊢
    rcases hf with rfl | rfl | rfl | rfl | rfl | rfl <;> simp
  back f hf := ⟨⟨-f.a, f.b, f.c, f.d + f.a⟩, by
    simp only [boxFaces, List.mem_cons, List.not_mem_nil, or_false] at hf ⊢
    rcases hf with rfl | rfl | rfl | rfl | rfl | rfl <;> simp, by simp⟩
  det f f' f'' := by rw [← abs_neg (det3 f f' f'')]; congr 1; simp only [det3]; ring
  size f := by simp only [Plane.size, abs_neg]

theorem CubeSym.iso {g : Pt K → Pt K} (h : CubeSym g) : ∃ G, BoxIso g G := by
  induction h with
  | id => exact ⟨_, .id⟩
  | swapXY _ ih => obtain ⟨G, h⟩ := ih; exact ⟨_, boxIso_swapXY.comp h⟩
  | swapYZ _ ih => obtain ⟨G, h⟩ := ih; exact ⟨_, boxIso_swapYZ.comp h⟩
  | flipX _ ih => obtain ⟨G, h⟩ := ih; exact ⟨_, boxIso_flipX.comp h⟩

section
variable {g : Pt K → Pt K} {G : Plane K → Plane K} (hg : BoxIso g G) {L : List (Pt K)} {p q v : Pt K}
include hg

theorem BoxIso.inj : Function.Injective g := by
  intro a b h
  have h1 := hg.dist a b
  rw [h] at h1
  have h0 : sqDist a b = 0 := by rw [← h1]; simp [sqDist]
  unfold sqDist at h0
  have s1 := sq_nonneg (a.x - b.x); have s2 := sq_nonneg (a.y - b.y); have s3 := sq_nonneg (a.z - b.z)
  have e1 : a.x - b.x = 0 := by apply pow_eq_zero_iff two_ne_zero |>.mp; linarith
  have e2 : a.y - b.y = 0 := by apply pow_eq_zero_iff two_ne_zero |>.mp; linarith
  have e3 : a.z - b.z = 0 := by apply pow_eq_zero_iff two_ne_zero |>.mp; linarith
  cases a; cases b
  simp only [Pt.mk.injEq] at *
  exact ⟨by linarith, by linarith, by linarith⟩

omit [IsStrictOrderedRing K] in
theorem BoxIso.cell : VoronoiCell (g p) (L.map g) (g v) ↔ VoronoiCell p L v := by
  unfold VoronoiCell
  simp only [List.forall_mem_map, hg.dist, hg.box]

omit [IsStrictOrderedRing K] in
theorem BoxIso.touch : Touch (L.map g) (g p) (g q) ↔ Touch L p q := by
  unfold Touch
  constructor
  · rintro ⟨x, h1, h2⟩
    obtain ⟨y, rfl⟩ := hg.surj x
    exact ⟨y, hg.cell.mp h1, hg.cell.mp h2⟩
  · rintro ⟨x, h1, h2⟩
    exact ⟨g x, hg.cell.mpr h1, hg.cell.mpr h2⟩

omit [IsStrictOrderedRing K] in
theorem BoxIso.closer : closerTo (L.map g) (g p) (g q) = (closerTo L p q).map g := by
  unfold closerTo
  rw [List.filter_map]
  congr 1
  apply List.filter_congr
  intro c _
  simp only [Function.comp, hg.dist]

omit [IsStrictOrderedRing K] in
theorem BoxIso.beyond : Beyond (L.map g) (g p) (g q) ↔ Beyond L p q := by
  unfold Beyond
  rw [hg.closer, hg.dist]
  constructor
  · intro h v hv
    rw [← hg.dist v p]
    exact h _ (hg.cell.mpr hv)
  · intro h v hv
    obtain ⟨v, rfl⟩ := hg.surj v
    rw [hg.dist]
    exact h _ (hg.cell.mp hv)

omit [IsStrictOrderedRing K] in
theorem BoxIso.matters : Matters (L.map g) (g p) (g q) ↔ Matters L p q := by
  unfold Matters
  rw [hg.closer]
  simp only [List.forall_mem_map, hg.beyond]

omit [IsStrictOrderedRing K] in
theorem BoxIso.span : span (g p) (g q) = span p q := by
  unfold Votess.span
  rw [← hg.bis, hg.size]

omit [IsStrictOrderedRing K] in
theorem BoxIso.plane {f : Plane K} (h : f ∈ boundaryPlanes (g p) (L.map g)) : ∃ f' ∈ boundaryPlanes p L, G f' = f := by
  unfold boundaryPlanes at *
  rcases List.mem_append.mp h with h | h
  · obtain ⟨f', h1, h2⟩ := hg.back f h
    exact ⟨f', List.mem_append_left _ h1, h2⟩
  · rw [List.map_map] at h
    obtain ⟨q, hq, rfl⟩ := List.mem_map.mp h
    exact ⟨bisectorPlane p q, List.mem_append_right _ (List.mem_map.mpr ⟨q, hq, rfl⟩), hg.bis p q⟩

omit [IsStrictOrderedRing K] in
theorem BoxIso.plane' {f : Plane K} (h : f ∈ boundaryPlanes p L) : G f ∈ boundaryPlanes (g p) (L.map g) := by
  unfold boundaryPlanes at *
  rcases List.mem_append.mp h with h | h
  · exact List.mem_append_left _ (hg.face f h)
  · obtain ⟨q, hq, rfl⟩ := List.mem_map.mp h
    exact List.mem_append_right _ (List.mem_map.mpr ⟨g q, List.mem_map.mpr ⟨q, hq, rfl⟩, (hg.bis p q).symm⟩)

theorem BoxIso.det_ne {a b c : Plane K} : det3 (G a) (G b) (G c) ≠ 0 ↔ det3 a b c ≠ 0 := by
  rw [← abs_pos, hg.det, abs_pos]

/-- the corners are the images of the corners -/
theorem BoxIso.meet_back {v : Pt K} {a b c : Plane K} (h : Meet (g p) (L.map g) v a b c) :
    ∃ v' a' b' c', Meet p L v' a' b' c' ∧ g v' = v ∧ G a' = a ∧ G b' = b ∧ G c' = c := by
  obtain ⟨v, rfl⟩ := hg.surj v
  obtain ⟨a, ha, rfl⟩ := hg.plane h.f_mem
  obtain ⟨b, hb, rfl⟩ := hg.plane h.g_mem
  obtain ⟨c, hc, rfl⟩ := hg.plane h.h_mem
  exact ⟨v, a, b, c, ⟨hg.cell.mp h.cell, hg.det_ne.mp h.det, ha, hb, hc, by rw [← hg.eval]; exact h.f_on,
    by rw [← hg.eval]; exact h.g_on, by rw [← hg.eval]; exact h.h_on⟩, rfl, rfl, rfl, rfl⟩

theorem BoxIso.meet {v : Pt K} {a b c : Plane K} (h : Meet p L v a b c) :
    Meet (g p) (L.map g) (g v) (G a) (G b) (G c) :=
  ⟨hg.cell.mpr h.cell, hg.det_ne.mpr h.det, hg.plane' h.f_mem, hg.plane' h.g_mem, hg.plane' h.h_mem,
    by rw [hg.eval]; exact h.f_on, by rw [hg.eval]; exact h.g_on, by rw [hg.eval]; exact h.h_on⟩

omit [IsStrictOrderedRing K] in
theorem BoxIso.sharp {a b c : Plane K} : sharp (G a) (G b) (G c) = sharp a b c := by
  unfold Votess.sharp spread
  rw [hg.det, hg.size, hg.size, hg.size]

omit [IsStrictOrderedRing K] in
theorem BoxIso.blur {m : K} {a b c : Plane K} : blur m (G a) (G b) (G c) = blur m a b c := by
  unfold Votess.blur
  rw [hg.sharp]

omit [IsStrictOrderedRing K] in
theorem BoxIso.slack {m b : K} : slack m b (g p) (g v) = slack m b p v := by
  have := hg.norm p v
  unfold maxNorm at this
  unfold Votess.slack
  rw [this]

theorem BoxIso.margins {m : K} {i : Nat} (h : MarginsBy m L i p) : MarginsBy m (L.map g) i (g p) := by
  refine ⟨?_, ?_, ?_⟩
  · rw [List.eraseIdx_map, List.pairwise_map]
    refine h.sep.imp fun {a b} hab => ?_
    rw [hg.matters, hg.matters, hg.span, hg.span, hg.dist, hg.dist]
    exact hab
  · rw [List.eraseIdx_map]
    simp only [List.forall_mem_map]
    intro q hq hm v a b c hmeet
    rw [hg.matters] at hm
    rw [hg.closer] at hmeet
    obtain ⟨v, a, b, c, h1, rfl, rfl, rfl, rfl⟩ := hg.meet_back hmeet
    rw [hg.sharp, hg.blur, hg.span, hg.dist, hg.dist]
    exact h.room q hq hm v a b c h1
  · rw [List.eraseIdx_map]
    simp only [List.forall_mem_map]
    intro q hq hm
    rw [hg.matters] at hm
    rw [hg.closer]
    rcases h.radius q hq hm with h1 | ⟨v, a, b, c, h1, h2⟩
    · left
      intro v a b c hmeet
      obtain ⟨v, a, b, c, k1, rfl, rfl, rfl, rfl⟩ := hg.meet_back hmeet
      rw [hg.blur, hg.slack, hg.dist, hg.dist]
      exact h1 v a b c k1
    · right
      refine ⟨g v, G a, G b, G c, hg.meet h1, ?_⟩
      intro v' a' b' c' hmeet
      obtain ⟨v', a', b', c', k1, rfl, rfl, rfl, rfl⟩ := hg.meet_back hmeet
      rw [hg.blur, hg.slack, hg.dist, hg.dist, hg.dist]
      exact h2 v' a' b' c' k1

theorem BoxIso.all_margins {m : K} (h : AllMarginsBy m L) : AllMarginsBy m (L.map g) := by
  intro i p' hp
  rw [List.getElem?_map, Option.map_eq_some_iff] at hp
  obtain ⟨p, hp, rfl⟩ := hp
  exact hg.margins (h i p hp)

end

end Votess
