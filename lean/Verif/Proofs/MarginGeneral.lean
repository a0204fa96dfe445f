import Verif.Proofs.MarginBase
/-! Points with margins are in general position. -/
namespace Votess

/-! ### walking along a line to a corner -/

/-- slope of a plane in direction `d` -/
def slope (h : Plane ℚ) (d : Pt ℚ) : ℚ := h.a * d.x + h.b * d.y + h.c * d.z

/-- the point `x + τ d` -/
def along (x d : Pt ℚ) (τ : ℚ) : Pt ℚ := ⟨x.x + τ * d.x, x.y + τ * d.y, x.z + τ * d.z⟩

theorem eval_along (h : Plane ℚ) (x d : Pt ℚ) (τ : ℚ) : h.eval (along x d τ) = h.eval x + τ * slope h d := by
  simp only [Plane.eval, along, slope]; ring

theorem walk (x d : Pt ℚ) : ∀ G : List (Plane ℚ), (∀ g ∈ G, 0 ≤ g.eval x) → (∃ g ∈ G, slope g d < 0) →
    ∃ τ, 0 ≤ τ ∧ (∀ g ∈ G, 0 ≤ g.eval (along x d τ)) ∧ ∃ g ∈ G, slope g d < 0 ∧ g.eval (along x d τ) = 0 := by
  intro G
  induction G with
  | nil => rintro - ⟨g, hg, -⟩; cases hg
  | cons f G ih =>
    intro hpos hex
    by_cases hG : ∃ g ∈ G, slope g d < 0
    · obtain ⟨τ, t0, t1, g, g1, g2, g3⟩ := ih (fun g hg => hpos g (List.mem_cons_of_mem _ hg)) hG
      by_cases hf : 0 ≤ f.eval (along x d τ)
      · refine ⟨τ, t0, ?_, g, List.mem_cons_of_mem _ g1, g2, g3⟩
        intro k hk
        rcases List.mem_cons.mp hk with rfl | hk
        · exact hf
        · exact t1 k hk
      · rw [not_le, eval_along] at hf
        have f0 := hpos f List.mem_cons_self
        have fs : slope f d < 0 := by
          by_contra hc
          rw [not_lt] at hc
          have := mul_nonneg t0 hc
          linarith
        have ne : slope f d ≠ 0 := ne_of_lt fs
        have hle : f.eval x / (-slope f d) ≤ τ := by
          rw [div_le_iff₀ (by linarith)]; linarith
        refine ⟨f.eval x / (-slope f d), div_nonneg f0 (by linarith), ?_, f, List.mem_cons_self, fs, ?_⟩
        · intro k hk
          rcases List.mem_cons.mp hk with rfl | hk
          · rw [eval_along]; field_simp; simp
          · have h1 := t1 k hk
            have h0 := hpos k (List.mem_cons_of_mem _ hk)
            rw [eval_along] at h1 ⊢
            rcases le_total 0 (slope k d) with hs | hs
            · have := mul_nonneg (div_nonneg f0 (by linarith : 0 ≤ -slope f d)) hs
              linarith
            · have := mul_le_mul_of_nonpos_right hle hs
              linarith
        · rw [eval_along]; field_simp; simp
    · obtain ⟨g, hg, hs⟩ := hex
      rcases List.mem_cons.mp hg with rfl | hg
      · have f0 := hpos g List.mem_cons_self
        have ne : slope g d ≠ 0 := ne_of_lt hs
        have hz : g.eval (along x d (g.eval x / (-slope g d))) = 0 := by
          rw [eval_along]; field_simp; simp
        refine ⟨g.eval x / (-slope g d), div_nonneg f0 (by linarith), ?_, g, List.mem_cons_self, hs, hz⟩
        intro k hk
        rcases List.mem_cons.mp hk with rfl | hk
        · exact hz.ge
        · have h0 := hpos k (List.mem_cons_of_mem _ hk)
          have hs' : 0 ≤ slope k d := by
            by_contra hc
            exact hG ⟨k, hk, not_le.mp hc⟩
          rw [eval_along]
          have := mul_nonneg (div_nonneg f0 (by linarith : 0 ≤ -slope g d)) hs'
          linarith
      · exact absurd ⟨g, hg, hs⟩ hG

theorem bisectorPlane_eval (p q x : Pt ℚ) : (bisectorPlane p q).eval x = (sqDist x p - sqDist x q) / 2 := by
  simp only [bisectorPlane, Plane.eval, sqDist]; ring

theorem inUnitBox_faces (x : Pt ℚ) : InUnitBox x ↔ ∀ f ∈ (boxFaces : List (Plane ℚ)), 0 ≤ f.eval x := by
  unfold InUnitBox
  simp only [boxFaces, List.forall_mem_cons, List.not_mem_nil, Plane.eval, false_imp_iff, implies_true, and_true]
  constructor
  · rintro ⟨⟨h1, h2⟩, ⟨h3, h4⟩, h5, h6⟩
    refine ⟨?_, ?_, ?_, ?_, ?_, ?_⟩ <;> linarith
  · rintro ⟨h1, h2, h3, h4, h5, h6⟩
    refine ⟨⟨?_, ?_⟩, ⟨?_, ?_⟩, ?_, ?_⟩ <;> linarith

/-- from a point of a cell one gets in any direction to the boundary -/
theorem walk_cell {p : Pt ℚ} {sites : List (Pt ℚ)} {x : Pt ℚ} (hx : VoronoiCell p sites x) {d : Pt ℚ}
    (hd : ¬ (d.x = 0 ∧ d.y = 0 ∧ d.z = 0)) : ∃ τ, 0 ≤ τ ∧ VoronoiCell p sites (along x d τ) ∧
      ∃ h ∈ boundaryPlanes p sites, slope h d ≠ 0 ∧ h.eval (along x d τ) = 0 := by
  have mem : ∀ y, (∀ g ∈ (boxFaces : List (Plane ℚ)) ++ sites.map (fun q => bisectorPlane q p), 0 ≤ g.eval y)
      ↔ VoronoiCell p sites y := by
    intro y
    rw [List.forall_mem_append, ← inUnitBox_faces]
    unfold VoronoiCell
    refine and_congr_right fun _ => ?_
    rw [List.forall_mem_map]
    refine forall₂_congr fun q _ => ?_
    rw [bisectorPlane_eval]
    constructor <;> intro h <;> linarith
  obtain ⟨τ, t0, h1, h, h2, h3, h4⟩ := walk x d _ ((mem x).mpr hx) (by
    rcases lt_trichotomy d.x 0 with h | h | h
    · exact ⟨⟨1, 0, 0, 0⟩, by simp [boxFaces], by simp [slope, h]⟩
    · rcases lt_trichotomy d.y 0 with h' | h' | h'
      · exact ⟨⟨0, 1, 0, 0⟩, by simp [boxFaces], by simp [slope, h']⟩
      · rcases lt_trichotomy d.z 0 with h'' | h'' | h''
        · exact ⟨⟨0, 0, 1, 0⟩, by simp [boxFaces], by simp [slope, h'']⟩
        · exact absurd ⟨h, h', h''⟩ hd
        · exact ⟨⟨0, 0, -1, 1⟩, by simp [boxFaces], by simp [slope, h'']⟩
      · exact ⟨⟨0, -1, 0, 1⟩, by simp [boxFaces], by simp [slope, h']⟩
    · exact ⟨⟨-1, 0, 0, 1⟩, by simp [boxFaces], by simp [slope, h]⟩)
  refine ⟨τ, t0, (mem _).mp h1, ?_⟩
  rcases List.mem_append.mp h2 with h2 | h2
  · exact ⟨h, List.mem_append_left _ h2, ne_of_lt h3, h4⟩
  · obtain ⟨q, hq, rfl⟩ := List.mem_map.mp h2
    refine ⟨bisectorPlane p q, List.mem_append_right _ (List.mem_map.mpr ⟨q, hq, rfl⟩), ?_, ?_⟩
    · intro hc
      apply ne_of_lt h3
      simp only [slope, bisectorPlane] at hc ⊢
      linarith
    · rw [bisectorPlane_eval] at h4 ⊢; linarith

/-! ### planes through one point -/

/-- direction of the line in which two planes meet -/
def crossDir (f g : Plane ℚ) : Pt ℚ :=
  ⟨f.b * g.c - f.c * g.b, f.c * g.a - f.a * g.c, f.a * g.b - f.b * g.a⟩

theorem slope_cross (f g h : Plane ℚ) : slope h (crossDir f g) = det3 f g h := by
  simp only [slope, crossDir, det3]; ring

theorem det3_left (f g : Plane ℚ) : det3 f g f = 0 := by simp only [det3]; ring
theorem det3_right (f g : Plane ℚ) : det3 f g g = 0 := by simp only [det3]; ring

theorem parallel_of_cross {a b c a' b' c' : ℚ} (h0 : ¬ (a = 0 ∧ b = 0 ∧ c = 0)) (h1 : b * c' - c * b' = 0)
    (h2 : c * a' - a * c' = 0) (h3 : a * b' - b * a' = 0) : ∃ l, a' = l * a ∧ b' = l * b ∧ c' = l * c := by
  by_cases ha : a = 0
  · by_cases hb : b = 0
    · have hc : c ≠ 0 := fun hc => h0 ⟨ha, hb, hc⟩
      refine ⟨c' / c, ?_, ?_, ?_⟩ <;> field_simp <;> linarith
    · refine ⟨b' / b, ?_, ?_, ?_⟩ <;> field_simp <;> linarith
  · refine ⟨a' / a, ?_, ?_, ?_⟩ <;> field_simp <;> linarith

/-- two bisectors through one point are not parallel -/
theorem bisectors_cross {p q q' x : Pt ℚ} (hq : q ≠ p) (hne : q ≠ q') (hq' : q' ≠ p) (h : sqDist x p = sqDist x q)
    (h' : sqDist x p = sqDist x q') :
    ¬ ((crossDir (bisectorPlane p q) (bisectorPlane p q')).x = 0 ∧
      (crossDir (bisectorPlane p q) (bisectorPlane p q')).y = 0 ∧
      (crossDir (bisectorPlane p q) (bisectorPlane p q')).z = 0) := by
  rintro ⟨h1, h2, h3⟩
  simp only [crossDir, bisectorPlane] at h1 h2 h3
  have hu : ¬ (q.x - p.x = 0 ∧ q.y - p.y = 0 ∧ q.z - p.z = 0) := by
    rintro ⟨a, b, c⟩
    apply hq
    cases q; cases p
    simp only at a b c
    simp only [Pt.mk.injEq]
    refine ⟨?_, ?_, ?_⟩ <;> linarith
  obtain ⟨l, e1, e2, e3⟩ := parallel_of_cross hu h1 h2 h3
  have hl0 : l ≠ 0 := by
    rintro rfl
    apply hq'
    cases q'; cases p
    simp only at e1 e2 e3
    simp only [Pt.mk.injEq]
    refine ⟨?_, ?_, ?_⟩ <;> linarith
  have hs : 0 < (q.x - p.x) ^ 2 + (q.y - p.y) ^ 2 + (q.z - p.z) ^ 2 := by
    by_contra hc
    apply hu
    have a := sq_nonneg (q.x - p.x); have b := sq_nonneg (q.y - p.y); have c := sq_nonneg (q.z - p.z)
    refine ⟨?_, ?_, ?_⟩ <;> apply pow_eq_zero_iff (two_ne_zero) |>.mp <;> linarith
  simp only [sqDist] at h h'
  have k1 : 2 * ((x.x - p.x) * (q.x - p.x) + (x.y - p.y) * (q.y - p.y) + (x.z - p.z) * (q.z - p.z))
      = (q.x - p.x) ^ 2 + (q.y - p.y) ^ 2 + (q.z - p.z) ^ 2 := by linarith
  have k2 : 2 * ((x.x - p.x) * (q'.x - p.x) + (x.y - p.y) * (q'.y - p.y) + (x.z - p.z) * (q'.z - p.z))
      = (q'.x - p.x) ^ 2 + (q'.y - p.y) ^ 2 + (q'.z - p.z) ^ 2 := by linarith
  rw [e1, e2, e3] at k2
  have k3 : l * ((q.x - p.x) ^ 2 + (q.y - p.y) ^ 2 + (q.z - p.z) ^ 2) * (l - 1) = 0 := by
    linear_combination l * k1 - k2
  have : l = 1 := by
    rcases mul_eq_zero.mp k3 with h | h
    · rcases mul_eq_zero.mp h with h | h
      · exact absurd h hl0
      · exact absurd h hs.ne'
    · linarith
  subst this
  apply hne
  cases q'; cases q; cases p
  simp only at e1 e2 e3
  simp only [Pt.mk.injEq]
  refine ⟨?_, ?_, ?_⟩ <;> linarith

/-- the plane of a constraint -/
def planeOf (L : List (Pt ℚ)) (p : Pt ℚ) : Nat ⊕ Nat → Plane ℚ
  | .inl f => boxFaces.getD f ⟨0, 0, 0, 0⟩
  | .inr w => bisectorPlane p (L.getD w p)

theorem onFace_lt {f : Nat} {x : Pt ℚ} (h : OnFace f x) : f < 6 := by
  match f, h with
  | 0, _ => decide
  | 1, _ => decide
  | 2, _ => decide
  | 3, _ => decide
  | 4, _ => decide
  | 5, _ => decide

theorem onFace_axis {f g : Nat} {x : Pt ℚ} (h : OnFace f x) (h' : OnFace g x) (hne : f ≠ g) : f / 2 ≠ g / 2 := by
  have h1 := onFace_lt h
  have h2 := onFace_lt h'
  intro he
  have key : ∀ a : Nat, a < 3 → ¬ (OnFace (2 * a) x ∧ OnFace (2 * a + 1) x) := by
    intro a ha
    match a, ha with
    | 0, _ => rintro ⟨e1, e2⟩; simp only [OnFace] at e1 e2; rw [e1] at e2; norm_num at e2
    | 1, _ => rintro ⟨e1, e2⟩; simp only [OnFace] at e1 e2; rw [e1] at e2; norm_num at e2
    | 2, _ => rintro ⟨e1, e2⟩; simp only [OnFace] at e1 e2; rw [e1] at e2; norm_num at e2
  have hk := key (f / 2) (by omega)
  rcases Nat.lt_or_gt_of_ne hne with hl | hl
  · rw [show 2 * (f / 2) = f by omega, show f + 1 = g by omega] at hk
    exact hk ⟨h, h'⟩
  · rw [show 2 * (f / 2) = g by omega, show g + 1 = f by omega] at hk
    exact hk ⟨h', h⟩

theorem planeOf_eval {L : List (Pt ℚ)} {i : Nat} {p x : Pt ℚ} {e : Nat ⊕ Nat} (h : Tight L i p x e) :
    (planeOf L p e).eval x = 0 := by
  cases e with
  | inl f =>
    have hf := onFace_lt h
    change OnFace f x at h
    simp only [planeOf]
    match f, hf with
    | 0, _ => simp only [OnFace] at h; simp [boxFaces, Plane.eval, h]
    | 1, _ => simp only [OnFace] at h; simp [boxFaces, Plane.eval, h]
    | 2, _ => simp only [OnFace] at h; simp [boxFaces, Plane.eval, h]
    | 3, _ => simp only [OnFace] at h; simp [boxFaces, Plane.eval, h]
    | 4, _ => simp only [OnFace] at h; simp [boxFaces, Plane.eval, h]
    | 5, _ => simp only [OnFace] at h; simp [boxFaces, Plane.eval, h]
  | inr w =>
    obtain ⟨-, q, hq, he⟩ := h
    simp only [planeOf]
    rw [bisectorPlane_eval, List.getD_eq_getElem?_getD, hq, Option.getD_some, he]; ring

theorem face_mem {f : Nat} (h : f < 6) (p : Pt ℚ) (s : List (Pt ℚ)) :
    (boxFaces : List (Plane ℚ)).getD f ⟨0, 0, 0, 0⟩ ∈ boundaryPlanes p s := by
  apply List.mem_append_left
  rw [List.getD_eq_getElem?_getD, List.getElem?_eq_getElem (by simpa [boxFaces] using h), Option.getD_some]
  exact List.getElem_mem _

/-- three faces with different axes meet in a corner of the box -/
theorem faces_det : ∀ a b c : Fin 6, a.val / 2 ≠ b.val / 2 → a.val / 2 ≠ c.val / 2 → b.val / 2 ≠ c.val / 2 →
    det3 ((boxFaces : List (Plane ℚ)).getD a ⟨0, 0, 0, 0⟩) (boxFaces.getD b ⟨0, 0, 0, 0⟩)
      (boxFaces.getD c ⟨0, 0, 0, 0⟩) ≠ 0 := by decide +kernel

theorem faces_cross : ∀ a b : Fin 6, a.val / 2 ≠ b.val / 2 →
    ¬ ((crossDir ((boxFaces : List (Plane ℚ)).getD a ⟨0, 0, 0, 0⟩) (boxFaces.getD b ⟨0, 0, 0, 0⟩)).x = 0 ∧
      (crossDir ((boxFaces : List (Plane ℚ)).getD a ⟨0, 0, 0, 0⟩) (boxFaces.getD b ⟨0, 0, 0, 0⟩)).y = 0 ∧
      (crossDir ((boxFaces : List (Plane ℚ)).getD a ⟨0, 0, 0, 0⟩) (boxFaces.getD b ⟨0, 0, 0, 0⟩)).z = 0) := by
  decide +kernel

/-- a bisector through a point of a face is not parallel to it -/
theorem face_bisector_cross {p q x : Pt ℚ} (hp : InUnitBox p) (hq : InUnitBox q) (hne : q ≠ p) {f : Nat}
    (hf : OnFace f x) (h : sqDist x p = sqDist x q) :
    ¬ ((crossDir ((boxFaces : List (Plane ℚ)).getD f ⟨0, 0, 0, 0⟩) (bisectorPlane p q)).x = 0 ∧
      (crossDir ((boxFaces : List (Plane ℚ)).getD f ⟨0, 0, 0, 0⟩) (bisectorPlane p q)).y = 0 ∧
      (crossDir ((boxFaces : List (Plane ℚ)).getD f ⟨0, 0, 0, 0⟩) (bisectorPlane p q)).z = 0) := by
  have hlt := onFace_lt hf
  obtain ⟨px, py, pz⟩ := p
  obtain ⟨qx, qy, qz⟩ := q
  obtain ⟨⟨a1, a2⟩, ⟨a3, a4⟩, a5, a6⟩ := hp
  obtain ⟨⟨b1, b2⟩, ⟨b3, b4⟩, b5, b6⟩ := hq
  simp only at a1 a2 a3 a4 a5 a6 b1 b2 b3 b4 b5 b6
  have fin : ∀ {s t u : ℚ}, (u - s) ^ 2 = (u - t) ^ 2 → t ≠ s → u = (s + t) / 2 := by
    intro s t u h1 h2
    have : (s - t) * (2 * u - s - t) = 0 := by linear_combination -h1
    rcases mul_eq_zero.mp this with h | h
    · exact absurd (by linarith) h2
    · linarith
  have two : ∀ {s t : ℚ}, 0 ≤ s → 0 ≤ t → s ≤ 1 → t ≤ 1 → t ≠ s → (s + t) / 2 ≠ 0 ∧ (s + t) / 2 ≠ 1 := by
    intro s t h1 h2 h3 h4 h5
    constructor <;> intro h6 <;> apply h5 <;> linarith
  rintro ⟨c1, c2, c3⟩
  simp only [sqDist] at h
  match f, hlt with
  | 0, _ =>
    simp only [OnFace] at hf
    simp [boxFaces, crossDir, bisectorPlane] at c1 c2 c3
    have e1 : qy = py := by linarith
    have e2 : qz = pz := by linarith
    subst e1 e2
    have hn : qx ≠ px := fun e => hne (by rw [e])
    exact (two a1 b1 a2 b2 hn).1 ((fin (by linarith) hn).symm.trans hf)
  | 1, _ =>
    simp only [OnFace] at hf
    simp [boxFaces, crossDir, bisectorPlane] at c1 c2 c3
    have e1 : qy = py := by linarith
    have e2 : qz = pz := by linarith
    subst e1 e2
    have hn : qx ≠ px := fun e => hne (by rw [e])
    exact (two a1 b1 a2 b2 hn).2 ((fin (by linarith) hn).symm.trans hf)
  | 2, _ =>
    simp only [OnFace] at hf
    simp [boxFaces, crossDir, bisectorPlane] at c1 c2 c3
    have e1 : qx = px := by linarith
    have e2 : qz = pz := by linarith
    subst e1 e2
    have hn : qy ≠ py := fun e => hne (by rw [e])
    exact (two a3 b3 a4 b4 hn).1 ((fin (by linarith) hn).symm.trans hf)
  | 3, _ =>
    simp only [OnFace] at hf
    simp [boxFaces, crossDir, bisectorPlane] at c1 c2 c3
    have e1 : qx = px := by linarith
    have e2 : qz = pz := by linarith
    subst e1 e2
    have hn : qy ≠ py := fun e => hne (by rw [e])
    exact (two a3 b3 a4 b4 hn).2 ((fin (by linarith) hn).symm.trans hf)
  | 4, _ =>
    simp only [OnFace] at hf
    simp [boxFaces, crossDir, bisectorPlane] at c1 c2 c3
    have e1 : qx = px := by linarith
    have e2 : qy = py := by linarith
    subst e1 e2
    have hn : qz ≠ pz := fun e => hne (by rw [e])
    exact (two a5 b5 a6 b6 hn).1 ((fin (by linarith) hn).symm.trans hf)
  | 5, _ =>
    simp only [OnFace] at hf
    simp [boxFaces, crossDir, bisectorPlane] at c1 c2 c3
    have e1 : qx = px := by linarith
    have e2 : qy = py := by linarith
    subst e1 e2
    have hn : qz ≠ pz := fun e => hne (by rw [e])
    exact (two a5 b5 a6 b6 hn).2 ((fin (by linarith) hn).symm.trans hf)

/-! ### general position -/

/-- margins exclude a second point at the same place -/
theorem MarginsBy.ne_self {m : ℚ} (h0 : 0 < m) {L : List (Pt ℚ)} {i : Nat} {p : Pt ℚ} (hm : MarginsBy m L i p) {w : Nat} {q : Pt ℚ}
    (hw : L[w]? = some q) (h1 : w ≠ i) : q ≠ p := by
  rintro rfl
  have mem : ∀ f ∈ (boxFaces : List (Plane ℚ)), f ∈ boundaryPlanes q (closerTo L q q) :=
    fun f hf => List.mem_append_left _ hf
  have hmat : Matters L q q := by
    intro c hc
    unfold closerTo at hc
    rw [List.mem_filter, decide_eq_true_eq, show sqDist q q = 0 by simp [sqDist]] at hc
    exact absurd (sqDist_nonneg q c) (not_le.mpr hc.2)
  have hr := (hm.room q (MarginsBy.mem hw h1) hmat ⟨0, 0, 0⟩ ⟨1, 0, 0, 0⟩ ⟨0, 1, 0, 0⟩ ⟨0, 0, 1, 0⟩ ⟨⟨⟨by norm_num, by norm_num, by norm_num⟩, by
      intro c hc
      unfold closerTo at hc
      rw [List.mem_filter, decide_eq_true_eq] at hc
      have e : sqDist q q = 0 := by simp [sqDist]
      rw [e] at hc
      exact absurd (sqDist_nonneg q c) (not_le.mpr hc.2)⟩, by simp [det3],
    mem _ (by simp [boxFaces]), mem _ (by simp [boxFaces]), mem _ (by simp [boxFaces]), by simp [Plane.eval],
    by simp [Plane.eval], by simp [Plane.eval]⟩).2.2
  rw [sub_self, abs_zero] at hr
  exact absurd hr (not_lt.mpr (by positivity))

/-- distance of a constraint; faces come first -/
def keyOf (L : List (Pt ℚ)) (p : Pt ℚ) : Nat ⊕ Nat → ℚ
  | .inl _ => -1
  | .inr w => sqDist p (L.getD w p)

theorem exists_max (key : Nat ⊕ Nat → ℚ) : ∀ c : List (Nat ⊕ Nat), c ≠ [] →
    ∃ e c', c.Perm (e :: c') ∧ ∀ a ∈ c', key a ≤ key e := by
  intro c
  induction c with
  | nil => intro h; exact absurd rfl h
  | cons a c ih =>
    intro _
    by_cases hc : c = []
    · subst hc; exact ⟨a, [], List.Perm.refl _, by simp⟩
    obtain ⟨e, c', h1, h2⟩ := ih hc
    rcases le_total (key a) (key e) with h | h
    · refine ⟨e, a :: c', (h1.cons a).trans (List.Perm.swap _ _ _), ?_⟩
      intro b hb
      rcases List.mem_cons.mp hb with rfl | hb
      · exact h
      · exact h2 b hb
    · refine ⟨a, c, List.Perm.refl _, ?_⟩
      intro b hb
      rcases List.mem_cons.mp (h1.mem_iff.mp hb) with rfl | hb
      · exact h
      · exact (h2 b hb).trans h

theorem MarginsBy.general {m : ℚ} (h0 : 0 < m) {L : List (Pt ℚ)} {i : Nat} {p : Pt ℚ} (hbox : ∀ v ∈ L, InUnitBox v)
    (hp : L[i]? = some p) (hm : MarginsBy m L i p) : GeneralAt L i p := by
  intro x hx c hnd hc
  by_contra hlen
  rw [not_le] at hlen
  obtain ⟨e4, c4, p4, m4⟩ := exists_max (keyOf L p) c (by rintro rfl; simp at hlen)
  have l4 := p4.length_eq
  rw [List.length_cons] at l4
  obtain ⟨e3, c3, p3, m3⟩ := exists_max (keyOf L p) c4 (by rintro rfl; simp at l4; omega)
  have l3 := p3.length_eq
  rw [List.length_cons] at l3
  obtain ⟨e1, e2, rest, rfl⟩ : ∃ e1 e2 rest, c3 = e1 :: e2 :: rest := by
    match c3, l3 with
    | [], h => rw [List.length_nil] at h; omega
    | [_], h => rw [List.length_singleton] at h; omega
    | a :: b :: r, _ => exact ⟨a, b, r, rfl⟩
  have hpb := hbox p (List.mem_of_getElem? hp)
  have t4 : Tight L i p x e4 := hc _ (p4.mem_iff.mpr List.mem_cons_self)
  have tc : ∀ e ∈ c4, Tight L i p x e := fun e he => hc _ (p4.mem_iff.mpr (List.mem_cons_of_mem _ he))
  have t3 : Tight L i p x e3 := tc _ (p3.mem_iff.mpr List.mem_cons_self)
  have t1 : Tight L i p x e1 := tc _ (p3.mem_iff.mpr (by simp))
  have t2 : Tight L i p x e2 := tc _ (p3.mem_iff.mpr (by simp))
  have nd4 := p4.nodup_iff.mp hnd
  have nd3 := p3.nodup_iff.mp (List.nodup_cons.mp nd4).2
  have d4 : ∀ e ∈ c4, e ≠ e4 := fun e he h => (List.nodup_cons.mp nd4).1 (h ▸ he)
  have d13 : e1 ≠ e3 := fun h => (List.nodup_cons.mp nd3).1 (by simp [h])
  have d23 : e2 ≠ e3 := fun h => (List.nodup_cons.mp nd3).1 (by simp [h])
  have d12 : e1 ≠ e2 := fun h => (List.nodup_cons.mp (List.nodup_cons.mp nd3).2).1 (by simp [h])
  have m1 := m3 e1 (by simp)
  have m2 := m3 e2 (by simp)
  have k3 := m4 e3 (p3.mem_iff.mpr (by simp))
  have k1 := m4 e1 (p3.mem_iff.mpr (by simp))
  have k2 := m4 e2 (p3.mem_iff.mpr (by simp))
  have d14 := d4 e1 (p3.mem_iff.mpr (by simp))
  have d24 := d4 e2 (p3.mem_iff.mpr (by simp))
  have d34 := d4 e3 (p3.mem_iff.mpr (by simp))
  -- a constraint not after a face is a face
  have face : ∀ e f, Tight L i p x e → keyOf L p e ≤ keyOf L p (.inl f) → ∃ g, e = .inl g := by
    intro e f _ hk
    cases e with
    | inl g => exact ⟨g, rfl⟩
    | inr w =>
      simp only [keyOf] at hk
      have := sqDist_nonneg p (L.getD w p)
      linarith
  -- the planes before a site
  have before : ∀ e w q, Tight L i p x e → e ≠ .inr w → L[w]? = some q → w ≠ i →
      keyOf L p e ≤ keyOf L p (.inr w) → planeOf L p e ∈ boundaryPlanes p (closerTo L p q) := by
    intro e w q he hne hw hwi hk
    cases e with
    | inl g => exact face_mem (onFace_lt he) _ _
    | inr w' =>
      obtain ⟨h1, q', h2, h3⟩ := he
      have hww : w' ≠ w := fun h => hne (by rw [h])
      simp only [keyOf, planeOf, List.getD_eq_getElem?_getD, h2, hw, Option.getD_some] at hk ⊢
      refine List.mem_append_right _ (List.mem_map.mpr ⟨q', ?_, rfl⟩)
      unfold closerTo
      rw [List.mem_filter, decide_eq_true_eq]
      refine ⟨List.mem_of_getElem? h2, lt_of_le_of_ne hk fun he => ?_⟩
      have := hm.sepIdx w' w q' q h2 hw h1 hwi hww (Matters.of_touch hx h3)
      rw [sqDist_comm q' p, sqDist_comm q p, he, sub_self, abs_zero] at this
      exact absurd this (not_lt.mpr (mul_nonneg (by positivity) (span_pos p _).le))
  have sub : ∀ q, VoronoiCell p (closerTo L p q) x := fun q =>
    ⟨hx.1, fun c hc => hx.2 c (List.mem_of_mem_filter hc)⟩
  -- the last one is a site
  cases e4 with
  | inl f4 =>
    obtain ⟨f1, rfl⟩ := face e1 f4 t1 k1
    obtain ⟨f2, rfl⟩ := face e2 f4 t2 k2
    obtain ⟨f3, rfl⟩ := face e3 f4 t3 k3
    have b4 := onFace_lt t4
    have b1 := onFace_lt t1; have b2 := onFace_lt t2; have b3 := onFace_lt t3
    have q1 := onFace_axis t1 t2 (fun h => d12 (by rw [h]))
    have q2 := onFace_axis t1 t3 (fun h => d13 (by rw [h]))
    have q3 := onFace_axis t2 t3 (fun h => d23 (by rw [h]))
    have q4 := onFace_axis t1 t4 (fun h => d14 (by rw [h]))
    have q5 := onFace_axis t2 t4 (fun h => d24 (by rw [h]))
    have q6 := onFace_axis t3 t4 (fun h => d34 (by rw [h]))
    omega
  | inr w4 =>
    obtain ⟨h4, q4, g4, s4⟩ := t4
    have hdet : det3 (planeOf L p e1) (planeOf L p e2) (planeOf L p e3) = 0 := by
      by_contra hd
      have := (hm.room q4 (MarginsBy.mem g4 h4) (Matters.of_touch hx s4) x _ _ _ ⟨sub q4, hd, before e1 w4 q4 t1 d14 g4 h4 k1,
        before e2 w4 q4 t2 d24 g4 h4 k2, before e3 w4 q4 t3 d34 g4 h4 k3, planeOf_eval t1,
        planeOf_eval t2, planeOf_eval t3⟩).2.2
      rw [s4, sub_self, abs_zero] at this
      exact absurd this (not_lt.mpr (by positivity))
    -- so is the one before
    cases e3 with
    | inl f3 =>
      obtain ⟨f1, rfl⟩ := face e1 f3 t1 m1
      obtain ⟨f2, rfl⟩ := face e2 f3 t2 m2
      have b1 := onFace_lt t1; have b2 := onFace_lt t2; have b3 := onFace_lt t3
      have q1 := onFace_axis t1 t2 (fun h => d12 (by rw [h]))
      have q2 := onFace_axis t1 t3 (fun h => d13 (by rw [h]))
      have q3 := onFace_axis t2 t3 (fun h => d23 (by rw [h]))
      exact faces_det ⟨f1, b1⟩ ⟨f2, b2⟩ ⟨f3, b3⟩ q1 q2 q3 hdet
    | inr w3 =>
      obtain ⟨h3, q3, g3, s3⟩ := t3
      have site : ∀ {w q}, L[w]? = some q → w ≠ i → q ≠ p ∧ InUnitBox q := fun hw hi =>
        ⟨hm.ne_self h0 hw hi, hbox _ (List.mem_of_getElem? hw)⟩
      -- the first two are not parallel
      have hcross : ¬ ((crossDir (planeOf L p e1) (planeOf L p e2)).x = 0 ∧
          (crossDir (planeOf L p e1) (planeOf L p e2)).y = 0 ∧
          (crossDir (planeOf L p e1) (planeOf L p e2)).z = 0) := by
        cases e1 with
        | inl f1 =>
          cases e2 with
          | inl f2 =>
            exact faces_cross ⟨f1, onFace_lt t1⟩ ⟨f2, onFace_lt t2⟩ (onFace_axis t1 t2 fun h => d12 (congrArg Sum.inl h))
          | inr w2 =>
            obtain ⟨h2, q2, g2, s2⟩ := t2
            simp only [planeOf, List.getD_eq_getElem?_getD, g2, Option.getD_some]
            have := face_bisector_cross hpb (site g2 h2).2 (site g2 h2).1 t1 s2
            simpa only [List.getD_eq_getElem?_getD] using this
        | inr w1 =>
          obtain ⟨h1, q1, g1, s1⟩ := t1
          cases e2 with
          | inl f2 =>
            simp only [planeOf, List.getD_eq_getElem?_getD, g1, Option.getD_some]
            have := face_bisector_cross hpb (site g1 h1).2 (site g1 h1).1 t2 s1
            simp only [List.getD_eq_getElem?_getD] at this
            rintro ⟨c1, c2, c3⟩
            refine this ⟨?_, ?_, ?_⟩ <;> simp only [crossDir] at * <;> linarith
          | inr w2 =>
            obtain ⟨h2, q2, g2, s2⟩ := t2
            simp only [planeOf, List.getD_eq_getElem?_getD, g1, g2, Option.getD_some]
            refine bisectors_cross (site g1 h1).1 ?_ (site g2 h2).1 s1 s2
            rintro rfl
            have := hm.sepIdx w1 w2 q1 q1 g1 g2 h1 h2 (fun h => d12 (by rw [h])) (Matters.of_touch hx s1)
            rw [sub_self, abs_zero] at this
            exact absurd this (not_lt.mpr (mul_nonneg (by positivity) (span_pos p _).le))
      obtain ⟨τ, -, hv, h, hh, hs, hz⟩ := walk_cell (sub q3) hcross
      rw [slope_cross] at hs
      have z1 : (planeOf L p e1).eval (along x (crossDir (planeOf L p e1) (planeOf L p e2)) τ) = 0 := by
        rw [eval_along, slope_cross, det3_left, planeOf_eval t1]; ring
      have z2 : (planeOf L p e2).eval (along x (crossDir (planeOf L p e1) (planeOf L p e2)) τ) = 0 := by
        rw [eval_along, slope_cross, det3_right, planeOf_eval t2]; ring
      have z3 : (bisectorPlane p q3).eval (along x (crossDir (planeOf L p e1) (planeOf L p e2)) τ) = 0 := by
        have e : planeOf L p (.inr w3) = bisectorPlane p q3 := by
          simp only [planeOf, List.getD_eq_getElem?_getD, g3, Option.getD_some]
        rw [e] at hdet
        rw [eval_along, slope_cross, hdet, bisectorPlane_eval, s3]; ring
      have := (hm.room q3 (MarginsBy.mem g3 h3) (Matters.of_touch hx s3) _ _ _ _ ⟨hv, hs, before e1 w3 q3 t1 d13 g3 h3 m1,
        before e2 w3 q3 t2 d23 g3 h3 m2, hh, z1, z2, hz⟩).2.2
      rw [bisectorPlane_eval] at z3
      rw [show sqDist (along x (crossDir (planeOf L p e1) (planeOf L p e2)) τ) p
        - sqDist (along x (crossDir (planeOf L p e1) (planeOf L p e2)) τ) q3 = 0 by linarith, abs_zero] at this
      exact absurd this (not_lt.mpr (by positivity))

theorem Margins.general {L : List (Pt ℚ)} {i : Nat} {p : Pt ℚ} (hbox : ∀ v ∈ L, InUnitBox v)
    (hp : L[i]? = some p) (hm : Margins L i p) : GeneralAt L i p := MarginsBy.general one_pos hbox hp hm

end Votess
