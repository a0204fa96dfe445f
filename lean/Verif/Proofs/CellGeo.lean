import Verif.Proofs.Polytope
import Verif.Proofs.CCLoop
import Verif.Spec.Voronoi
import Verif.Props.Cell
/-! The cell computation in exact arithmetic. -/
set_option linter.unusedSectionVars false
namespace Votess

variable {K : Type} [Field K] [LinearOrder K] [IsStrictOrderedRing K] [FloorRing K]

def Plane.flip (h : Plane K) : Plane K := ⟨-h.a, -h.b, -h.c, -h.d⟩

theorem Plane.flip_eval (h : Plane K) (x : Pt K) : h.flip.eval x = - h.eval x := by
  simp only [Plane.flip, Plane.eval]; ring

/-- the stored planes, oriented inwards: the box planes already are, bisectors are not -/
def inward (P : List (Plane K)) (j : Nat) : Plane K :=
  if j < 6 then P.getD j zeroPlane else (P.getD j zeroPlane).flip

theorem samePlane_inward (P : List (Plane K)) (j : Nat) :
    SamePlane (inward P j) (P.getD j zeroPlane) := by
  unfold inward
  split
  · exact ⟨1, one_ne_zero, by simp⟩
  · exact ⟨-1, by simp, by simp [Plane.flip]⟩

theorem vtx_pt (P : List (Plane K)) (t : Tri) : (vtx P t).pt = tv (inward P) t := by
  unfold vtx tv
  exact C14_intersect_order _ _ _ _ _ _ _ _ _ (samePlane_inward P _) (samePlane_inward P _)
    (samePlane_inward P _) .id

theorem isCut_iff (P : List (Plane K)) (b : Plane K) (t : Tri) :
    isCut P b t = true ↔ 0 < b.eval (tv (inward P) t) := by
  have hw : (vtx P t).w = 1 := intersect_w _ _ _
  unfold isCut
  rw [hw]
  have := C13_dot_eval (vtx P t).pt b
  simp only [Vertex.pt] at this
  rw [this, ← vtx_pt]
  simp [FP.lt, FP.ofInt, Vertex.pt]

/-- bound of the distance by the vertices -/
theorem Poly.radius {n : Nat} {h : Nat → Plane K} {T : List Tri} (hp : Poly n h T) {x : Pt K}
    (hx : InCell n h x) (p : Pt K) : ∃ t ∈ T, sqDist p x ≤ sqDist p (tv h t) := by
  obtain ⟨t, ht, hle⟩ := hp.used (x := x) (fun j ⟨t, ht, hj⟩ => hx j (hp.valid.has_lt t ht j hj))
    ⟨x.x - p.x, x.y - p.y, x.z - p.z, 0⟩
  refine ⟨t, ht, ?_⟩
  generalize tv h t = v at hle
  simp only [Plane.eval] at hle
  simp only [sqDist]
  nlinarith [sq_nonneg (x.x - v.x), sq_nonneg (x.y - v.y), sq_nonneg (x.z - v.z)]

/-- what is known in exact arithmetic after `nb` neighbours -/
structure GeoInv (xyz : List (Pt K)) (knn : List Int) (p : Pt K) (nb : Nat) (s : CCState K) : Prop where
  poly : Poly s.psize (inward s.P) (s.T.take s.tsize)
  cell : ∀ x, InCell s.psize (inward s.P) x ↔
    InUnitBox x ∧ ∀ i, i < nb → sqDist x p ≤ sqDist x (candPt xyz knn i)

theorem getD_of_take {α : Type} {l m : List α} {n j : Nat} {d : α} (h : l.take n = m) (hj : j < n) :
    l.getD j d = m.getD j d := by
  rw [← h, List.getD_eq_getElem?_getD, List.getD_eq_getElem?_getD, List.getElem?_take, if_pos hj]

theorem bisect_flip_eval (q p x : Pt K) :
    0 ≤ (bisect q p).flip.eval x ↔ sqDist x p ≤ sqDist x q := by
  rw [Plane.flip_eval, bisect_eval]
  constructor <;> intro h <;> linarith

/-- the box -/
theorem box_cell (P : List (Plane K)) (hP : P.take 6 = pInit) (x : Pt K) :
    InCell 6 (inward P) x ↔ InUnitBox x := by
  have e : ∀ j, j < 6 → inward P j = (pInit : List (Plane K)).getD j zeroPlane := by
    intro j hj
    unfold inward; rw [if_pos hj, getD_of_take hP hj]
  constructor
  · intro h
    have h0 := h 0 (by omega); have h1 := h 1 (by omega); have h2 := h 2 (by omega)
    have h3 := h 3 (by omega); have h4 := h 4 (by omega); have h5 := h 5 (by omega)
    rw [e _ (by omega)] at h0 h1 h2 h3 h4 h5
    simp [pInit, Plane.eval, FP.ofInt] at h0 h1 h2 h3 h4 h5
    exact ⟨⟨h0, by linarith⟩, ⟨h2, by linarith⟩, ⟨h4, by linarith⟩⟩
  · rintro ⟨⟨h0, h1⟩, ⟨h2, h3⟩, ⟨h4, h5⟩⟩ j hj
    rw [e j hj]
    have : j = 0 ∨ j = 1 ∨ j = 2 ∨ j = 3 ∨ j = 4 ∨ j = 5 := by omega
    rcases this with rfl | rfl | rfl | rfl | rfl | rfl <;> simp [pInit, Plane.eval, FP.ofInt] <;>
      linarith

theorem box_poly (P : List (Plane K)) (hP : P.take 6 = pInit) : Poly 6 (inward P) tInit := by
  have e : ∀ j, j < 6 → inward P j = (pInit : List (Plane K)).getD j zeroPlane := by
    intro j hj
    unfold inward; rw [if_pos hj, getD_of_take hP hj]
  have hor : ∀ t ∈ tInit, 0 < tdet (inward P) t := by
    intro t ht
    simp only [tInit, List.mem_cons, List.not_mem_nil, or_false] at ht
    unfold tdet
    rcases ht with rfl | rfl | rfl | rfl | rfl | rfl | rfl | rfl <;>
      (simp only; rw [e _ (by omega), e _ (by omega), e _ (by omega)]
       simp [pInit, odet, det3, FP.ofInt])
  refine ⟨by simp [tInit], tInit_valid, tInit_surf.closed, hor, ?_⟩
  intro δ hδ
  refine ⟨fun _ => 0, fun j => ⟨le_refl _, le_of_lt hδ⟩, ?_⟩
  intro t ht j hj hn
  have e0 : pert (inward P) (fun _ => 0) = inward P := by
    funext j; simp [pert]
  rw [e0]
  have hd := ne_of_gt (hor t ht)
  have va := tv_on hd (j := t.a) (by simp [Tri.has])
  have vb := tv_on hd (j := t.b) (by simp [Tri.has])
  have vc := tv_on hd (j := t.c) (by simp [Tri.has])
  generalize tv (inward P) t = v at va vb vc
  rw [e j hj]
  simp only [tInit, List.mem_cons, List.not_mem_nil, or_false] at ht
  have hj' : j = 0 ∨ j = 1 ∨ j = 2 ∨ j = 3 ∨ j = 4 ∨ j = 5 := by omega
  rcases ht with rfl | rfl | rfl | rfl | rfl | rfl | rfl | rfl <;>
    (simp only at va vb vc
     rw [e _ (by omega)] at va vb vc
     simp [pInit, Plane.eval, FP.ofInt] at va vb vc
     rcases hj' with rfl | rfl | rfl | rfl | rfl | rfl <;> simp [Tri.has] at hn <;>
       simp [pInit, Plane.eval, FP.ofInt] <;> linarith)

theorem geo_init {xyz : List (Pt K)} {knn : List Int} {p : Pt K} {dk0 : List Int} {s : CCState K}
    (hh : Hist xyz knn p dk0 0 s []) (h6 : s.psize = 6) (hT : s.T.take s.tsize = tInit) :
    GeoInv xyz knn p 0 s := by
  have hP : s.P.take 6 = pInit := by
    have := hh.planes; rw [h6] at this; simpa using this
  refine ⟨by rw [h6, hT]; exact box_poly _ hP, fun x => ?_⟩
  rw [h6, box_cell _ hP]; simp

/-- the radius accumulated by `cutLoop` bounds the cell before the cut -/
theorem radius_bound {P : List (Plane K)} {T vs : List Tri} {sr : K} {p : Pt K} {n : Nat}
    (hp : Poly n (inward P) T)
    (hsr : sr = (vs.map (vtx P)).foldl (fun sr v => srUpdate p v.x v.y v.z sr) (FP.ofInt 0))
    (hvs : ∀ t, t ∈ vs ↔ t ∈ T) {x : Pt K} (hx : InCell n (inward P) x) : sqDist p x ≤ sr := by
  obtain ⟨t, ht, hle⟩ := hp.radius hx p
  refine le_trans hle ?_
  have h2 := C15_radius_bounds p (vs.map (fun t => tv (inward P) t)) (tv (inward P) t)
    (List.mem_map.mpr ⟨t, (hvs t).mpr ht, rfl⟩)
  have e : (vs.map (vtx P)).foldl (fun sr v => srUpdate p v.x v.y v.z sr) (FP.ofInt 0)
      = (vs.map (fun t => tv (inward P) t)).foldl (fun sr v => srUpdate p v.x v.y v.z sr) 0 := by
    rw [List.foldl_map, List.foldl_map]
    have e0 : (FP.ofInt 0 : K) = 0 := by simp [FP.ofInt]
    rw [e0]
    congr 1
    funext sr t
    have := vtx_pt P t
    rw [← this]; rfl
  rw [hsr, e]; exact h2

/-- one neighbour -/
theorem ccStep_geo {a : CCArgs} {xyz : List (Pt K)} {knn : List Int} {p : Pt K}
    (hc : Ctx a xyz knn) (hpb : InUnitBox p) {nb : Nat} {s : CCState K} (hnb : nb < a.k) (hi : CCInv a s)
    (hg : GeoInv xyz knn p nb s) {o : CCStep K} (hstep : ccStep a xyz knn p nb s = .ok o) :
    (∃ t ∈ s.T.take s.tsize, isCut s.P (bisect (candPt xyz knn nb) p) t = false) ∧
    (∀ s', o = .next s' → GeoInv xyz knn p (nb + 1) s') ∧
    (∀ s', o = .brk s' → GeoInv xyz knn p (nb + 1) s' ∧
      ∀ x, InCell s.psize (inward s.P) x → ∀ q', sqDist (candPt xyz knn nb) p ≤ sqDist q' p →
        sqDist x p < sqDist x q') := by
  obtain ⟨qi, q, hq, hq'⟩ := hc.ids nb hnb
  obtain ⟨A, R, sr, vs, o', h1, h2, h3, h4, h5, h6, h7⟩ := ccStep_spec (p := p) hc.pm hi hnb hq hq'
  rw [hstep] at h1; cases h1
  have hcand := candPt_eq hq hq'
  rw [hcand]
  -- the point itself is in the cell
  have hpin : InCell s.psize (inward s.P) p := by
    rw [hg.cell]
    refine ⟨hpb, fun i _ => ?_⟩
    have : sqDist p p = 0 := by simp only [sqDist]; ring
    rw [this]; exact sqDist_nonneg _ _
  have hpq : 0 ≤ (bisect q p).flip.eval p := by
    rw [bisect_flip_eval]
    have : sqDist p p = 0 := by simp only [sqDist]; ring
    rw [this]; exact sqDist_nonneg _ _
  have hcut : ∃ t ∈ s.T.take s.tsize, isCut s.P (bisect q p) t = false := by
    obtain ⟨t, ht, hge⟩ := hg.poly.kept hg.poly.ne (fun t ht => ht) hg.poly.closed hpin hpq
    refine ⟨t, ht, ?_⟩
    rw [Plane.flip_eval] at hge
    rw [← Bool.not_eq_true, isCut_iff]
    linarith
  -- conclusion about the radius
  have hrad : srReached p q sr = true → ∀ x, InCell s.psize (inward s.P) x → ∀ q',
      sqDist q p ≤ sqDist q' p → sqDist x p < sqDist x q' := by
    intro hs x hx q' hq'
    refine C15_security_radius p q sr hs x q' ?_ hq'
    rw [sqDist_comm]
    exact radius_bound hg.poly h5 h6 hx
  -- the invariant for the finished state
  have fin : ∀ s1 : CCState K, (∀ st, GeoInv xyz knn p (nb + 1) { s1 with state := st }) →
      (∀ s', ccFinish p q sr s1 = .next s' → GeoInv xyz knn p (nb + 1) s') ∧
      (∀ s', ccFinish p q sr s1 = .brk s' → GeoInv xyz knn p (nb + 1) s' ∧
        ∀ x, InCell s.psize (inward s.P) x → ∀ q', sqDist q p ≤ sqDist q' p →
          sqDist x p < sqDist x q') := by
    intro s1 hs1
    rw [ccFinish_eq]
    split
    · refine ⟨fun s' h => (by cases h), fun s' h => ?_⟩
      cases h
      exact ⟨hs1 _, hrad ‹_›⟩
    · refine ⟨fun s' h => ?_, fun s' h => (by cases h)⟩
      cases h
      exact hs1 _
  have hcase : ∀ x, (∀ i, i < nb + 1 → sqDist x p ≤ sqDist x (candPt xyz knn i)) ↔
      (∀ i, i < nb → sqDist x p ≤ sqDist x (candPt xyz knn i)) ∧ sqDist x p ≤ sqDist x q := by
    intro x
    constructor
    · intro h
      refine ⟨fun i hi => h i (by omega), ?_⟩
      have := h nb (by omega); rwa [hcand] at this
    · rintro ⟨h1, h2⟩ i hi
      rcases Nat.lt_or_ge i nb with h | h
      · exact h1 i h
      · obtain rfl : i = nb := by omega
        rw [hcand]; exact h2
  refine ⟨hcut, ?_⟩
  cases h7 with
  | keep T hR hT hK =>
    subst hR
    rw [List.append_nil] at h2
    apply fin
    intro st
    have hpoly : Poly s.psize (inward s.P) A := hg.poly.perm h2
    refine ⟨by simp only; rw [hK]; exact hpoly, fun x => ?_⟩
    simp only
    rw [hcase, ← and_assoc, ← hg.cell]
    constructor
    · intro hx
      refine ⟨hx, ?_⟩
      rw [← bisect_flip_eval]
      refine hpoly.superfluous (fun t ht => ?_) hx
      have := h3 t ht
      rw [← Bool.not_eq_true, isCut_iff, not_lt] at this
      rw [Plane.flip_eval]; linarith
    · exact fun h => h.1
  | poverflow T ts hR hp hT => exact ⟨fun s' h => (by cases h), fun s' h => (by cases h)⟩
  | infinite T ts dR M Q L hR hp hT hd hs => exact ⟨fun s' h => (by cases h), fun s' h => (by cases h)⟩
  | toverflow T ts dR L hR hp hT hd hL ho' => exact ⟨fun s' h => (by cases h), fun s' h => (by cases h)⟩
  | clip T dR L N hR hp hT hd hL ho' hN hT' =>
    apply fin
    intro st
    have hpl : s.psize < s.P.length := by rw [hi.plen]; exact hp
    have h6' := hi.p6
    -- planes
    have hold : ∀ j, j < s.psize → inward s.P j = inward (s.P.set s.psize (bisect q p)) j := by
      intro j hj
      unfold inward
      rw [List.getD_eq_getElem?_getD, List.getD_eq_getElem?_getD, List.getElem?_set_ne (by omega)]
    have hnew : inward (s.P.set s.psize (bisect q p)) s.psize = (bisect q p).flip := by
      unfold inward
      rw [if_neg (by omega), List.getD_eq_getElem?_getD, List.getElem?_set_self hpl]; rfl
    have hpoly := hg.poly.congr hold
    have htv : ∀ t ∈ s.T.take s.tsize,
        tv (inward (s.P.set s.psize (bisect q p))) t = tv (inward s.P) t := fun t ht =>
      tv_congr (fun j hj => (hold j (hg.poly.valid.has_lt t ht j hj)).symm)
    have hin : ∀ x, InCell s.psize (inward (s.P.set s.psize (bisect q p))) x ↔
        InCell s.psize (inward s.P) x := by
      intro x
      constructor
      · intro h j hj; rw [hold j hj]; exact h j hj
      · intro h j hj; rw [← hold j hj]; exact h j hj
    have hres := hpoly.clip (A := A) (R := R) (N := N) (x := p) h2
      (fun t ht => by
        rw [htv t (h2.mem_iff.mp (List.mem_append_left _ ht)), hnew, Plane.flip_eval]
        have := h3 t ht
        rw [← Bool.not_eq_true, isCut_iff, not_lt] at this
        linarith)
      (fun t ht => by
        rw [htv t (h2.mem_iff.mp (List.mem_append_right _ ht)), hnew, Plane.flip_eval]
        have := h4 t ht
        rw [isCut_iff] at this
        linarith)
      hR hL hN ((hin p).mpr hpin) (by rw [hnew]; exact hpq)
    refine ⟨by simp only; rw [hT']; exact hres, fun x => ?_⟩
    simp only
    rw [hcase, ← and_assoc, ← hg.cell, ← hin, ← bisect_flip_eval, ← hnew]
    constructor
    · intro h; exact ⟨fun j hj => h j (by omega), h _ (by omega)⟩
    · rintro ⟨h1, h2⟩ j hj
      rcases Nat.lt_or_ge j s.psize with h | h
      · exact h1 j h
      · obtain rfl : j = s.psize := by omega
        exact h2

end Votess
