import Verif.Proofs.GeneralPerm
import Verif.Proofs.CellRow
import Verif.Props.Knn
/-!
# C12, C20, C22–C26, C53, C54 — computed cells are Voronoi cells (exact arithmetic)
-/
set_option linter.unusedSectionVars false
namespace Votess

variable {K : Type} [Field K] [LinearOrder K] [IsStrictOrderedRing K] [FloorRing K]

/-! ### single states -/

theorem inward_scale (P : List (Plane K)) (j : Nat) : ∃ c : K, c ≠ 0 ∧
    inward P j = ⟨c * (P.getD j zeroPlane).a, c * (P.getD j zeroPlane).b,
      c * (P.getD j zeroPlane).c, c * (P.getD j zeroPlane).d⟩ := by
  unfold inward
  split
  · exact ⟨1, one_ne_zero, by simp⟩
  · exact ⟨-1, by simp, by simp [Plane.flip]⟩

theorem tv_isVertex {P : List (Plane K)} {t : Tri} (hd : tdet (inward P) t ≠ 0)
    (hlt : ∀ j, t.has j → j < P.length) : IsVertex P t (tv (inward P) t) := by
  have ha := hlt t.a (by simp [Tri.has])
  have hb := hlt t.b (by simp [Tri.has])
  have hc := hlt t.c (by simp [Tri.has])
  have ga : P.getD t.a zeroPlane = P[t.a] := by simp [List.getD_eq_getElem?_getD, ha]
  have gb : P.getD t.b zeroPlane = P[t.b] := by simp [List.getD_eq_getElem?_getD, hb]
  have gc : P.getD t.c zeroPlane = P[t.c] := by simp [List.getD_eq_getElem?_getD, hc]
  refine ⟨P[t.a], P[t.b], P[t.c], List.getElem?_eq_getElem ha, List.getElem?_eq_getElem hb,
    List.getElem?_eq_getElem hc, ?_, ?_, ?_, ?_⟩
  · intro h0
    apply hd
    obtain ⟨u, -, hu⟩ := inward_scale P t.a
    obtain ⟨v, -, hv⟩ := inward_scale P t.b
    obtain ⟨w, -, hw⟩ := inward_scale P t.c
    unfold tdet
    rw [hu, hv, hw, ga, gb, gc]
    simp only [det3] at h0
    simp only [odet, det3]
    linear_combination (- u * v * w) * h0
  · rw [← ga, SamePlane.eval (samePlane_inward P t.a)]; exact tv_on hd (by simp [Tri.has])
  · rw [← gb, SamePlane.eval (samePlane_inward P t.b)]; exact tv_on hd (by simp [Tri.has])
  · rw [← gc, SamePlane.eval (samePlane_inward P t.c)]; exact tv_on hd (by simp [Tri.has])

theorem IsVertex.unique {P : List (Plane K)} {t : Tri} {v w : Pt K} (hv : IsVertex P t v)
    (hw : IsVertex P t w) : v = w := by
  obtain ⟨a, b, c, a1, b1, c1, hd, va, vb, vc⟩ := hv
  obtain ⟨a', b', c', a2, b2, c2, -, wa, wb, wc⟩ := hw
  rw [a1] at a2; rw [b1] at b2; rw [c1] at c2
  cases a2; cases b2; cases c2
  rw [C14_intersect_unique a b c hd v va vb vc, C14_intersect_unique a b c hd w wa wb wc]

theorem mem_sitesOf {xyz : List (Pt K)} {ids : List Int} {q : Pt K} :
    q ∈ sitesOf xyz ids ↔ ∃ v ∈ ids, xyz[v.toNat]? = some q := by
  unfold sitesOf; rw [List.mem_filterMap]

theorem mem_sites_take {a : CCArgs} {xyz : List (Pt K)} {knn : List Int} (hc : Ctx a xyz knn)
    {nb : Nat} (hnb : nb ≤ a.k) {q : Pt K} :
    q ∈ sitesOf xyz (knn.take nb) ↔ ∃ i, i < nb ∧ candPt xyz knn i = q := by
  rw [mem_sitesOf]
  constructor
  · rintro ⟨v, hv, he⟩
    obtain ⟨i, hi, h1⟩ := List.getElem_of_mem hv
    rw [List.length_take] at hi
    rw [List.getElem_take] at h1
    obtain ⟨qi, q', g1, g2⟩ := hc.ids i (by omega)
    rw [List.getElem?_eq_getElem (by omega), h1] at g1
    cases g1
    refine ⟨i, by omega, ?_⟩
    rw [candPt_eq (by rw [List.getElem?_eq_getElem (by omega), h1]) g2]
    have := (rdI_eq_ok.mp g2).2
    rw [he] at this; cases this; rfl
  · rintro ⟨i, hi, rfl⟩
    obtain ⟨qi, q', g1, g2⟩ := hc.ids i (by omega)
    refine ⟨qi, ?_, ?_⟩
    · refine List.mem_of_getElem? (i := i) ?_
      rw [List.getElem?_take, if_pos hi, g1]
    · rw [candPt_eq g1 g2]; exact (rdI_eq_ok.mp g2).2

theorem cell_iff {a : CCArgs} {xyz : List (Pt K)} {knn : List Int} {p : Pt K} {dk0 : List Int}
    {nb : Nat} {b : Bool} {s : CCState K} (hc : Ctx a xyz knn) (hf : CellFull a xyz knn p dk0 nb b s)
    (x : Pt K) :
    InCell s.psize (inward s.P) x ↔ VoronoiCell p (sitesOf xyz (knn.take nb)) x := by
  rw [hf.geo.cell]
  unfold VoronoiCell
  constructor
  · rintro ⟨h1, h2⟩
    refine ⟨h1, fun q hq => ?_⟩
    obtain ⟨i, hi, rfl⟩ := (mem_sites_take hc hf.le).mp hq
    exact h2 i hi
  · rintro ⟨h1, h2⟩
    exact ⟨h1, fun i hi => h2 _ ((mem_sites_take hc hf.le).mpr ⟨i, hi, rfl⟩)⟩

section states
variable {a : CCArgs} {xyz : List (Pt K)} {index : Int} {P : List (Plane K)} {T : List Tri}
  {dR : List Nat} {knn dknn : List Int} {p : Pt K} {s0 : CCState K} {nb : Nat} {b : Bool}
  {s : CCState K}

theorem reach_full (h : CellInput a xyz index P T dR knn dknn) (hp : InUnitBox p)
    (hs0 : ccInit .init P T dR dknn = .ok s0) (hr : CellReach a xyz knn p s0 nb b s) :
    CellFull a xyz knn p dknn nb b s := by
  obtain ⟨s0', i1, i2, i3, i4, i5, i6⟩ := ccInit_spec .init xyz knn p h.plen h.tlen h.dlen h.dklen
    h.pm6 h.tm8
  rw [hs0] at i1; cases i1
  exact hr.full h.pre.ctx hp i2 i3 i5 i6 (by rw [i4]; exact State.get_init)

/-- C22: after any number of neighbours, every vertex triple is a non-singular triple of stored
planes, and its common point lies in the box and is at least as close to `p` as to every
candidate processed so far. -/
theorem C22_vertices_in_cell (h : CellInput a xyz index P T dR knn dknn) (hp : InUnitBox p)
    (hs0 : ccInit .init P T dR dknn = .ok s0) (hr : CellReach a xyz knn p s0 nb b s) :
    ∀ t ∈ s.T.take s.tsize, ∃ v, IsVertex s.P t v ∧ VoronoiCell p (sitesOf xyz (knn.take nb)) v := by
  have hf := reach_full h hp hs0 hr
  intro t ht
  refine ⟨tv (inward s.P) t, tv_isVertex (ne_of_gt (hf.geo.poly.orient t ht)) ?_, ?_⟩
  · intro j hj
    have := hf.geo.poly.valid.has_lt t ht j hj
    have := hf.inv.pp; have := hf.inv.plen; omega
  · rw [← cell_iff h.pre.ctx hf]; exact hf.geo.poly.feasible ht

theorem isVertex_tv (hf : CellFull a xyz knn p dknn nb b s) {t : Tri} (ht : t ∈ s.T.take s.tsize) :
    IsVertex s.P t (tv (inward s.P) t) :=
  tv_isVertex (ne_of_gt (hf.geo.poly.orient t ht)) (fun j hj => by
    have := hf.geo.poly.valid.has_lt t ht j hj
    have := hf.inv.pp; have := hf.inv.plen; omega)

/-- C23: every point of the partial cell is bounded by the computed vertices, for every affine
function. -/
theorem C23_span_affine (h : CellInput a xyz index P T dR knn dknn) (hp : InUnitBox p)
    (hs0 : ccInit .init P T dR dknn = .ok s0) (hr : CellReach a xyz knn p s0 nb b s) (x : Pt K)
    (hx : VoronoiCell p (sitesOf xyz (knn.take nb)) x) (ca cb cc cd : K) :
    ∃ t ∈ s.T.take s.tsize, ∃ v, IsVertex s.P t v ∧ affine ca cb cc cd x ≤ affine ca cb cc cd v := by
  have hf := reach_full h hp hs0 hr
  rw [← cell_iff h.pre.ctx hf] at hx
  obtain ⟨t, ht, hle⟩ := hf.geo.poly.used (x := x)
    (fun j ⟨t, ht, hj⟩ => hx j (hf.geo.poly.valid.has_lt t ht j hj)) ⟨ca, cb, cc, cd⟩
  exact ⟨t, ht, _, isVertex_tv hf ht, hle⟩

/-- C23: the distance to the cell's point is largest at a computed vertex. -/
theorem C23_span_distance (h : CellInput a xyz index P T dR knn dknn) (hp : InUnitBox p)
    (hs0 : ccInit .init P T dR dknn = .ok s0) (hr : CellReach a xyz knn p s0 nb b s) (x : Pt K)
    (hx : VoronoiCell p (sitesOf xyz (knn.take nb)) x) :
    ∃ t ∈ s.T.take s.tsize, ∃ v, IsVertex s.P t v ∧ sqDist x p ≤ sqDist v p := by
  have hf := reach_full h hp hs0 hr
  rw [← cell_iff h.pre.ctx hf] at hx
  obtain ⟨t, ht, hle⟩ := hf.geo.poly.radius hx p
  refine ⟨t, ht, _, isVertex_tv hf ht, ?_⟩
  rw [sqDist_comm x p, sqDist_comm _ p]; exact hle

/-- C54: the cell always has a vertex, contains its own point, and no bisector removes all of its
vertices. -/
theorem C54_never_emptied (h : CellInput a xyz index P T dR knn dknn) (hp : InUnitBox p)
    (hs0 : ccInit .init P T dR dknn = .ok s0) (hr : CellReach a xyz knn p s0 nb b s) :
    0 < s.tsize ∧ VoronoiCell p (sitesOf xyz (knn.take nb)) p ∧
    ∀ q : Pt K, ∃ t ∈ s.T.take s.tsize, ∃ v, IsVertex s.P t v ∧ sqDist v p ≤ sqDist v q := by
  have hf := reach_full h hp hs0 hr
  have hpp : sqDist p p = 0 := by simp only [sqDist]; ring
  have hin : VoronoiCell p (sitesOf xyz (knn.take nb)) p :=
    ⟨hp, fun q _ => by rw [hpp]; exact sqDist_nonneg _ _⟩
  refine ⟨?_, hin, ?_⟩
  · rcases Nat.eq_zero_or_pos s.tsize with h0 | h0
    · exact absurd (by rw [h0]; rfl) hf.geo.poly.ne
    · exact h0
  · intro q
    rw [← cell_iff h.pre.ctx hf] at hin
    obtain ⟨t, ht, hle⟩ := hf.geo.poly.kept hf.geo.poly.ne (fun t ht => ht) hf.geo.poly.closed hin
      (g := (bisect q p).flip) (by rw [bisect_flip_eval, hpp]; exact sqDist_nonneg _ _)
    rw [bisect_flip_eval] at hle
    exact ⟨t, ht, _, isVertex_tv hf ht, hle⟩

/-- C20 in exact arithmetic, without a condition: the vertex triples always form a closed
connected surface. -/
theorem C20_exact (h : CellInput a xyz index P T dR knn dknn) (hp : InUnitBox p)
    (hs0 : ccInit .init P T dR dknn = .ok s0) (hr : CellReach a xyz knn p s0 nb b s) :
    ValidTris s.psize (s.T.take s.tsize) ∧ ClosedTris (s.T.take s.tsize) ∧
      ∀ S, S ≠ [] → (∀ t ∈ S, t ∈ s.T.take s.tsize) → ClosedTris S →
        ∀ t ∈ s.T.take s.tsize, t ∈ S := by
  obtain ⟨s0', i1, i2, i3, i4, i5, i6⟩ := ccInit_spec .init xyz knn p h.plen h.tlen h.dlen h.dklen
    h.pm6 h.tm8
  rw [hs0] at i1; cases i1
  refine C20_closed_surface h hs0 (fun nb s hr hnb => ?_) hr
  have hf := reach_full h hp hs0 hr
  obtain ⟨js, hh, -⟩ := hf.hist
  obtain ⟨o, ho, -⟩ := ccStep_inv h.pre.ctx hnb hf.inv hh
    ((hr.inv h.pre.ctx i2 i3 (by rw [i4]; exact State.get_init)).2.2.1 rfl)
  exact (ccStep_geo h.pre.ctx hp hnb hf.inv hf.geo ho).1

end states

/-! ### whole cells -/

/-- a cell computed from an exact nearest neighbour list -/
structure CellJob (a : CCArgs) (xyz : List (Pt K)) (index : Nat) (p : Pt K)
    (res : List (Int × WithTop K)) (o : CCOut K) : Prop where
  box : InUnitBox p
  self : xyz[index]? = some p
  knn : KnnSpec xyz index p a.k res
  pm6 : 6 ≤ a.pm
  pm255 : a.pm ≤ 255
  tm8 : 8 ≤ a.tm
  tm : a.tm < 32768
  k : a.k < 65536
  run : ∃ P T dR, P.length = a.pm ∧ T.length = a.tm ∧ dR.length = a.pm ∧
    ccCompute a xyz index .init P T dR (res.map (·.1)) (List.replicate a.k kUndefined) = .ok o

/-- no error flag, and the security radius was reached or all other points were processed -/
def Complete (a : CCArgs) (xyz : List (Pt K)) (o : CCOut K) : Prop :=
  NoError o.s.state ∧ (o.s.state.get .security_radius_reached = true ∨ xyz.length - 1 ≤ a.k)

theorem knn_entry {xyz : List (Pt K)} {index : Nat} {p : Pt K} {k : Nat} {res : List (Int × WithTop K)}
    (h : KnnSpec xyz index p k res) {e : Int × WithTop K} (he : e ∈ res) :
    (∃ (j : Nat) (q : Pt K), e.1 = j ∧ xyz[j]? = some q ∧ j ≠ index ∧ e.2 = ((sqDist q p : K) : WithTop K))
      ∨ e = (0, ⊤) := by
  obtain ⟨-, -, rest, hp, -⟩ := h
  rcases List.mem_append.mp (hp.mem_iff.mp (List.mem_append_left _ he)) with h | h
  · obtain ⟨j, pt, h1, h2, rfl⟩ := (mem_otherPoints _ _ _ _).mp h
    exact Or.inl ⟨j, pt, rfl, h1, h2, rfl⟩
  · exact Or.inr (List.eq_of_mem_replicate h)

section jobs
variable {a : CCArgs} {xyz : List (Pt K)} {index : Nat} {p : Pt K} {res : List (Int × WithTop K)}
  {o : CCOut K}

theorem CellJob.input (h : CellJob a xyz index p res o) {P : List (Plane K)} {T : List Tri}
    {dR : List Nat} (hP : P.length = a.pm) (hT : T.length = a.tm) (hd : dR.length = a.pm) :
    CellInput a xyz index P T dR (res.map (·.1)) (List.replicate a.k kUndefined) := by
  have hi := (List.getElem?_eq_some_iff.mp h.self).1
  refine ⟨h.pm6, h.pm255, h.tm8, h.tm, h.k, ⟨by omega, by omega⟩, ?_, ?_, hP, hT, hd, by simp⟩
  · intro v hv
    obtain ⟨e, he, rfl⟩ := List.mem_map.mp hv
    rcases knn_entry h.knn he with ⟨j, q, h1, h2, -⟩ | rfl
    · have := (List.getElem?_eq_some_iff.mp h2).1
      rw [h1]; omega
    · simp only; omega
  · rw [List.length_map, h.knn.1]

/-- everything known about the final state of an error free computation -/
theorem CellJob.full (h : CellJob a xyz index p res o) (hok : NoError o.s.state) :
    Ctx a xyz (res.map (·.1)) ∧ ∃ nb b,
      CellFull a xyz (res.map (·.1)) p (List.replicate a.k kUndefined) nb b o.s ∧
      (b = false → nb = a.k) ∧ o.s.state.get .security_radius_reached = b ∧
      tmpnnRow o.knn = selected (o.s.T.take o.s.tsize) o.s.dknn (res.map (·.1)) := by
  obtain ⟨P, T, dR, hP, hT, hd, hrun⟩ := h.run
  have hin := h.input hP hT hd
  have hc := hin.pre.ctx
  have hself : rdI xyz (index : Int) = .ok p := rdI_eq_ok.mpr ⟨by omega, by simpa using h.self⟩
  obtain ⟨s0, i1, -⟩ := ccInit_spec .init xyz (res.map (·.1)) p hin.plen hin.tlen hin.dlen hin.dklen
    hin.pm6 hin.tm8
  obtain ⟨nb, b, r1, r2, r3, r4⟩ := ccCompute_reach State.get_init hin.pre hself i1 hrun hok
  refine ⟨hc, nb, b, reach_full hin h.box i1 r1, r2, r3, ?_⟩
  rw [r4]
  exact takeWhile_append_replicate (fun v hv => CCPre.ne_undef hc v
    ((selected_sublist _ _ _).subset hv)) _

/-- position in the candidate list of a point that was not processed, or it is processed -/
theorem knn_processed (h : KnnSpec xyz index p a.k res) (hidx : index < xyz.length) {w : Nat} {q : Pt K} (hw : xyz[w]? = some q) (hwi : w ≠ index) :
    (∃ i, i < a.k ∧ candPt xyz (res.map (·.1)) i = q ∧
      ∀ i', i' ≤ i → sqDist (candPt xyz (res.map (·.1)) i') p ≤ sqDist q p) ∨
    (a.k < xyz.length - 1 ∧ ∀ i, i < a.k → sqDist (candPt xyz (res.map (·.1)) i) p ≤ sqDist q p) := by
  have h0 := h
  have : Inhabited K := ⟨0⟩
  obtain ⟨hlen, hsort, rest, hp, hle⟩ := h
  have hmem : ((w : Int), ((sqDist q p : K) : WithTop K)) ∈ otherPoints xyz index p :=
    (mem_otherPoints _ _ _ _).mpr ⟨w, q, hw, hwi, rfl⟩
  -- distance of candidate `i` if its stored distance is at most that of `q`
  have key : ∀ (i : Nat) (hi : i < res.length), res[i].2 ≤ ((sqDist q p : K) : WithTop K) →
      sqDist (candPt xyz (res.map (·.1)) i) p ≤ sqDist q p := by
    intro i hi hd
    rcases knn_entry h0 (List.getElem_mem hi) with ⟨j, q', g1, g2, g3, g4⟩ | h1
    · have hcp : candPt xyz (res.map (·.1)) i = q' := by
        refine candPt_eq (qi := (j : Int)) ?_ ?_
        · rw [List.getElem?_map, List.getElem?_eq_getElem hi]; simp [g1]
        · exact rdI_eq_ok.mpr ⟨by omega, by simpa using g2⟩
      rw [g4] at hd
      rw [hcp]; exact WithTop.coe_le_coe.mp hd
    · rw [h1] at hd
      exact absurd hd (by simp)
  rcases List.mem_append.mp (hp.symm.mem_iff.mp (List.mem_append_left _ hmem)) with hin | hin
  · left
    obtain ⟨i, hi, he⟩ := List.getElem_of_mem hin
    refine ⟨i, by omega, ?_, ?_⟩
    · refine candPt_eq (qi := (w : Int)) ?_ ?_
      · rw [List.getElem?_map, List.getElem?_eq_getElem hi]; simp [he]
      · exact rdI_eq_ok.mpr ⟨by omega, by simpa using hw⟩
    · intro i' hi'
      refine key i' (by omega) ?_
      rcases Nat.lt_or_ge i' i with hlt | hge
      · have := (List.pairwise_iff_getElem.mp hsort) i' i (by omega) hi hlt
        rw [he] at this; exact this
      · obtain rfl : i' = i := by omega
        rw [he]
  · right
    have hall : ∀ i (hi : i < res.length), res[i].2 ≤ ((sqDist q p : K) : WithTop K) :=
      fun i hi => hle _ (List.getElem_mem hi) _ hin
    refine ⟨?_, fun i hi => key i (by omega) (hall i (by omega))⟩
    have hfp := filter_fin_spec hp
    have hcount := hfp.length_eq
    have hfin : res.filter fin = res := by
      rw [List.filter_eq_self]
      intro e he
      exact fin_of_le (hle e he _ hin) (by simp [fin])
    have hrest : 0 < (rest.filter fin).length := List.length_pos_of_mem
      (List.mem_filter.mpr ⟨hin, by simp [fin]⟩)
    rw [List.length_append, hfin, hlen] at hcount
    rw [otherPoints_length _ _ _ hidx] at hcount
    omega

/-- no unprocessed point matters -/
theorem CellJob.complete_cell (h : CellJob a xyz index p res o) (hcomp : Complete a xyz o) :
    ∀ x, InCell o.s.psize (inward o.s.P) x ↔ VoronoiCell p xyz x := by
  obtain ⟨hc, nb, b, hf, hb1, hb2, -⟩ := h.full hcomp.1
  intro x
  constructor
  · intro hx
    have hx' := (hf.geo.cell x).mp hx
    refine ⟨hx'.1, fun q hq => ?_⟩
    obtain ⟨w, hw, rfl⟩ := List.getElem_of_mem hq
    have hwq : xyz[w]? = some xyz[w] := List.getElem?_eq_getElem hw
    by_cases hwi : w = index
    · subst hwi
      have := h.self
      rw [hwq] at this; cases this
      exact le_refl _
    rcases knn_processed h.knn (List.getElem?_eq_some_iff.mp h.self).1 hwq hwi with ⟨i, hi, hci, hle⟩ | ⟨hk, hle⟩
    · rcases Nat.lt_or_ge i nb with hin | hin
      · have := hx'.2 i hin; rwa [hci] at this
      · cases b with
        | false => have := hb1 rfl; omega
        | true =>
          obtain ⟨m, rfl, hr⟩ := hf.rad rfl
          exact le_of_lt (hr x hx _ (hle m (by omega)))
    · cases b with
      | false => rcases hcomp.2 with h2 | h2
                 · rw [hb2] at h2; cases h2
                 · omega
      | true =>
        obtain ⟨m, rfl, hr⟩ := hf.rad rfl
        exact le_of_lt (hr x hx _ (hle m (by have := hf.le; omega)))
  · intro hx
    rw [hf.geo.cell]
    refine ⟨hx.1, fun i hi => hx.2 _ ?_⟩
    obtain ⟨qi, q, g1, g2⟩ := hc.ids i (by have := hf.le; omega)
    rw [candPt_eq g1 g2]
    exact List.mem_of_getElem? (rdI_eq_ok.mp g2).2

/-- C24: for a complete cell the points of the box that satisfy the returned neighbours'
bisectors are exactly the points that are at least as close to `p` as to every point of the set. -/
theorem C24_complete_cell (h : CellJob a xyz index p res o) (hcomp : Complete a xyz o) (x : Pt K) :
    VoronoiCell p (sitesOf xyz (tmpnnRow o.knn)) x ↔ VoronoiCell p xyz x := by
  obtain ⟨hc, nb, b, hf, hb1, hb2, hrow⟩ := h.full hcomp.1
  constructor
  · rintro ⟨h1, h2⟩
    rw [← h.complete_cell hcomp]
    refine row_cell hf hc h1 (fun v hv q hq => h2 q ?_)
    rw [mem_sitesOf, hrow]
    exact ⟨v, hv, (rdI_eq_ok.mp hq).2⟩
  · rintro ⟨h1, h2⟩
    refine ⟨h1, fun q hq => h2 q ?_⟩
    obtain ⟨v, -, hv⟩ := mem_sitesOf.mp hq
    exact List.mem_of_getElem? hv

/-- C24: the computed vertices of a complete cell lie in the Voronoi cell, and every affine
function on the Voronoi cell is maximal at one of them. -/
theorem C24_vertices (h : CellJob a xyz index p res o) (hcomp : Complete a xyz o) :
    (∀ t ∈ o.s.T.take o.s.tsize, ∃ v, IsVertex o.s.P t v ∧ VoronoiCell p xyz v) ∧
    ∀ x, VoronoiCell p xyz x → ∀ ca cb cc cd : K, ∃ t ∈ o.s.T.take o.s.tsize, ∃ v,
      IsVertex o.s.P t v ∧ affine ca cb cc cd x ≤ affine ca cb cc cd v := by
  obtain ⟨hc, nb, b, hf, -⟩ := h.full hcomp.1
  constructor
  · intro t ht
    exact ⟨_, isVertex_tv hf ht, (h.complete_cell hcomp _).mp (hf.geo.poly.feasible ht)⟩
  · intro x hx ca cb cc cd
    rw [← h.complete_cell hcomp] at hx
    obtain ⟨t, ht, hle⟩ := hf.geo.poly.used (x := x)
      (fun j ⟨t, ht, hj⟩ => hx j (hf.geo.poly.valid.has_lt t ht j hj)) ⟨ca, cb, cc, cd⟩
    exact ⟨t, ht, _, isVertex_tv hf ht, hle⟩

/-- a plane of the final state that is used by a vertex -/
theorem used_plane (hf : CellFull a xyz (res.map (·.1)) p dk0 nb b o.s) {js : List Nat}
    (hh : Hist xyz (res.map (·.1)) p dk0 nb o.s js) {t : Tri} (ht : t ∈ o.s.T.take o.s.tsize) {m i : Nat}
    (hm : js[m]? = some i) (hj : t.has (6 + m)) :
    sqDist (tv (inward o.s.P) t) p = sqDist (tv (inward o.s.P) t) (candPt xyz (res.map (·.1)) i) := by
  have hlt := hf.geo.poly.valid.has_lt t ht _ hj
  obtain ⟨i', h1, h2⟩ := js_get hh (by omega : 6 ≤ 6 + m) hlt
  rw [show 6 + m - 6 = m by omega, hm] at h1
  cases h1
  have := tv_on (ne_of_gt (hf.geo.poly.orient t ht)) hj
  rw [h2, Plane.flip_eval, bisect_eval] at this
  linarith

/-- C25: each returned neighbour is another point of the set, and its Voronoi cell shares a point
of the box with this one. -/
theorem C25_returned_touch (h : CellJob a xyz index p res o) (hcomp : Complete a xyz o) :
    ∀ v ∈ tmpnnRow o.knn, ∃ (w : Nat) (q : Pt K), v = w ∧ xyz[w]? = some q ∧ w ≠ index ∧ q ≠ p ∧
      Touch xyz p q := by
  obtain ⟨hc, nb, b, hf, hb1, hb2, hrow⟩ := h.full hcomp.1
  intro v hv
  rw [hrow] at hv
  obtain ⟨js, hh, hfr⟩ := hf.hist
  obtain ⟨m, i, h1, h2, t, ht, hj⟩ := (mem_row hf.inv hh).mp hv
  have himem := List.mem_of_getElem? h1
  obtain ⟨qi, q, g1, g2⟩ := hc.ids i (by have := hf.le; have := hh.lt i himem; omega)
  rw [h2] at g1; cases g1
  have hcand := candPt_eq h2 g2
  obtain ⟨hv0, hvq⟩ := rdI_eq_ok.mp g2
  have hqp := (hfr i himem).1
  rw [hcand] at hqp
  refine ⟨v.toNat, q, by omega, hvq, ?_, hqp, ?_⟩
  · rintro rfl
    rw [h.self] at hvq; cases hvq; exact hqp rfl
  · have hx := (h.complete_cell hcomp _).mp (hf.geo.poly.feasible ht)
    refine ⟨_, hx, hx.1, fun q' hq' => ?_⟩
    have := used_plane hf hh ht h1 hj
    rw [hcand] at this
    rw [← this]; exact hx.2 q' hq'

/-- C25: a point that is not returned does not contribute to the cell: leaving it out of the set
does not enlarge the Voronoi cell. -/
theorem C25_missing_irrelevant (h : CellJob a xyz index p res o) (hcomp : Complete a xyz o) (w : Nat)
    (hw : (w : Int) ∉ tmpnnRow o.knn) (x : Pt K) :
    VoronoiCell p (xyz.eraseIdx w) x → VoronoiCell p xyz x := by
  rintro ⟨h1, h2⟩
  rw [← C24_complete_cell h hcomp]
  refine ⟨h1, fun q hq => h2 q ?_⟩
  obtain ⟨v, hv, hvq⟩ := mem_sitesOf.mp hq
  rw [List.mem_eraseIdx_iff_getElem?]
  obtain ⟨w', q', rfl, -, -⟩ := C25_returned_touch h hcomp v hv
  refine ⟨w', ?_, by simpa using hvq⟩
  rintro rfl; exact hw hv

/-- the row has no repetitions, not even different numbers of points at the same place -/
theorem row_nodup (h : CellJob a xyz index p res o) (hok : NoError o.s.state) :
    (tmpnnRow o.knn).Pairwise fun v w => xyz[v.toNat]? ≠ xyz[w.toNat]? := by
  obtain ⟨hc, nb, b, hf, hb1, hb2, hrow⟩ := h.full hok
  obtain ⟨js, hh, hfr⟩ := hf.hist
  rw [hrow]
  unfold selected
  rw [List.pairwise_map, List.pairwise_filter, List.pairwise_iff_getElem]
  intro i i' hi hi' hlt hu hu'
  rw [List.length_zip] at hi hi'
  rw [List.getElem_zip] at hu hu' ⊢
  rw [List.getElem_zip]
  simp only at hu hu' ⊢
  have inj : ∀ i (hi : i < o.s.dknn.length), usesPlane (o.s.T.take o.s.tsize) o.s.dknn[i] = true →
      i ∈ js := by
    intro i hi hu
    by_contra hn
    have := hh.old i hn
    rw [List.getElem?_eq_getElem hi] at this
    have hd : o.s.dknn[i] = kUndefined := List.eq_of_mem_replicate (List.mem_of_getElem? this.symm)
    rw [hd, usesPlane_neg (by decide)] at hu
    cases hu
  have hne := (hfr i' (inj i' (by omega) hu')).2 i hlt
  obtain ⟨q1, x1, a1, b1⟩ := hc.ids i (by have := hc.klen; omega)
  obtain ⟨q2, x2, a2, b2⟩ := hc.ids i' (by have := hc.klen; omega)
  rw [candPt_eq a1 b1, candPt_eq a2 b2] at hne
  rw [List.getElem?_eq_getElem (by omega)] at a1 a2
  cases a1; cases a2
  rw [(rdI_eq_ok.mp b1).2, (rdI_eq_ok.mp b2).2]
  intro he; cases he; exact hne rfl

/-- C12 (cells): asking for more neighbours than exist, the padding entries are never returned as
spurious neighbours: every returned entry is another point whose Voronoi cell touches this one,
and no point is returned twice. -/
theorem C12_padding_harmless (h : CellJob a xyz index p res o) (hok : NoError o.s.state)
    (hk : xyz.length - 1 < a.k) :
    (tmpnnRow o.knn).Nodup ∧ ∀ v ∈ tmpnnRow o.knn, ∃ (w : Nat) (q : Pt K), v = w ∧
      xyz[w]? = some q ∧ w ≠ index ∧ Touch xyz p q := by
  refine ⟨(row_nodup h hok).imp (fun h => by rintro rfl; exact h rfl), ?_⟩
  intro v hv
  obtain ⟨w, q, h1, h2, h3, -, h5⟩ := C25_returned_touch h ⟨hok, Or.inr (by omega)⟩ v hv
  exact ⟨w, q, h1, h2, h3, h5⟩

/-! ### general position -/

/-- constraint `e` belongs to plane number `j` -/
def PlaneIs (xyz : List (Pt K)) (knn : List Int) (js : List Nat) (s : CCState K) (j : Nat)
    (e : Nat ⊕ Nat) : Prop :=
  (j < 6 ∧ e = .inl j) ∨ ∃ (i w : Nat), js[j - 6]? = some i ∧ 6 ≤ j ∧ e = .inr w ∧
    (w : Int) ∈ selected (s.T.take s.tsize) s.dknn knn ∧ xyz[w]? = some (candPt xyz knn i)

/-- the planes of a vertex are tight -/
theorem tight_plane (h : CellJob a xyz index p res o)
    {nb : Nat} {b : Bool} (hf : CellFull a xyz (res.map (·.1)) p (List.replicate a.k kUndefined) nb b o.s)
    (hc : Ctx a xyz (res.map (·.1))) {js : List Nat}
    (hh : Hist xyz (res.map (·.1)) p (List.replicate a.k kUndefined) nb o.s js)
    (hfr : Fresh xyz (res.map (·.1)) p js) {t : Tri} (ht : t ∈ o.s.T.take o.s.tsize) {j : Nat}
    (hj : t.has j) : ∃ e, Tight xyz index p (tv (inward o.s.P) t) e ∧
      PlaneIs xyz (res.map (·.1)) js o.s j e := by
  have hlt := hf.geo.poly.valid.has_lt t ht j hj
  rcases Nat.lt_or_ge j 6 with h6 | h6
  · refine ⟨.inl j, ?_, Or.inl ⟨h6, rfl⟩⟩
    have := tv_on (ne_of_gt (hf.geo.poly.orient t ht)) hj
    rw [box_get hh h6] at this
    generalize tv (inward o.s.P) t = v at this
    have hj' : j = 0 ∨ j = 1 ∨ j = 2 ∨ j = 3 ∨ j = 4 ∨ j = 5 := by omega
    rcases hj' with rfl | rfl | rfl | rfl | rfl | rfl <;>
      simp [pInit, Plane.eval, FP.ofInt] at this <;> simp only [Tight, OnFace] <;> linarith
  · have hjl : j - 6 < js.length := by have := hh.psize; omega
    have hm : js[j - 6]? = some js[j - 6] := List.getElem?_eq_getElem hjl
    have himem := List.mem_of_getElem? hm
    obtain ⟨qi, q, g1, g2⟩ := hc.ids js[j - 6] (by have := hf.le; have := hh.lt _ himem; omega)
    obtain ⟨hv0, hvq⟩ := rdI_eq_ok.mp g2
    have hcand := candPt_eq g1 g2
    have hj' : t.has (6 + (j - 6)) := by rwa [show 6 + (j - 6) = j by omega]
    refine ⟨.inr qi.toNat, ⟨?_, q, hvq, ?_⟩, Or.inr ⟨_, qi.toNat, hm, h6, rfl, ?_, ?_⟩⟩
    · intro he
      have hqp := (hfr _ himem).1
      rw [he, h.self] at hvq; cases hvq
      exact hqp hcand
    · rw [used_plane hf hh ht hm hj', hcand]
    · rw [show ((qi.toNat : Nat) : Int) = qi by omega]
      exact (mem_row hf.inv hh).mpr ⟨j - 6, _, hm, g1, t, ht, hj'⟩
    · rw [hcand]; exact hvq

/-- C26: in general position the returned row is exactly the set of the points whose Voronoi cell
touches this one inside the box. -/
theorem C26_exact_neighbours (h : CellJob a xyz index p res o) (hcomp : Complete a xyz o)
    (hgp : GeneralAt xyz index p) (w : Nat) :
    (w : Int) ∈ tmpnnRow o.knn ↔ w ≠ index ∧ ∃ q, xyz[w]? = some q ∧ Touch xyz p q := by
  constructor
  · intro hw
    obtain ⟨w', q, h1, h2, h3, -, h5⟩ := C25_returned_touch h hcomp _ hw
    obtain rfl : w = w' := by omega
    exact ⟨h3, q, h2, h5⟩
  · rintro ⟨hwi, q, hq, x, hx, hx'⟩
    by_contra hnot
    obtain ⟨hc, nb, b, hf, hb1, hb2, hrow⟩ := h.full hcomp.1
    obtain ⟨js, hh, hfr⟩ := hf.hist
    rw [hrow] at hnot
    -- a vertex on the bisector with `q`
    have hin := (h.complete_cell hcomp x).mpr hx
    obtain ⟨t, ht, hle⟩ := hf.geo.poly.used (x := x)
      (fun j ⟨t, ht, hj⟩ => hin j (hf.geo.poly.valid.has_lt t ht j hj)) (bisect q p)
    have hv := (h.complete_cell hcomp _).mp (hf.geo.poly.feasible ht)
    rw [bisect_eval, bisect_eval] at hle
    have e1 : sqDist x p = sqDist x q := le_antisymm (hx.2 q (List.mem_of_getElem? hq))
      (hx'.2 p (List.mem_of_getElem? h.self))
    have e2 := hv.2 q (List.mem_of_getElem? hq)
    have e3 : sqDist (tv (inward o.s.P) t) p = sqDist (tv (inward o.s.P) t) q := by linarith
    obtain ⟨ea, ta, oa⟩ := tight_plane h hf hc hh hfr ht (j := t.a) (by simp [Tri.has])
    obtain ⟨eb, tb, ob⟩ := tight_plane h hf hc hh hfr ht (j := t.b) (by simp [Tri.has])
    obtain ⟨ec, tc, oc⟩ := tight_plane h hf hc hh hfr ht (j := t.c) (by simp [Tri.has])
    have hdis := hf.geo.poly.valid.tri t ht
    -- different planes give different constraints
    have ne : ∀ j j' e e', j ≠ j' →
        PlaneIs xyz (res.map (·.1)) js o.s j e → PlaneIs xyz (res.map (·.1)) js o.s j' e' →
        e ≠ e' := by
      rintro j j' e e' hjj (⟨-, rfl⟩ | ⟨i, w, k1, k2, rfl, k3, k4⟩)
        (⟨-, rfl⟩ | ⟨i', w', l1, l2, rfl, l3, l4⟩) he
      · cases he; exact hjj rfl
      · cases he
      · cases he
      · cases he
        rw [k4] at l4
        have hcc : candPt xyz (res.map (·.1)) i = candPt xyz (res.map (·.1)) i' := by
          injection l4
        rcases Nat.lt_trichotomy i i' with hl | rfl | hl
        · exact (hfr i' (List.mem_of_getElem? l1)).2 i hl hcc
        · have hnd : js.Nodup := hh.asc.imp (fun h => by omega)
          have := (List.nodup_iff_getElem?_ne_getElem?.mp hnd)
          rcases Nat.lt_trichotomy (j - 6) (j' - 6) with hl | hl | hl
          · exact this _ _ hl (List.getElem?_eq_some_iff.mp l1).1 (k1.trans l1.symm)
          · omega
          · exact this _ _ hl (List.getElem?_eq_some_iff.mp k1).1 (l1.trans k1.symm)
        · exact (hfr i (List.mem_of_getElem? k1)).2 i' hl hcc.symm
    have new : ∀ j e, PlaneIs xyz (res.map (·.1)) js o.s j e → e ≠ .inr w := by
      rintro j e (⟨-, rfl⟩ | ⟨i, w', -, -, rfl, k3, -⟩) he
      · cases he
      · cases he; exact hnot k3
    have := hgp _ hv [.inr w, ea, eb, ec] (by
      simp only [List.nodup_cons, List.mem_cons, List.not_mem_nil, or_false, not_or, not_false_eq_true,
        List.nodup_nil, and_true]
      exact ⟨⟨(new _ _ oa).symm, (new _ _ ob).symm, (new _ _ oc).symm⟩,
        ⟨ne _ _ _ _ (by omega) oa ob, ne _ _ _ _ (by omega) oa oc⟩, ne _ _ _ _ (by omega) ob oc⟩) (by
      intro e he
      simp only [List.mem_cons, List.not_mem_nil, or_false] at he
      rcases he with rfl | rfl | rfl | rfl
      · exact ⟨hwi, q, hq, e3⟩
      · exact ta
      · exact tb
      · exact tc)
    simp at this

theorem Touch.symm {xyz : List (Pt K)} {p q : Pt K} (h : Touch xyz p q) : Touch xyz q p :=
  let ⟨x, h1, h2⟩ := h
  ⟨x, h2, h1⟩

/-- C26: in general position the neighbour relation of complete cells is symmetric. -/
theorem C26_symmetric {a' : CCArgs} {index' : Nat} {p' : Pt K} {res' : List (Int × WithTop K)}
    {o' : CCOut K} (h : CellJob a xyz index p res o) (h' : CellJob a' xyz index' p' res' o')
    (hcomp : Complete a xyz o) (hcomp' : Complete a' xyz o') (hgp : GeneralAt xyz index p)
    (hgp' : GeneralAt xyz index' p') :
    (index' : Int) ∈ tmpnnRow o.knn ↔ (index : Int) ∈ tmpnnRow o'.knn := by
  rw [C26_exact_neighbours h hcomp hgp, C26_exact_neighbours h' hcomp' hgp']
  constructor
  · rintro ⟨h1, q, h2, h3⟩
    rw [h'.self] at h2; cases h2
    exact ⟨fun e => h1 e.symm, p, h.self, h3.symm⟩
  · rintro ⟨h1, q, h2, h3⟩
    rw [h.self] at h2; cases h2
    exact ⟨fun e => h1 e.symm, p', h'.self, h3.symm⟩

theorem voronoiCell_congr {xyz xyz' : List (Pt K)} (hm : ∀ q, q ∈ xyz ↔ q ∈ xyz') (p x : Pt K) :
    VoronoiCell p xyz x ↔ VoronoiCell p xyz' x := by
  unfold VoronoiCell
  simp only [hm]

theorem row_points (h : CellJob a xyz index p res o) (hcomp : Complete a xyz o)
    (hgp : GeneralAt xyz index p) (q : Pt K) :
    q ∈ sitesOf xyz (tmpnnRow o.knn) ↔ q ∈ xyz ∧ q ≠ p ∧ Touch xyz p q := by
  rw [mem_sitesOf]
  constructor
  · rintro ⟨v, hv, hq⟩
    obtain ⟨w, q', rfl, h2, h3, h4, h5⟩ := C25_returned_touch h hcomp v hv
    have : q' = q := by
      have e : ((w : Int)).toNat = w := by omega
      rw [e, h2] at hq; injection hq
    subst this
    exact ⟨List.mem_of_getElem? h2, h4, h5⟩
  · rintro ⟨hq, hqp, ht⟩
    obtain ⟨w, hw, rfl⟩ := List.getElem_of_mem hq
    refine ⟨w, (C26_exact_neighbours h hcomp hgp w).mpr ⟨?_, _, List.getElem?_eq_getElem hw, ht⟩,
      List.getElem?_eq_getElem hw⟩
    rintro rfl
    have := h.self
    rw [List.getElem?_eq_getElem hw] at this
    injection this with this
    exact hqp this

/-- C53 (one cell): the set of returned points of a complete cell in general position depends
only on the set of points: neither on their order, nor on `k`, buffer sizes, or the way the
nearest neighbours were found. -/
theorem C53_parameter_independent {a' : CCArgs} {xyz' : List (Pt K)} {index' : Nat}
    {res' : List (Int × WithTop K)} {o' : CCOut K} (hperm : xyz.Perm xyz')
    (h : CellJob a xyz index p res o) (h' : CellJob a' xyz' index' p res' o')
    (hcomp : Complete a xyz o) (hcomp' : Complete a' xyz' o') (hgp : GeneralAt xyz index p) (q : Pt K) :
    q ∈ sitesOf xyz (tmpnnRow o.knn) ↔ q ∈ sitesOf xyz' (tmpnnRow o'.knn) := by
  have hgp' := hgp.perm hperm h.self h'.self
  rw [row_points h hcomp hgp, row_points h' hcomp' hgp']
  have hm : ∀ q, q ∈ xyz ↔ q ∈ xyz' := fun q => hperm.mem_iff
  unfold Touch
  simp only [hm, voronoiCell_congr hm]

end jobs

/-! ### a concrete cell -/

/-- the nearest neighbour list of the first point of `cellXyz` -/
def cellRes : List (Int × WithTop ℚ) := [(1, ((1/4 : ℚ) : WithTop ℚ))]

theorem cellRes_spec : KnnSpec cellXyz 0 ⟨1/4, 1/2, 1/2⟩ 1 cellRes := by
  refine ⟨rfl, by simp [cellRes], [(0, ⊤)], ?_, ?_⟩
  · have : otherPoints cellXyz 0 ⟨1/4, 1/2, 1/2⟩ = cellRes := by
      simp [otherPoints, cellXyz, cellRes, sqDist]
      norm_num
    rw [this]; exact List.Perm.refl _
  · intro x _ y hy
    simp only [List.mem_singleton] at hy
    subst hy; exact le_top

theorem cellJob_example : ∃ o, CellJob cellArgs cellXyz 0 ⟨1/4, 1/2, 1/2⟩ cellRes o ∧
    Complete cellArgs cellXyz o ∧ tmpnnRow o.knn = [1] := by
  have hrun : (ccCompute cellArgs cellXyz 0 .init (List.replicate 7 ⟨5, 5, 5, 5⟩)
      (List.replicate 12 ⟨9, 9, 9⟩) (List.replicate 7 3) [1] [kUndefined]).map
        (fun o => (o.knn, o.s.state)) = .ok ([1], .init) := by decide +kernel
  cases hc : ccCompute cellArgs cellXyz 0 .init (List.replicate 7 ⟨5, 5, 5, 5⟩)
      (List.replicate 12 ⟨9, 9, 9⟩) (List.replicate 7 3) [1] [kUndefined] with
  | error e => rw [hc] at hrun; cases hrun
  | ok o =>
    rw [hc] at hrun
    simp only [Except.map, Except.ok.injEq, Prod.mk.injEq] at hrun
    refine ⟨o, ⟨?_, rfl, cellRes_spec, ?_, ?_, ?_, ?_, ?_, _, _, _, ?_, ?_, ?_, hc⟩, ⟨?_, Or.inr ?_⟩, ?_⟩
    · unfold InUnitBox; norm_num
    any_goals simp [cellArgs]
    · rw [hrun.2]; exact ⟨State.get_init _, State.get_init _, State.get_init _⟩
    · simp [cellXyz]
    · rw [hrun.1]; decide

/-- the two-point set is in general position -/
theorem cell_general : GeneralAt cellXyz 0 ⟨1/4, 1/2, 1/2⟩ := by
  intro x _ c hnd ht
  -- direction of a boundary plane
  let cls : Nat ⊕ Nat → Nat := fun e => match e with
    | .inl f => f / 2
    | .inr _ => 0
  have hx : ∀ w, Tight cellXyz 0 ⟨1/4, 1/2, 1/2⟩ x (.inr w) → w = 1 ∧ x.x = 1/2 := by
    rintro w ⟨h0, q, hq, he⟩
    have hw : w = 1 := by
      have := (List.getElem?_eq_some_iff.mp hq).1
      simp [cellXyz] at this; omega
    subst hw
    simp [cellXyz] at hq
    subst hq
    simp only [sqDist] at he
    exact ⟨rfl, by linarith⟩
  have hf : ∀ f, Tight cellXyz 0 ⟨1/4, 1/2, 1/2⟩ x (.inl f) → f < 6 := by
    intro f h
    by_contra hn
    obtain ⟨g, rfl⟩ : ∃ g, f = g + 6 := ⟨f - 6, by omega⟩
    exact h
  have hinj : ∀ e ∈ c, ∀ e' ∈ c, cls e = cls e' → e = e' := by
    intro e he e' he' h
    have t1 := ht e he
    have t2 := ht e' he'
    have ff : ∀ f f', Tight cellXyz 0 ⟨1/4, 1/2, 1/2⟩ x (.inl f) →
        Tight cellXyz 0 ⟨1/4, 1/2, 1/2⟩ x (.inl f') → f / 2 = f' / 2 → f = f' := by
      intro f f' a b h
      have h1 := hf f a
      have h2 := hf f' b
      by_contra hne
      have : (f = 0 ∧ f' = 1) ∨ (f = 1 ∧ f' = 0) ∨ (f = 2 ∧ f' = 3) ∨ (f = 3 ∧ f' = 2) ∨
        (f = 4 ∧ f' = 5) ∨ (f = 5 ∧ f' = 4) := by omega
      rcases this with ⟨rfl, rfl⟩ | ⟨rfl, rfl⟩ | ⟨rfl, rfl⟩ | ⟨rfl, rfl⟩ | ⟨rfl, rfl⟩ | ⟨rfl, rfl⟩ <;>
        simp only [Tight, OnFace] at a b <;> linarith
    have fw : ∀ f w, Tight cellXyz 0 ⟨1/4, 1/2, 1/2⟩ x (.inl f) →
        Tight cellXyz 0 ⟨1/4, 1/2, 1/2⟩ x (.inr w) → f / 2 = 0 → False := by
      intro f w a b h
      have := (hx w b).2
      have h1 : f = 0 ∨ f = 1 := by omega
      rcases h1 with rfl | rfl <;> simp only [Tight, OnFace] at a <;> linarith
    rcases e with f | w <;> rcases e' with f' | w'
    · rw [ff f f' t1 t2 h]
    · exact absurd h (fun h => fw f w' t1 t2 h)
    · exact absurd h (fun h => fw f' w t2 t1 h.symm)
    · rw [(hx w t1).1, (hx w' t2).1]
  have hnd' : (c.map cls).Nodup := by
    rw [List.Nodup, List.pairwise_map]
    refine List.Pairwise.imp_of_mem ?_ hnd
    intro e e' he he' hne h
    exact hne (hinj e he e' he' h)
  have hsub : ∀ d ∈ c.map cls, d ∈ List.range 3 := by
    intro d hd
    obtain ⟨e, he, rfl⟩ := List.mem_map.mp hd
    rcases e with f | w
    · have := hf f (ht _ he)
      show f / 2 ∈ List.range 3
      rw [List.mem_range]; omega
    · show 0 ∈ List.range 3
      simp
  have := (hnd'.subperm hsub).length_le
  simpa using this

/-- the theorems apply to it -/
example : ∃ o : CCOut ℚ, tmpnnRow o.knn = [1] ∧
    (∀ x : Pt ℚ, VoronoiCell ⟨1/4, 1/2, 1/2⟩ (sitesOf cellXyz (tmpnnRow o.knn)) x ↔
      VoronoiCell ⟨1/4, 1/2, 1/2⟩ cellXyz x) ∧
    (∀ w : Nat, (w : Int) ∈ tmpnnRow o.knn ↔ w ≠ 0 ∧ ∃ q, cellXyz[w]? = some q ∧
      Touch cellXyz ⟨1/4, 1/2, 1/2⟩ q) := by
  obtain ⟨o, h1, h2, h3⟩ := cellJob_example
  exact ⟨o, h3, C24_complete_cell h1 h2, C26_exact_neighbours h1 h2 cell_general⟩

end Votess
