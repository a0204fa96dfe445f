import Verif.Proofs.CellGeo
import Verif.Proofs.KnnExact
/-! Reachable states and the returned row of the cell computation, in exact arithmetic. -/
set_option linter.unusedSectionVars false
namespace Votess

variable {K : Type} [Field K] [LinearOrder K] [IsStrictOrderedRing K] [FloorRing K]

/-- candidates whose bisector was stored: not at `p`, and not at the place of an earlier one -/
def Fresh (xyz : List (Pt K)) (knn : List Int) (p : Pt K) (js : List Nat) : Prop :=
  ∀ i ∈ js, candPt xyz knn i ≠ p ∧ ∀ i', i' < i → candPt xyz knn i' ≠ candPt xyz knn i

theorem ccStep_hist {a : CCArgs} {xyz : List (Pt K)} {knn : List Int} {p : Pt K} {dk0 : List Int}
    (hc : Ctx a xyz knn) {nb : Nat} {s s' : CCState K} {js : List Nat} (hnb : nb < a.k) (hi : CCInv a s)
    (hg : GeoInv xyz knn p nb s) (hh : Hist xyz knn p dk0 nb s js) (hf : Fresh xyz knn p js)
    (hstep : ccStep a xyz knn p nb s = .ok (.next s') ∨ ccStep a xyz knn p nb s = .ok (.brk s')) :
    ∃ js', Hist xyz knn p dk0 (nb + 1) s' js' ∧ Fresh xyz knn p js' := by
  obtain ⟨qi, q, hq, hq'⟩ := hc.ids nb hnb
  obtain ⟨A, R, sr, vs, o, h1, h2, h3, h4, h5, h6, h7⟩ := ccStep_spec (p := p) hc.pm hi hnb hq hq'
  have hcand := candPt_eq hq hq'
  rw [h1] at hstep
  have ho : o = .next s' ∨ o = .brk s' := by
    rcases hstep with h | h
    · left; injection h
    · right; injection h
  have fin : ∀ s1 : CCState K, ccFinish p q sr s1 = .next s' ∨ ccFinish p q sr s1 = .brk s' →
      ∃ st, s' = { s1 with state := st } := by
    intro s1 h
    rw [ccFinish_eq] at h
    split at h
    · rcases h with h | h <;> cases h
      exact ⟨_, rfl⟩
    · rcases h with h | h <;> cases h
      exact ⟨_, rfl⟩
  cases h7 with
  | keep T hR hT hK' =>
    obtain ⟨st, rfl⟩ := fin _ ho
    exact ⟨js, hh.keep T st, hf⟩
  | poverflow T ts hR hp hT => rcases ho with h | h <;> cases h
  | infinite T ts dR M Q L hR hp hT hd hs => rcases ho with h | h <;> cases h
  | toverflow T ts dR L hR hp hT hd hL ho' => rcases ho with h | h <;> cases h
  | clip T dR L N hR hp hT hd hL ho' hN hT' =>
    obtain ⟨st, rfl⟩ := fin _ ho
    refine ⟨js ++ [nb], hh.clip hcand (by rw [hi.plen]; exact hp) (by rw [hi.klen]; exact hnb) T dR
      (A.length + L.length) st, ?_⟩
    intro i hij
    rcases List.mem_append.mp hij with hij | hij
    · exact hf i hij
    rw [List.mem_singleton] at hij; subst hij
    obtain ⟨t, ht⟩ := List.exists_mem_of_ne_nil R hR
    have htT := h2.mem_iff.mp (List.mem_append_right A ht)
    have hcut := h4 t ht
    rw [isCut_iff, bisect_eval] at hcut
    have hv := (hg.cell _).mp (hg.poly.feasible htT)
    rw [hcand]
    refine ⟨?_, ?_⟩
    · rintro rfl; simp at hcut
    · intro i' hi' he
      have := hv.2 i' hi'
      rw [he] at this
      linarith

/-- everything known about a reachable state -/
structure CellFull (a : CCArgs) (xyz : List (Pt K)) (knn : List Int) (p : Pt K) (dk0 : List Int)
    (nb : Nat) (b : Bool) (s : CCState K) : Prop where
  inv : CCInv a s
  geo : GeoInv xyz knn p nb s
  hist : ∃ js, Hist xyz knn p dk0 nb s js ∧ Fresh xyz knn p js
  le : nb ≤ a.k
  rad : b = true → ∃ i, nb = i + 1 ∧ ∀ x, InCell s.psize (inward s.P) x → ∀ q',
    sqDist (candPt xyz knn i) p ≤ sqDist q' p → sqDist x p < sqDist x q'

theorem CellReach.full {a : CCArgs} {xyz : List (Pt K)} {knn : List Int} {p : Pt K} {s0 : CCState K}
    {dk0 : List Int} (hc : Ctx a xyz knn) (hpb : InUnitBox p) (h0 : CCInv a s0)
    (h1 : Hist xyz knn p dk0 0 s0 []) (h6 : s0.psize = 6) (hT : s0.T.take s0.tsize = tInit)
    {nb : Nat} {b : Bool} {s : CCState K} (h2 : Clear s0.state)
    (hr : CellReach a xyz knn p s0 nb b s) : CellFull a xyz knn p dk0 nb b s := by
  have hinv := fun {nb b s} (hr : CellReach a xyz knn p s0 nb b s) => hr.inv hc h0 h1 h2
  induction hr with
  | init => exact ⟨h0, geo_init h1 h6 hT, ⟨[], h1, by intro i hi; cases hi⟩, Nat.zero_le _, by simp⟩
  | next hr hnb hs ih =>
    have hr' := CellReach.next hr hnb hs
    obtain ⟨js, j1, j2⟩ := ih.hist
    exact ⟨(hinv hr').1, (ccStep_geo hc hpb hnb ih.inv ih.geo hs).2.1 _ rfl,
      ccStep_hist hc hnb ih.inv ih.geo j1 j2 (Or.inl hs), hnb, by simp⟩
  | @brk nb s s' hr hnb hs ih =>
    have hr' := CellReach.brk hr hnb hs
    obtain ⟨js, j1, j2⟩ := ih.hist
    obtain ⟨g1, g2⟩ := (ccStep_geo hc hpb hnb ih.inv ih.geo hs).2.2 _ rfl
    refine ⟨(hinv hr').1, g1, ccStep_hist hc hnb ih.inv ih.geo j1 j2 (Or.inr hs), hnb, ?_⟩
    intro _
    refine ⟨nb, rfl, fun x hx q' hq' => g2 x ?_ q' hq'⟩
    rw [g1.cell] at hx
    rw [ih.geo.cell]
    exact ⟨hx.1, fun i hi => hx.2 i (by omega)⟩

/-- none of the three error flags with which the computation can stop -/
def NoError (st : State) : Prop :=
  st.get .error_p_overflow = false ∧ st.get .error_t_overflow = false ∧
    st.get .error_infinite_boundary = false

theorem NoError.not_fail {F : Type} {a : CCArgs} {s : CCState F} (h : NoError s.state) : ¬ CCFail a s := by
  rintro (h' | h' | h')
  · have := h.1; rw [h'] at this; simp at this
  · have := h.2.1; rw [h'] at this; simp at this
  · have := h.2.2; rw [h'] at this; simp at this

section any
variable {F D : Type} [FP F D]

/-- a computation without error ends in a reachable state -/
theorem ccCompute_reach {a : CCArgs} {xyz : List (Pt F)} {index : Int} {st : State} (hst : Clear st)
    {P : List (Plane F)} {T : List Tri} {dR : List Nat} {knn dknn : List Int}
    (h : CCPre a xyz index P T dR knn dknn) {p : Pt F} (hp : rdI xyz index = .ok p)
    {s0 : CCState F} (h0 : ccInit st P T dR dknn = .ok s0)
    {o : CCOut F} (ho : ccCompute a xyz index st P T dR knn dknn = .ok o) (hok : NoError o.s.state) :
    ∃ nb b, CellReach a xyz knn p s0 nb b o.s ∧ (b = false → nb = a.k) ∧
      o.s.state.get .security_radius_reached = b ∧
      o.knn = selected (o.s.T.take o.s.tsize) o.s.dknn knn ++ List.replicate
        (a.k - (selected (o.s.T.take o.s.tsize) o.s.dknn knn).length) kUndefined := by
  obtain ⟨s0', i1, i2, i3, i4, -, -⟩ := ccInit_spec st xyz knn p h.plen h.tlen h.dlen h.klen h.pm6 h.tm8
  rw [h0] at i1; cases i1
  have hcl : Clear s0.state := by rw [i4]; exact hst
  obtain ⟨b, s, l1, l2⟩ := ccLoop_induct (a := a) (xyz := xyz) (knn := knn) (p := p)
    (fun nb s => CellReach a xyz knn p s0 nb false s)
    (fun nb s => CellReach a xyz knn p s0 (nb + 1) true s ∧
      ∀ f, s.state.get f = decide (f = .security_radius_reached))
    (fun nb s => CCFail a s)
    (by
      intro nb s hnb hr
      obtain ⟨j1, ⟨js, j2⟩, j3, -⟩ := hr.inv h.ctx i2 i3 hcl
      obtain ⟨o, o1, -, o3, o4⟩ := ccStep_inv h.ctx hnb j1 j2 (j3 rfl)
      refine ⟨o, o1, ?_, ?_, fun s' hs => (o4 s' hs).2⟩
      · rintro s' rfl; exact .next hr hnb o1
      · rintro s' rfl; exact ⟨.brk hr hnb o1, (o3 s' rfl).2.2⟩)
    a.k s0 (Nat.le_refl _) (by simpa using .init)
  have run := fun hb => ccCompute_run st h hp h0 l1 hb
  rcases l2 with ⟨rfl, j1⟩ | ⟨rfl, nb, hnb, j1, j2⟩ | ⟨rfl, nb, hnb, j1⟩
  · obtain ⟨k1, k2, k3, -⟩ := j1.inv h.ctx i2 i3 hcl
    have := run (fun _ => k1)
    rw [ho] at this; cases this
    exact ⟨a.k, false, j1, fun _ => rfl, k3 rfl _, rfl⟩
  · obtain ⟨k1, k2, k3, -⟩ := j1.inv h.ctx i2 i3 hcl
    have := run (fun _ => k1)
    rw [ho] at this; cases this
    exact ⟨nb + 1, true, j1, fun h => (by cases h), by rw [j2]; rfl, rfl⟩
  · have := run (fun h => by cases h)
    rw [ho] at this; cases this
    exact absurd j1 hok.not_fail

end any

/-! ### the returned row -/

theorem mem_selected {T : List Tri} {dknn knn : List Int} {v : Int} :
    v ∈ selected T dknn knn ↔ ∃ (i : Nat) (d : Int), dknn[i]? = some d ∧ knn[i]? = some v ∧
      usesPlane T d = true := by
  unfold selected
  simp only [List.mem_map, List.mem_filter, Prod.exists, exists_eq_right]
  constructor
  · rintro ⟨d, h1, h2⟩
    obtain ⟨i, hi, he⟩ := List.getElem_of_mem h1
    have : (dknn.zip knn)[i]? = some (d, v) := by rw [List.getElem?_eq_getElem hi, he]
    rw [List.getElem?_zip_eq_some] at this
    exact ⟨i, d, this.1, this.2, h2⟩
  · rintro ⟨i, d, h1, h2, h3⟩
    refine ⟨d, ?_, h3⟩
    exact List.mem_of_getElem? (List.getElem?_zip_eq_some.mpr ⟨h1, h2⟩)

theorem usesPlane_nat {T : List Tri} {j : Nat} :
    usesPlane T (j : Int) = true ↔ ∃ t ∈ T, t.has j := by
  unfold usesPlane Tri.has
  simp only [List.any_eq_true, Bool.or_eq_true, decide_eq_true_eq]
  constructor
  · rintro ⟨t, ht, h⟩; exact ⟨t, ht, by omega⟩
  · rintro ⟨t, ht, h⟩; exact ⟨t, ht, by omega⟩

theorem usesPlane_neg {T : List Tri} {d : Int} (h : d < 0) : usesPlane T d = false := by
  unfold usesPlane
  rw [List.any_eq_false]
  intro t _
  simp only [Bool.or_eq_true, decide_eq_true_eq]; omega

section row
variable {a : CCArgs} {xyz : List (Pt K)} {knn : List Int} {p : Pt K} {nb : Nat} {b : Bool}
  {s : CCState K} {js : List Nat}

/-- members of the row: the candidates whose plane is used by some vertex -/
theorem mem_row (_hi : CCInv a s) (hh : Hist xyz knn p (List.replicate a.k kUndefined) nb s js) {v : Int} :
    v ∈ selected (s.T.take s.tsize) s.dknn knn ↔
      ∃ m i, js[m]? = some i ∧ knn[i]? = some v ∧ ∃ t ∈ s.T.take s.tsize, t.has (6 + m) := by
  rw [mem_selected]
  constructor
  · rintro ⟨i, d, h1, h2, h3⟩
    by_cases hij : i ∈ js
    · obtain ⟨m, hm, he⟩ := List.getElem_of_mem hij
      have hjm : js[m]? = some i := by rw [List.getElem?_eq_getElem hm, he]
      have := hh.num m i hjm
      rw [h1] at this
      cases this
      exact ⟨m, i, hjm, h2, usesPlane_nat.mp h3⟩
    · have := hh.old i hij
      rw [h1] at this
      have hd : d = kUndefined := List.eq_of_mem_replicate (List.mem_of_getElem? this.symm)
      rw [hd, usesPlane_neg (by decide)] at h3
      cases h3
  · rintro ⟨m, i, h1, h2, h3⟩
    exact ⟨i, _, hh.num m i h1, h2, usesPlane_nat.mpr h3⟩

theorem js_get (hh : Hist xyz knn p dk0 nb s js) {j : Nat} (h6 : 6 ≤ j) (hj : j < s.psize) :
    ∃ i, js[j - 6]? = some i ∧ inward s.P j = (bisect (candPt xyz knn i) p).flip := by
  have hlt : j - 6 < js.length := by have := hh.psize; omega
  refine ⟨js[j - 6], List.getElem?_eq_getElem hlt, ?_⟩
  unfold inward
  rw [if_neg (by omega), getD_of_take hh.planes hj, List.getD_eq_getElem?_getD,
    List.getElem?_append_right (by simp [pInit]; omega)]
  simp [pInit, List.getElem?_map, List.getElem?_eq_getElem hlt]

theorem box_get (hh : Hist xyz knn p dk0 nb s js) {j : Nat} (h6 : j < 6) :
    inward s.P j = (pInit : List (Plane K)).getD j zeroPlane := by
  unfold inward
  rw [if_pos h6, getD_of_take hh.planes (by have := hh.psize; omega), List.getD_eq_getElem?_getD,
    List.getElem?_append_left (by simp [pInit]; omega), List.getD_eq_getElem?_getD]

theorem box_nonneg {x : Pt K} (hx : InUnitBox x) {j : Nat} (h6 : j < 6) :
    0 ≤ ((pInit : List (Plane K)).getD j zeroPlane).eval x := by
  obtain ⟨⟨h0, h1⟩, ⟨h2, h3⟩, ⟨h4, h5⟩⟩ := hx
  have : j = 0 ∨ j = 1 ∨ j = 2 ∨ j = 3 ∨ j = 4 ∨ j = 5 := by omega
  rcases this with rfl | rfl | rfl | rfl | rfl | rfl <;> simp [pInit, Plane.eval, FP.ofInt] <;>
    linarith

/-- only the planes of the row matter: every affine bound on the vertices holds where the box and
the row hold -/
theorem row_lp (hf : CellFull a xyz knn p (List.replicate a.k kUndefined) nb b s)
    (hc : Ctx a xyz knn) {x : Pt K}
    (hx : InUnitBox x) (hrow : ∀ v ∈ selected (s.T.take s.tsize) s.dknn knn, ∀ q, rdI xyz v = .ok q →
      sqDist x p ≤ sqDist x q) (g : Plane K) :
    ∃ t ∈ s.T.take s.tsize, g.eval x ≤ g.eval (tv (inward s.P) t) := by
  obtain ⟨js, hh, -⟩ := hf.hist
  refine hf.geo.poly.used ?_ g
  rintro j ⟨t, ht, hj⟩
  have hlt := hf.geo.poly.valid.has_lt t ht j hj
  rcases Nat.lt_or_ge j 6 with h6 | h6
  · rw [box_get hh h6]; exact box_nonneg hx h6
  · obtain ⟨i, h1, h2⟩ := js_get hh h6 hlt
    rw [h2, bisect_flip_eval]
    have hilt := hh.lt i (List.mem_of_getElem? h1)
    obtain ⟨qi, q, g1, g2⟩ := hc.ids i (by have := hf.le; omega)
    rw [candPt_eq g1 g2]
    refine hrow qi ((mem_row hf.inv hh).mpr ⟨j - 6, i, h1, g1, t, ht, ?_⟩) q g2
    rwa [show 6 + (j - 6) = j by omega]

/-- the points satisfying the box and the row are exactly the points of the clipped cell -/
theorem row_cell (hf : CellFull a xyz knn p (List.replicate a.k kUndefined) nb b s)
    (hc : Ctx a xyz knn) {x : Pt K}
    (hx : InUnitBox x) (hrow : ∀ v ∈ selected (s.T.take s.tsize) s.dknn knn, ∀ q, rdI xyz v = .ok q →
      sqDist x p ≤ sqDist x q) : InCell s.psize (inward s.P) x := by
  rw [hf.geo.cell]
  refine ⟨hx, fun i hi => ?_⟩
  obtain ⟨t, ht, hle⟩ := row_lp hf hc hx hrow (bisect (candPt xyz knn i) p)
  have hv := ((hf.geo.cell _).mp (hf.geo.poly.feasible ht)).2 i hi
  rw [bisect_eval, bisect_eval] at hle
  linarith

end row

end Votess
