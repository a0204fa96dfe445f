import Verif.Proofs.SphereGeo
import Verif.Props.Boundary
import Verif.Props.Tessellation
import Verif.Props.TessExamples
/-!
# C27, C64 — the flag for an infinite boundary is never raised in exact arithmetic, and what follows
for whole calls
-/
set_option linter.unusedSectionVars false
namespace Votess

variable {K : Type} [Field K] [LinearOrder K] [IsStrictOrderedRing K] [FloorRing K]

/-- C27: whatever the candidates are (any indices of points, in any order, repeated or not, the point
itself among them), the computation of a cell never ends with the flag for an infinite boundary. -/
theorem C27_no_infinite_boundary {a : CCArgs} {xyz : List (Pt K)} {index : Int} {P : List (Plane K)}
    {T : List Tri} {dR : List Nat} {knn dknn : List Int} (h : CellInput a xyz index P T dR knn dknn)
    {p : Pt K} (hp : rdI xyz index = .ok p) (hpb : InUnitBox p) {o : CCOut K}
    (ho : ccCompute a xyz index .init P T dR knn dknn = .ok o) :
    o.s.state.get .error_infinite_boundary = false :=
  ccCompute_no_inf State.get_init h.pre hp hpb ho

/-- C27: so a cell only fails for lack of room for planes or vertices. -/
theorem C27_only_overflow {a : CCArgs} {xyz : List (Pt K)} {index : Int} {P : List (Plane K)}
    {T : List Tri} {dR : List Nat} {knn dknn : List Int} (h : CellInput a xyz index P T dR knn dknn)
    {p : Pt K} (hp : rdI xyz index = .ok p) (hpb : InUnitBox p) {o : CCOut K}
    (ho : ccCompute a xyz index .init P T dR knn dknn = .ok o)
    (h1 : o.s.state.get .error_p_overflow = false) (h2 : o.s.state.get .error_t_overflow = false) :
    ∀ f, f ≠ .security_radius_reached → o.s.state.get f = false := by
  have h3 := C27_no_infinite_boundary h hp hpb ho
  obtain ⟨o', p', e1, -, e2⟩ := cell_res h State.get_init
  rw [ho] at e1; cases e1
  intro f hf
  rcases e2.res with ⟨hc, -⟩ | ⟨-, -, hc | hc, -⟩
  · cases hc with
    | pover h _ => rw [h] at h1; simp at h1
    | tover h _ _ _ => rw [h] at h2; simp at h2
    | inf h => rw [h] at h3; simp at h3
  · rw [hc f]; simp [hf]
  · exact hc f

/-- C27: the reason.  At every step of a cell, whichever plane cuts off some but not all of its
vertices, the loop construction absorbs the vertices cut off, whatever their order in memory. -/
theorem C27_any_order {a : CCArgs} {xyz : List (Pt K)} {index : Int} {P : List (Plane K)}
    {T : List Tri} {dR : List Nat} {knn dknn : List Int} (h : CellInput a xyz index P T dR knn dknn)
    {p : Pt K} (hp : InUnitBox p) {s0 : CCState K} (hs0 : ccInit .init P T dR dknn = .ok s0) {nb : Nat}
    {b : Bool} {s : CCState K} (hr : CellReach a xyz knn p s0 nb b s) (g : Plane K) {A R : List Tri}
    (hperm : (A ++ R).Perm (s.T.take s.tsize)) (hA : ∀ t ∈ A, isCut s.P g t = false)
    (hR : ∀ t ∈ R, isCut s.P g t = true) (hA0 : A ≠ []) (hR0 : R ≠ []) {c : List Nat} {n : Nat}
    (hc : FreshRow n c) (hn : s.psize ≤ n) (hn' : n ≤ 255) :
    ∃ st, bCompute c n R R.length = .ok (.success, st) := by
  have hf := reach_full h hp hs0 hr
  obtain ⟨s0', i1, i2, i3, i4, i5, i6⟩ := ccInit_spec .init xyz knn p h.plen h.tlen h.dlen h.dklen
    h.pm6 h.tm8
  rw [hs0] at i1; cases i1
  have hsph := hr.sphere h.pre.ctx hp i2 i3 i5 i6 (by rw [i4]; exact State.get_init)
  obtain ⟨cA, cR⟩ := hf.geo.poly.conn hperm g.flip
    (fun t ht => by
      have := hA t ht
      rw [← Bool.not_eq_true, isCut_iff, not_lt] at this
      rw [Plane.flip_eval]; linarith)
    (fun t ht => by
      have := hR t ht
      rw [isCut_iff] at this
      rw [Plane.flip_eval]; linarith)
  have hl : 1 ≤ R.length := List.length_pos_iff.mpr hR0
  have hv : ValidTris n R := validTris_mono
    (validTris_sub (hsph.surf.valid.perm hperm) (List.sublist_append_right A R)) hn
  obtain ⟨e, st, L, e1, e2, e3⟩ := bCompute_inv hc.1 hc.2 hn' hl (Nat.le_refl _)
    (by rw [List.take_length]; exact hv)
  rcases e3 with ⟨rfl, -⟩ | ⟨rfl, hj, hjs⟩
  · exact ⟨st, e1⟩
  exfalso
  have hL := e2.loopOf (Nat.le_refl _)
  have hlen := e2.sift.len
  have hpm := e2.sift.take_perm
  rw [List.take_length, ← hlen, List.take_length] at hpm
  have hsplit : (st.R.take st.j ++ st.R.drop st.j).Perm R := by rw [List.take_append_drop]; exact hpm
  have hMR : ∀ t ∈ st.R.take st.j, t ∈ R := fun t ht => hpm.mem_iff.mp (List.mem_of_mem_take ht)
  have hb : ∀ e, e ∈ loopEdges L ↔ Unmatched (st.R.take st.j) e := by
    rcases hL.bd with h | ⟨S, g1, g2, g3⟩
    · exact h
    · exact absurd g3 (noClosedPart_of_irred hsph.surf hperm hA0 S g1 (fun t ht => hMR t (g2 t ht)))
  refine no_stuck hsph.surf hsph.simple ?_ hL.loop.nodup hb (st.R.drop st.j).length A (st.R.drop st.j)
    (Nat.le_refl _) ((hsplit.append_left A).trans hperm) hA0 ?_ (cR.perm hsplit.symm) cA ?_
  · intro h0
    have := congrArg List.length h0
    have := e2.j1
    rw [List.length_take, List.length_nil] at *; omega
  · intro h0
    have := congrArg List.length h0
    rw [List.length_drop, List.length_nil] at this; omega
  · intro t ht
    obtain ⟨i, hi, rfl⟩ := List.getElem_of_mem ht
    rw [List.length_drop] at hi
    refine e2.rej (st.j + i) _ (by omega) (by omega) ?_
    rw [List.getElem_drop, List.getElem?_eq_getElem]

section
variable [Inhabited K] {nb hw : Nat} {prm : Params} {xyz : List (Pt K)} {S : Sorted K}

/-- C27: in a call of `tesellate` no cell of any round gets the flag. -/
theorem C27_states (h : ExactJob nb hw prm xyz) (hs : xyzSort nb prm.gr xyz = .ok S) {a : CCArgs}
    (ha : SizeOK a) {i : Nat} (hi : i < S.xyz.length) :
    (stateOf S prm.gr a i).get .error_infinite_boundary = false := by
  obtain ⟨res, o, h1, -, h3⟩ := h.cell hs ha (List.getElem?_eq_getElem hi)
  obtain ⟨P, T, dR, e1, e2, e3, e4⟩ := h1.run
  rw [h3]
  refine C27_no_infinite_boundary (h1.input e1 e2 e3) ?_ h1.box e4
  rw [rdI_eq_ok]
  exact ⟨by omega, by simp⟩

/-- C27: the counter for infinite boundaries of a call without recompute is zero. -/
theorem C27_counter (h : ExactJob nb hw prm xyz) (hr : prm.useRecompute = false) :
    ∃ out, tesellateCpu nb hw prm xyz = .ok out ∧ out.report.infBoundary = 0 := by
  obtain ⟨S, hs⟩ := h.sorts
  obtain ⟨out, e1, e2⟩ := C39_counters h.job hs hr
  refine ⟨out, e1, ?_⟩
  rw [e2.2.1, List.countP_eq_zero]
  intro i hi
  rw [C27_states h hs h.job.size (List.mem_range.mp hi)]
  decide

/-- C27, C24, C26: success can be read off the overflow counters alone. -/
theorem C27_success (h : ExactJob nb hw prm xyz) (hr : prm.useRecompute = false)
    (hk : xyz.length - 1 ≤ prm.k.toNat) :
    ∃ out, tesellateCpu nb hw prm xyz = .ok out ∧ out.xyz.Perm xyz ∧
      (out.report.pOverflow = 0 → out.report.tOverflow = 0 →
        ∀ i p, out.xyz[i]? = some p → ∃ row, RowIs out.dnn i row ∧ CorrectRow out.xyz i p row ∧
          (GeneralAt out.xyz i p → ExactRow out.xyz i p row)) := by
  obtain ⟨out, e1, e2, e3⟩ := C24_tessellation h hr
  obtain ⟨out', f1, f2⟩ := C27_counter h hr
  rw [e1] at f1; cases f1
  exact ⟨out, e1, e2, fun h1 h2 => e3 (Or.inr ⟨hk, f2, h1, h2⟩)⟩

/-- C37: with recompute every row is correct, unless a buffer of the cell of this point overflowed in
a round with `k ≥ n-1` candidates. -/
theorem C37_only_overflow (h : ExactJob nb hw prm xyz) (hs : xyzSort nb prm.gr xyz = .ok S)
    (hr : prm.useRecompute = true) (h2 : 2 ≤ xyz.length) (h64 : xyz.length ≤ 65536)
    (hb : PlanesBounded S prm.gr (max prm.args.k (xyz.length - 1))) :
    ∃ out, tesellateCpu nb hw prm xyz = .ok out ∧ out.xyz = S.xyz ∧
      ∀ i p, out.xyz[i]? = some p → ∃ row, RowIs out.dnn i row ∧
        ((CorrectRow out.xyz i p row ∧ (GeneralAt out.xyz i p → ExactRow out.xyz i p row)) ∨
          ∃ a, SizeOK a ∧ xyz.length - 1 ≤ a.k ∧
            ((stateOf S prm.gr a i).get .error_p_overflow = true ∨
              (stateOf S prm.gr a i).get .error_t_overflow = true)) := by
  obtain ⟨out, e1, e2, e3⟩ := C37_tessellation h hs hr h2 h64 hb
  refine ⟨out, e1, e2, fun i p hp => ?_⟩
  obtain ⟨row, f1, f2⟩ := e3 i p hp
  refine ⟨row, f1, f2.imp_right ?_⟩
  rintro ⟨a, g1, g2, g3⟩
  refine ⟨a, g1, g2, ?_⟩
  rw [e2] at hp
  have := C27_states h hs g1 (List.getElem?_eq_some_iff.mp hp).1
  unfold NoError at g3
  rw [this] at g3
  cases h1 : (stateOf S prm.gr a i).get .error_p_overflow
  · cases h2 : (stateOf S prm.gr a i).get .error_t_overflow
    · exact absurd ⟨h1, h2, rfl⟩ g3
    · simp
  · simp

/-- room for all planes and all vertices that `k` candidates can produce -/
theorem room_no_error (h : ExactJob nb hw prm xyz) (hs : xyzSort nb prm.gr xyz = .ok S) {a : CCArgs}
    (ha : SizeOK a) (hp : a.k + 6 ≤ a.pm) (ht : 2 * a.k + 8 ≤ a.tm) {i : Nat} (hi : i < S.xyz.length) :
    NoError (stateOf S prm.gr a i) := by
  obtain ⟨-, hg, -, -⟩ := sorted_facts nb prm.gr xyz S h.gr h.fits h.box hs
  refine ⟨no_plane_overflow hg ha hp hi, ?_, C27_states h hs ha hi⟩
  cases hh : (stateOf S prm.gr a i).get .error_t_overflow with
  | false => rfl
  | true => have := (ready_of_grid hg ha).tover hi hh; have := ha.pm6; omega

/-- C64: all other points as candidates, room for their planes and for the vertices of so many planes:
then nothing goes wrong.  Every row is correct, exact for points in general position, and no error is
reported.  There is no condition on what happens during the run. -/
theorem C64_enough_room (h : ExactJob nb hw prm xyz) (hr : prm.useRecompute = false)
    (hk : (xyz.length : Int) - 1 ≤ prm.k) (hp : prm.k + 6 ≤ prm.pm) (ht : 2 * prm.k + 8 ≤ prm.tm) :
    ∃ out, tesellateCpu nb hw prm xyz = .ok out ∧ out.xyz.Perm xyz ∧
      (out.report.infBoundary = 0 ∧ out.report.nvalidVertices = 0 ∧ out.report.pOverflow = 0 ∧
        out.report.tOverflow = 0 ∧ out.report.error = 0) ∧
      ∀ i p, out.xyz[i]? = some p → ∃ row, RowIs out.dnn i row ∧ CorrectRow out.xyz i p row ∧
        (GeneralAt out.xyz i p → ExactRow out.xyz i p row) := by
  obtain ⟨S, hs⟩ := h.sorts
  have h1 := h.k1; have h2 := h.pm6
  have hno : ∀ i, i < S.xyz.length → NoError (stateOf S prm.gr prm.args i) := fun i hi =>
    room_no_error h hs h.job.size (by simp only [Params.args]; omega) (by simp only [Params.args]; omega) hi
  obtain ⟨out, e1, e2⟩ := C39_counters h.job hs hr
  obtain ⟨out', f1, f2, f3⟩ := C24_tessellation h hr
  rw [e1] at f1; cases f1
  have zero : ∀ f : Status, (∀ i, i < S.xyz.length → (stateOf S prm.gr prm.args i).get f = false) →
      (List.range S.xyz.length).countP (fun i => (stateOf S prm.gr prm.args i).get f) = 0 := by
    intro f hf
    rw [List.countP_eq_zero]
    intro i hi
    rw [hf i (List.mem_range.mp hi)]
    decide
  have z1 := zero .error_infinite_boundary fun i hi => (hno i hi).2.2
  have z2 := zero .error_p_overflow fun i hi => (hno i hi).1
  have z3 := zero .error_t_overflow fun i hi => (hno i hi).2.1
  have other : ∀ f, f ≠ .security_radius_reached → ∀ i, i < S.xyz.length →
      (stateOf S prm.gr prm.args i).get f = false := by
    intro f hf i hi
    obtain ⟨res, o, h1, -, h3⟩ := h.cell hs h.job.size (List.getElem?_eq_getElem hi)
    obtain ⟨P, T, dR, g1, g2, g3, g4⟩ := h1.run
    have := hno i hi
    rw [h3] at this ⊢
    refine C27_only_overflow (h1.input g1 g2 g3) ?_ h1.box g4 this.1 this.2.1 f hf
    rw [rdI_eq_ok]
    exact ⟨by omega, by simp⟩
  have z4 := zero .error_nonvalid_vertices (other _ (by simp))
  have z5 := zero .error_occurred (other _ (by simp))
  obtain ⟨-, c2, c3, -, c4, c5, c6⟩ := e2
  simp only at c2 c3 c4 c5 c6
  rw [z1] at c2; rw [z4] at c3; rw [z2] at c4; rw [z3] at c5; rw [z5] at c6
  exact ⟨out, e1, f2, ⟨c2, c3, c4, c5, c6⟩, f3 (Or.inr ⟨by omega, c2, c4, c5⟩)⟩

/-- C64: with recompute any `k ≥ 1` will do: with room for the planes of all other points every row is
correct. -/
theorem C64_recompute (h : ExactJob nb hw prm xyz) (hr : prm.useRecompute = true)
    (hn : 2 ≤ xyz.length) (hk : prm.k + 6 ≤ prm.pm) (hp : (xyz.length : Int) + 5 ≤ prm.pm)
    (ht : 2 * prm.k + 8 ≤ prm.tm) (ht' : 2 * (xyz.length : Int) + 6 ≤ prm.tm) :
    ∃ out, tesellateCpu nb hw prm xyz = .ok out ∧ out.xyz.Perm xyz ∧
      ∀ i p, out.xyz[i]? = some p → ∃ row, RowIs out.dnn i row ∧ CorrectRow out.xyz i p row ∧
        (GeneralAt out.xyz i p → ExactRow out.xyz i p row) := by
  obtain ⟨S, hs⟩ := h.sorts
  obtain ⟨-, hg, -, hl⟩ := sorted_facts nb prm.gr xyz S h.gr h.fits h.box hs
  rw [← hl] at hn hp ht'
  have h1 := h.k1; have h2 := h.pm6; have h3 := h.pm255
  have e : prm.args.k = prm.k.toNat ∧ prm.args.pm = prm.pm.toNat ∧ prm.args.tm = prm.tm.toNat :=
    ⟨rfl, rfl, rfl⟩
  obtain ⟨ek, ep, et⟩ := e
  have hno : ∀ b, SizeOK b → b.k ≤ max prm.args.k (S.xyz.length - 1) ∧ b.pm = prm.args.pm ∧
      b.tm = prm.args.tm → ∀ i, i < S.xyz.length → NoError (stateOf S prm.gr b i) := by
    rintro b hb ⟨q1, q2, q3⟩ i hi
    exact room_no_error h hs hb (by omega) (by omega) hi
  obtain ⟨t', s', r1, r2, r3, r4⟩ := cpuRecompute_gen h.job.ccArgs h.job.size (h.job.grid hs) hn
    (fun b r ixs hi => hi.keep hn (by omega) fun b hb q i hi => ⟨(hno b hb q i hi).1, (hno b hb q i hi).2.1⟩)
    (⟨Nat.le_max_left _ _, rfl, rfl⟩ : prm.args.k ≤ max prm.args.k (S.xyz.length - 1) ∧
      prm.args.pm = prm.args.pm ∧ prm.args.tm = prm.args.tm)
  have r1' := r1 hw prm.nthreads h.job.nth
  have hns : NoSentinel t' := by
    intro r hr v hv
    obtain ⟨i, hi, rfl⟩ := List.getElem_of_mem hr
    obtain ⟨a, -, -, e, -⟩ := r4 i (by omega)
    rw [List.getElem?_eq_getElem hi] at e
    injection e with e
    rw [e] at hv
    exact rowOf_noSentinel S prm.gr a i v hv
  refine ⟨_, h.job.recomputed hs hr r1', C01_sort_permutes nb prm.gr xyz S hs, ?_⟩
  simp only [mkOut]
  intro i p hp
  have hi := (List.getElem?_eq_some_iff.mp hp).1
  obtain ⟨a, g1, g0, g2, g3⟩ := r4 i hi
  have hc : Certain S prm.gr a i := ⟨hno a g1 g0 i hi, g3⟩
  refine ⟨_, rowIs_getDnn hns g2 ?_, C24_row h hs g1 hp hc, C26_row h hs g1 hp hc⟩
  have := (ready_of_grid (h.job.grid hs) g1).row_length hi
  have := g1.k
  omega

end

/-! ### the hypotheses can be met -/

/-- C27: two points, one candidate: a run that cuts the box once -/
example : ∃ o, ccCompute cellArgs cellXyz 0 .init (List.replicate 7 ⟨5, 5, 5, 5⟩)
    (List.replicate 12 ⟨9, 9, 9⟩) (List.replicate 7 3) [1] [kUndefined] = .ok o ∧ o.s.psize = 7 ∧
      o.s.state.get .error_infinite_boundary = false := by
  have : (ccCompute cellArgs cellXyz 0 .init (List.replicate 7 ⟨5, 5, 5, 5⟩)
    (List.replicate 12 ⟨9, 9, 9⟩) (List.replicate 7 3) [1] [kUndefined]).map (fun o => o.s.psize) = .ok 7 := by
    decide +kernel
  obtain ⟨o, h1, h2⟩ := exceptMap_ok this
  exact ⟨o, h1, h2, C27_no_infinite_boundary cell_example (p := ⟨1/4, 1/2, 1/2⟩) (by decide +kernel)
    (by refine ⟨⟨?_, ?_⟩, ⟨?_, ?_⟩, ?_, ?_⟩ <;> norm_num) h1⟩

/-- C27: the box cut in the middle: four vertices on each side, in any order -/
example : ∃ (s0 : CCState ℚ) (A R : List Tri), ccInit .init (List.replicate 7 ⟨5, 5, 5, 5⟩)
      (List.replicate 12 ⟨9, 9, 9⟩) (List.replicate 7 3) [kUndefined] = .ok s0 ∧ R.length = 4 ∧
    (A ++ R).Perm (s0.T.take s0.tsize) ∧ (∀ t ∈ A, isCut s0.P ⟨1, 0, 0, -1/2⟩ t = false) ∧
    (∀ t ∈ R, isCut s0.P ⟨1, 0, 0, -1/2⟩ t = true) ∧
    ∀ R', R'.Perm R → ∃ st, bCompute (List.replicate 6 255) 6 R' R'.length = .ok (.success, st) := by
  have : (ccInit (F := ℚ) .init (List.replicate 7 ⟨5, 5, 5, 5⟩) (List.replicate 12 ⟨9, 9, 9⟩)
      (List.replicate 7 3) [kUndefined]).map (fun s => (s.psize, (s.T.take s.tsize).filter (fun t =>
        !isCut s.P ⟨1, 0, 0, -1/2⟩ t) != [], ((s.T.take s.tsize).filter (isCut s.P ⟨1, 0, 0, -1/2⟩)).length))
      = .ok (6, true, 4) := by decide +kernel
  obtain ⟨s0, h1, h2⟩ := exceptMap_ok this
  injection h2 with h2 h3
  injection h3 with h3 h4
  have hp : ((s0.T.take s0.tsize).filter (fun t => !isCut s0.P ⟨1, 0, 0, -1/2⟩ t)
      ++ (s0.T.take s0.tsize).filter (isCut s0.P ⟨1, 0, 0, -1/2⟩)).Perm (s0.T.take s0.tsize) :=
    List.perm_append_comm.trans (List.filter_append_perm _ _)
  have hA : ∀ t ∈ (s0.T.take s0.tsize).filter (fun t => !isCut s0.P ⟨1, 0, 0, -1/2⟩ t),
      isCut s0.P ⟨1, 0, 0, -1/2⟩ t = false := fun t ht => by simpa using (List.mem_filter.mp ht).2
  have hR : ∀ t ∈ (s0.T.take s0.tsize).filter (isCut s0.P ⟨1, 0, 0, -1/2⟩),
      isCut s0.P ⟨1, 0, 0, -1/2⟩ t = true := fun t ht => (List.mem_filter.mp ht).2
  refine ⟨s0, _, _, h1, h4, hp, hA, hR, fun R' hR' => ?_⟩
  refine C27_any_order cell_example (p := ⟨1/4, 1/2, 1/2⟩) ?_ h1 .init ⟨1, 0, 0, -1/2⟩
    ((hR'.append_left _).trans hp) hA (fun t ht => hR t (hR'.mem_iff.mp ht)) (by simpa using h3) ?_
    ⟨by simp, fun x hx => List.eq_of_mem_replicate hx⟩ (by rw [h2]) (by simp)
  · refine ⟨⟨?_, ?_⟩, ⟨?_, ?_⟩, ?_, ?_⟩ <;> norm_num
  · intro h0
    rw [h0] at hR'
    have := hR'.length_eq
    rw [h4] at this
    cases this

/-- C64: the five points for which `C37_readme_false` shows that recompute is not enough: with the room
asked for by the theorem every row is correct, with recompute from `k = 2` and without from `k = 4` -/
example : (∃ out, tesellateCpu 4 1 ⟨2, 1, 10, 16, 1, 1, false, true⟩ badXyz = .ok out ∧
      ∀ i p, out.xyz[i]? = some p → ∃ row, RowIs out.dnn i row ∧ CorrectRow out.xyz i p row) ∧
    ∃ out, tesellateCpu 4 1 ⟨4, 1, 10, 16, 1, 1, false, false⟩ badXyz = .ok out ∧
      out.report.error = 0 ∧
      ∀ i p, out.xyz[i]? = some p → ∃ row, RowIs out.dnn i row ∧ CorrectRow out.xyz i p row := by
  have h : ExactJob 4 1 ⟨4, 1, 10, 16, 1, 1, false, false⟩ badXyz :=
    ⟨by simp, by simp, inBox_all (by decide +kernel), by simp, by simp, by simp, by simp, by simp,
      by simp, Or.inl (by simp)⟩
  obtain ⟨out, h1, -, h2⟩ := C64_recompute (badJob 10 true (by simp)) rfl (by simp [badXyz]) (by simp)
    (by simp [badXyz]) (by simp) (by simp [badXyz])
  obtain ⟨out', g1, -, g2, g3⟩ := C64_enough_room h rfl (by simp [badXyz]) (by simp) (by simp)
  refine ⟨⟨out, h1, fun i p hp => ?_⟩, out', g1, g2.2.2.2.2, fun i p hp => ?_⟩
  · obtain ⟨row, e1, e2, -⟩ := h2 i p hp; exact ⟨row, e1, e2⟩
  · obtain ⟨row, e1, e2, -⟩ := g3 i p hp; exact ⟨row, e1, e2⟩

end Votess
