import Verif.Props.Delaunay
/-!
# C87 — sizes that are too small do not go unnoticed

A row has at most `k` entries, and at most `p_maxsize - 6` unless the cell failed.  A point with more neighbours
than that cannot get a correct row, and the report says so.
-/
namespace Votess

section any
variable {F D : Type} [FP F D]

theorem zip_filter_le {α β : Type} (f : α × β → Bool) {l : List α} {l' : List β} {js : List Nat}
    (h : ∀ i a b, l[i]? = some a → l'[i]? = some b → f (a, b) = true → i ∈ js) :
    ((l.zip l').filter f).length ≤ js.length := by
  have e : ∀ m : List (α × β), (m.filter f).length =
      ((List.range m.length).filter fun j => (m[j]?).any f).length := by
    intro m
    have h : m.map some = (List.range m.length).map fun j => m[j]? := by
      apply List.ext_getElem (by simp)
      intro i h1 h2
      simp
    have : (m.filter f).length = ((m.map some).filter fun o => o.any f).length := by
      rw [List.filter_map, List.length_map]; rfl
    rw [this, h, List.filter_map, List.length_map]
    rfl
  rw [e]
  refine List.Subperm.length_le ((List.nodup_range.filter _).subperm ?_)
  intro i hi
  rw [List.mem_filter, List.mem_range] at hi
  rw [List.getElem?_eq_getElem hi.1] at hi
  have : (l.zip l')[i]? = some (l.zip l')[i] := List.getElem?_eq_getElem hi.1
  rw [List.getElem?_zip_eq_some] at this
  exact h i _ _ this.1 this.2 (by simpa using hi.2)

theorem selected_bound {xyz : List (Pt F)} {knn : List Int} {p : Pt F} {n nb : Nat} {s : CCState F} {js : List Nat}
    (hh : Hist xyz knn p (List.replicate n kUndefined) nb s js) (T : List Tri) :
    (selected T s.dknn knn).length ≤ js.length := by
  unfold selected
  rw [List.length_map]
  refine zip_filter_le _ fun i d v h1 _ h3 => ?_
  by_contra hij
  have := hh.old i hij
  rw [h1] at this
  have hd : d = kUndefined := List.eq_of_mem_replicate (List.mem_of_getElem? this.symm)
  simp only [hd, usesPlane_neg (show kUndefined < 0 by decide)] at h3
  cases h3

/-- C87: any arithmetic.  The row of a cell that did not fail has at most `p_maxsize - 6` entries. -/
theorem C87_cell {a : CCArgs} {xyz : List (Pt F)} {index : Int} {P : List (Plane F)} {T : List Tri} {dR : List Nat}
    {knn : List Int} (h : CellInput a xyz index P T dR knn (List.replicate a.k kUndefined)) {o : CCOut F}
    (ho : ccCompute a xyz index .init P T dR knn (List.replicate a.k kUndefined) = .ok o)
    (hok : NoError o.s.state) : (tmpnnRow o.knn).length + 6 ≤ a.pm := by
  obtain ⟨o', p, h1, -, h2⟩ := cell_res h State.get_init
  rw [ho] at h1; cases h1
  obtain ⟨n1, n2, n3⟩ := hok
  rcases h2.res with ⟨h3, -⟩ | ⟨h3, ⟨nb, js, -, hh⟩, -, h4⟩
  · cases h3 with
    | pover h _ => rw [h] at n1 n2 n3; simp at n1 n2 n3
    | tover h _ _ _ => rw [h] at n1 n2 n3; simp at n1 n2 n3
    | inf h => rw [h] at n1 n2 n3; simp at n1 n2 n3
  · have hne := CCPre.ne_undef h.pre.ctx
    have hl : ∀ v ∈ selected (o.s.T.take o.s.tsize) o.s.dknn knn, v ≠ kUndefined :=
      fun v hv => hne v ((selected_sublist _ _ _).subset hv)
    rw [h4, takeWhile_append_replicate hl]
    have := selected_bound hh (o.s.T.take o.s.tsize)
    have := hh.psize
    have := h3.pp
    omega

variable {nb hw : Nat} {prm : Params} {xyz : List (Pt F)}

/-- C87: any arithmetic, a whole call.  Rows have at most `k` entries.  If every cell reached its security radius, or if
no cell failed, they have at most `p_maxsize - 6`. -/
theorem C87_rows [Inhabited F] (h : JobOK nb hw prm xyz) {S : Sorted F} (hs : xyzSort nb prm.gr xyz = .ok S)
    (hr : prm.useRecompute = false) :
    ∃ out, tesellateCpu nb hw prm xyz = .ok out ∧ ∀ i, i < xyz.length → ∃ row, RowIs out.dnn i row ∧
      (row.length : Int) ≤ prm.k ∧ ((out.report.srNotReached = 0 ∨ (out.report.infBoundary = 0 ∧
        out.report.pOverflow = 0 ∧ out.report.tOverflow = 0)) → (row.length : Int) + 6 ≤ prm.pm) := by
  obtain ⟨out, e1, -, -, e2⟩ := C32_rows h hs hr
  obtain ⟨out', f1, f2⟩ := C39_counters h hs hr
  rw [e1] at f1; cases f1
  have hlen := (C01_sort_permutes nb prm.gr xyz S hs).length_eq
  refine ⟨out, e1, fun i hi => ⟨_, e2 i (by omega), ?_, fun hc => ?_⟩⟩
  · have := (h.ready hs).row_length (i := i) (by omega)
    have hk := h.k1
    simp only [Params.args] at this ⊢
    omega
  · have hi' : i < S.xyz.length := by omega
    obtain ⟨row, o, p, g1, g2, -, g3, g4⟩ := (h.ready hs).res hi'
    obtain ⟨row', k1, k2, k3⟩ := (h.ready hs).knn i hi'
    rw [g1] at k1; cases k1
    have hin : CellInput prm.args S.xyz (i : Int) (List.replicate prm.args.pm ⟨FP.ofInt 0, FP.ofInt 0, FP.ofInt 0, FP.ofInt 0⟩)
        (List.replicate prm.args.tm ⟨0, 0, 0⟩) (List.replicate prm.args.pm 0) (row.map (·.1))
        (List.replicate prm.args.k kUndefined) :=
      ⟨(h.ready hs).pm6, (h.ready hs).pm255, (h.ready hs).tm8, (h.ready hs).tm, (h.ready hs).k, by omega, by
        intro v hv
        obtain ⟨e, h1, rfl⟩ := List.mem_map.mp hv
        exact k3 e h1, by simpa using k2, by simp, by simp, by simp, by simp⟩
    have hst : stateOf S prm.gr prm.args i = o.s.state := by unfold stateOf; rw [g4]
    have hno : NoError o.s.state := by
      rcases hc with hc | ⟨c1, c2, c3⟩
      · have hall := f2.1
        rw [hc, Nat.zero_add] at hall
        have hreach : (stateOf S prm.gr prm.args i).get .security_radius_reached = true := by
          have := (List.countP_eq_length (p := fun i => (stateOf S prm.gr prm.args i).get .security_radius_reached)
            (l := List.range S.xyz.length)).mp (by rw [List.length_range]; exact hall)
          exact this i (List.mem_range.mpr hi')
        rw [hst] at hreach
        obtain ⟨flags, m1, m2⟩ := C29_flags hin g2
        rw [m1] at hreach
        simp only [List.mem_cons, List.not_mem_nil, or_false] at m2
        have no : ∀ f, f = Status.error_p_overflow ∨ f = .error_t_overflow ∨ f = .error_infinite_boundary →
            o.s.state.get f = false := by
          intro f hf
          rw [Bool.eq_false_iff, Ne, m1]
          rcases m2 with rfl | rfl | rfl | rfl | rfl <;> rcases hf with rfl | rfl | rfl <;> simp at hreach ⊢
        exact ⟨no _ (by simp), no _ (by simp), no _ (by simp)⟩
      · obtain ⟨-, d1, -, -, d2, d3, -⟩ := f2
        have zero : ∀ {f : Status}, 0 = (List.range S.xyz.length).countP (fun i => (stateOf S prm.gr prm.args i).get f) →
            o.s.state.get f = false := by
          intro f hz
          have := List.countP_eq_zero.mp hz.symm i (List.mem_range.mpr hi')
          rw [hst] at this
          simpa using this
        exact ⟨zero (c2 ▸ d2), zero (c3 ▸ d3), zero (c1 ▸ d1)⟩
    have := C87_cell hin g2 hno
    have e : rowOf S prm.gr prm.args i = tmpnnRow o.knn := by unfold rowOf tmpnnRow; rw [g4]
    rw [e]
    have hp := h.pm6
    simp only [Params.args] at this ⊢
    omega

end any

section exact
variable {K : Type} [Field K] [LinearOrder K] [IsStrictOrderedRing K]

/-- a correct row has an entry for every point that shares a ball with `p` alone -/
theorem facing_count {L Q : List (Pt K)} {i : Nat} {p : Pt K} {row : List Int} (hbox : ∀ p ∈ L, InUnitBox p)
    (hc : CorrectRow L i p row) (hnd : Q.Nodup) (hQ : ∀ q ∈ Q, q ∈ L ∧ q ≠ p ∧ Facing L p q) : Q.length ≤ row.length := by
  have : Q.Subperm (sitesOf L row) := hnd.subperm fun q hq => by
    obtain ⟨h1, h2, h3⟩ := hQ q hq
    exact facing_site hbox h1 h2 h3 hc
  exact this.length_le.trans (List.length_filterMap_le _ _)

theorem Facing.perm {L L' : List (Pt K)} {p q : Pt K} (h : L.Perm L') (hf : Facing L p q) : Facing L' p q := by
  obtain ⟨c, c1, c2, c3⟩ := hf
  exact ⟨c, c1, c2, fun r hr => c3 r (h.symm.subset hr)⟩

variable [FloorRing K] [Inhabited K] {nb hw : Nat} {prm : Params} {xyz Q : List (Pt K)}

/-- C87: exact arithmetic.  If a point has more neighbours than `k` or `p_maxsize - 6`, then some cells are reported not
to have reached their security radius; and if all other points are candidates then a failure is reported, too. -/
theorem C87_exact (h : ExactJob nb hw prm xyz) (hr : prm.useRecompute = false) {p : Pt K} (hp : p ∈ xyz)
    (hnd : Q.Nodup) (hQ : ∀ q ∈ Q, q ∈ xyz ∧ q ≠ p ∧ Facing xyz p q)
    (hsmall : prm.k < Q.length ∨ prm.pm < (Q.length : Int) + 6) :
    ∃ out, tesellateCpu nb hw prm xyz = .ok out ∧ out.report.srNotReached ≠ 0 ∧
      (xyz.length - 1 ≤ prm.k.toNat → out.report.infBoundary ≠ 0 ∨ out.report.pOverflow ≠ 0 ∨ out.report.tOverflow ≠ 0) := by
  obtain ⟨S, hs⟩ := h.sorts
  obtain ⟨out, e1, e2⟩ := C87_rows h.job hs hr
  obtain ⟨out', f1, f2, f3⟩ := C24_tessellation h hr
  rw [e1] at f1; cases f1
  have hbox : ∀ p ∈ out.xyz, InUnitBox p := fun p hp => (h.box p (f2.subset hp)).unit
  obtain ⟨i, hi⟩ := List.getElem?_of_mem (f2.symm.subset hp)
  have hil := (List.getElem?_eq_some_iff.mp hi).1
  obtain ⟨row, r1, r2, r3⟩ := e2 i (by rw [← f2.length_eq]; exact hil)
  have key : ∀ hc : (out.report.srNotReached = 0 ∨ (xyz.length - 1 ≤ prm.k.toNat ∧ out.report.infBoundary = 0 ∧
          out.report.pOverflow = 0 ∧ out.report.tOverflow = 0)), False := by
    intro hc
    obtain ⟨row', s1, s2, -⟩ := f3 hc i p hi
    obtain rfl := r1.unique s1
    have h1 := facing_count hbox s2 hnd fun q hq => by
      obtain ⟨q1, q2, q3⟩ := hQ q hq
      exact ⟨f2.symm.subset q1, q2, q3.perm f2.symm⟩
    have h2 := r3 (hc.imp id And.right)
    omega
  refine ⟨out, e1, fun hz => key (Or.inl hz), fun hk => ?_⟩
  by_contra hn
  push Not at hn
  exact key (Or.inr ⟨hk, hn⟩)

end exact

section rounded
variable {hw : Nat} {prm : Params} {X Q : List (Pt ℚ)}

/-- C87: single precision. -/
theorem C87_float (h : FloatSizes hw prm) (hX : InputOK X) (hm : AllMarginsBy 2 X) (hk : prm.k < X.length)
    (hr : prm.useRecompute = false) {p : Pt ℚ} (hp : p ∈ X) (hnd : Q.Nodup)
    (hQ : ∀ q ∈ Q, q ∈ X ∧ q ≠ p ∧ Facing X p q) (hsmall : prm.k < Q.length ∨ prm.pm < (Q.length : Int) + 6) :
    ∃ out : TessOut F32, tesellateCpu 4 hw prm (X.map storePt) = .ok out ∧ out.report.srNotReached ≠ 0 ∧
      ((X.length : Int) - 1 ≤ prm.k → out.report.pOverflow ≠ 0 ∨ out.report.tOverflow ≠ 0) := by
  obtain ⟨out, L, f1, -, f2, f0, f3⟩ := C71_tessellation h hX hm hk hr
  have hj : JobOK 4 hw prm (X.map storePt) := by rw [storePt_eq hX]; exact safe_job h (store_safe hX _)
  obtain ⟨S, hs⟩ := (C05_sort_safe_iff 4 prm.gr (X.map storePt) h.gr.1).mpr (by
    rw [storePt_eq hX]
    exact fun p hp => by
      obtain ⟨c, a, b, d⟩ := safe_cells h (store_safe hX prm.gr) p hp
      exact ⟨c, a, by omega, d⟩)
  obtain ⟨out', e1, e2⟩ := C87_rows hj hs hr
  rw [f1] at e1; cases e1
  obtain ⟨i, hi⟩ := List.getElem?_of_mem (f2.symm.subset hp)
  have hil := (List.getElem?_eq_some_iff.mp hi).1
  obtain ⟨row, r1, r2, r3⟩ := e2 i (by rw [List.length_map, ← f2.length_eq]; exact hil)
  have key : ∀ hc : (out.report.srNotReached = 0 ∨ ((X.length : Int) - 1 ≤ prm.k ∧
          out.report.pOverflow = 0 ∧ out.report.tOverflow = 0)), False := by
    intro hc
    obtain ⟨row', s1, s2, -⟩ := f3 hc i p hi
    obtain rfl := r1.unique s1
    have h1 := facing_count (hX.unit f2) s2 hnd fun q hq => by
      obtain ⟨q1, q2, q3⟩ := hQ q hq
      exact ⟨f2.symm.subset q1, q2, q3.perm f2.symm⟩
    have h2 := r3 (hc.imp id fun hc => ⟨f0, hc.2⟩)
    omega
  refine ⟨out, f1, fun hz => key (Or.inl hz), fun hk => ?_⟩
  by_contra hn
  push Not at hn
  exact key (Or.inr ⟨hk, hn⟩)

end rounded

/-! ### examples -/

/-- six points around one -/
def octahedron : List (Pt ℚ) := [⟨1 / 2, 1 / 2, 1 / 2⟩, ⟨1 / 4, 1 / 2, 1 / 2⟩, ⟨3 / 4, 1 / 2, 1 / 2⟩, ⟨1 / 2, 1 / 4, 1 / 2⟩,
  ⟨1 / 2, 3 / 4, 1 / 2⟩, ⟨1 / 2, 1 / 2, 1 / 4⟩, ⟨1 / 2, 1 / 2, 3 / 4⟩]

theorem octahedron_facing : ∀ q ∈ octahedron.tail, q ∈ octahedron ∧ q ≠ ⟨1 / 2, 1 / 2, 1 / 2⟩ ∧
    Facing octahedron ⟨1 / 2, 1 / 2, 1 / 2⟩ q := by
  have key : ∀ q ∈ octahedron.tail, q ≠ (⟨1 / 2, 1 / 2, 1 / 2⟩ : Pt ℚ) ∧ InUnitBox (between ⟨1 / 2, 1 / 2, 1 / 2⟩ q (1 / 2)) ∧
      sqDist (between ⟨1 / 2, 1 / 2, 1 / 2⟩ q (1 / 2)) ⟨1 / 2, 1 / 2, 1 / 2⟩ =
        sqDist (between ⟨1 / 2, 1 / 2, 1 / 2⟩ q (1 / 2)) q ∧
      ∀ r ∈ octahedron, r ≠ ⟨1 / 2, 1 / 2, 1 / 2⟩ → r ≠ q →
        sqDist (between ⟨1 / 2, 1 / 2, 1 / 2⟩ q (1 / 2)) ⟨1 / 2, 1 / 2, 1 / 2⟩ <
          sqDist (between ⟨1 / 2, 1 / 2, 1 / 2⟩ q (1 / 2)) r := by
    unfold InUnitBox
    decide +kernel
  intro q hq
  obtain ⟨h1, h2⟩ := key q hq
  exact ⟨List.mem_of_mem_tail hq, h1, _, h2⟩

/-- five candidates, or room for five planes, are too few -/
example (k pm : Int) (hk : 1 ≤ k ∧ k < 65536) (hpm : 6 ≤ pm ∧ pm ≤ 255) (hsmall : k ≤ 5 ∨ pm ≤ 11) :
    ∃ out, tesellateCpu 4 8 ⟨k, 3, pm, 100, 0, 0, false, false⟩ octahedron = .ok out ∧ out.report.srNotReached ≠ 0 := by
  obtain ⟨out, h1, h2, -⟩ := C87_exact (nb := 4) (hw := 8) (prm := ⟨k, 3, pm, 100, 0, 0, false, false⟩)
    (p := ⟨1 / 2, 1 / 2, 1 / 2⟩) (Q := octahedron.tail) (xyz := octahedron)
    ⟨by simp, by simp, inBox_all (by decide +kernel), hk.1, hk.2, hpm.1, hpm.2, by simp, by simp, by simp⟩ rfl
    (by simp [octahedron]) (by decide +kernel) octahedron_facing (by
      have : octahedron.tail.length = 6 := rfl
      simp only [this]
      omega)
  exact ⟨out, h1, h2⟩

/-- four points in single precision, one of which has three neighbours: two candidates are too few -/
example : ∃ out : TessOut F32, tesellateCpu 4 8 ⟨2, 3, 9, 14, 0, 0, false, false⟩ (tiny4.map storePt) = .ok out ∧
    out.report.srNotReached ≠ 0 := by
  have key : ∀ q ∈ tiny4.take 3, q ≠ (⟨1 / 2, 2 / 5, 4 / 5⟩ : Pt ℚ) ∧ InUnitBox (between ⟨1 / 2, 2 / 5, 4 / 5⟩ q (1 / 2)) ∧
      sqDist (between ⟨1 / 2, 2 / 5, 4 / 5⟩ q (1 / 2)) ⟨1 / 2, 2 / 5, 4 / 5⟩ =
        sqDist (between ⟨1 / 2, 2 / 5, 4 / 5⟩ q (1 / 2)) q ∧
      ∀ r ∈ tiny4, r ≠ ⟨1 / 2, 2 / 5, 4 / 5⟩ → r ≠ q →
        sqDist (between ⟨1 / 2, 2 / 5, 4 / 5⟩ q (1 / 2)) ⟨1 / 2, 2 / 5, 4 / 5⟩ <
          sqDist (between ⟨1 / 2, 2 / 5, 4 / 5⟩ q (1 / 2)) r := by
    unfold InUnitBox
    decide +kernel
  obtain ⟨out, h1, h2, -⟩ := C87_float (hw := 8) (prm := ⟨2, 3, 9, 14, 0, 0, false, false⟩) (Q := tiny4.take 3)
    (p := ⟨1 / 2, 2 / 5, 4 / 5⟩) ⟨by decide, by decide, by decide, by decide, by decide⟩ tiny4_input tiny4_margins (by decide) rfl
    (by simp [tiny4]) (by decide +kernel)
    (fun q hq => ⟨List.mem_of_mem_take hq, (key q hq).1, _, (key q hq).2⟩) (by decide)
  exact ⟨out, h1, h2⟩

end Votess
