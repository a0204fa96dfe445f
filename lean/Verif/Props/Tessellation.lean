import Verif.Spec.Tessellation
import Verif.Props.Driver
import Verif.Props.CellExact
import Verif.Props.Knn
/-!
# C24–C26, C37, C53 — whole calls of `tesellate` on the CPU, in exact arithmetic
-/
set_option linter.unusedSectionVars false
namespace Votess

variable {K : Type} [Field K] [LinearOrder K] [IsStrictOrderedRing K] [FloorRing K] [Inhabited K]

/-- a call with points in the half open unit box and sizes in range -/
structure ExactJob (nb hw : Nat) (prm : Params) (xyz : List (Pt K)) : Prop where
  gr : 1 ≤ prm.gr
  fits : prm.gr * prm.gr * prm.gr ≤ 256 ^ nb
  box : ∀ p ∈ xyz, InBox p
  k1 : 1 ≤ prm.k
  k : prm.k < 65536
  pm6 : 6 ≤ prm.pm
  pm255 : prm.pm ≤ 255
  tm8 : 8 ≤ prm.tm
  tm : prm.tm < 32768
  threads : prm.nthreads ≠ 0 ∨ 1 ≤ hw

/-- the cell of point `i` ended without an error flag, and its security radius was reached or all
other points were among the candidates -/
def Certain (S : Sorted K) (gr : Int) (a : CCArgs) (i : Nat) : Prop :=
  NoError (stateOf S gr a i) ∧
    ((stateOf S gr a i).get .security_radius_reached = true ∨ S.xyz.length - 1 ≤ a.k)

section
variable {nb hw : Nat} {prm : Params} {xyz : List (Pt K)} {S : Sorted K}

theorem ExactJob.job (h : ExactJob nb hw prm xyz) : JobOK nb hw prm xyz := by
  refine ⟨h.gr, ?_, h.k1, h.k, h.pm6, h.pm255, h.tm8, h.tm, h.threads⟩
  intro p hp c hc
  obtain ⟨c', h1, h2, h3⟩ := cellId_range prm.gr h.gr p (h.box p hp)
  rw [hc] at h1; cases h1
  have := h.fits
  exact ⟨h2, h3, by omega⟩

theorem ExactJob.sorts (h : ExactJob nb hw prm xyz) : ∃ S, xyzSort nb prm.gr xyz = .ok S :=
  (C05_unit_box_safe nb prm.gr xyz h.gr h.box).2

theorem inUnitBox_of_inBox {p : Pt K} (h : InBox p) : InUnitBox p := by
  obtain ⟨⟨h1, h2⟩, ⟨h3, h4⟩, h5, h6⟩ := h
  exact ⟨⟨h1, h2.le⟩, ⟨h3, h4.le⟩, h5, h6.le⟩

/-- every single computation made for a point is an instance of `CellJob` -/
theorem ExactJob.cell (h : ExactJob nb hw prm xyz) (hs : xyzSort nb prm.gr xyz = .ok S) {a : CCArgs}
    (ha : SizeOK a) {i : Nat} {p : Pt K} (hp : S.xyz[i]? = some p) :
    ∃ res o, CellJob a S.xyz i p res o ∧ rowOf S prm.gr a i = tmpnnRow o.knn ∧
      stateOf S prm.gr a i = o.s.state := by
  obtain ⟨hb, hg, -, -⟩ := sorted_facts nb prm.gr xyz S h.gr h.fits h.box hs
  obtain ⟨res, e1, e2⟩ := knn_spec nb prm.gr xyz S h.gr h.fits h.box hs i p hp a.k ha.k1
  have hi := (List.getElem?_eq_some_iff.mp hp).1
  obtain ⟨row, o, p', f1, f2, -, -, f3⟩ := (ready_of_grid hg ha).res hi
  have : row = res := by
    have := f1.symm.trans e1
    injection this
  subst this
  refine ⟨row, o, ⟨inUnitBox_of_inBox (hb p (List.mem_of_getElem? hp)), hp, e2, ha.pm6, ha.pm255,
    ha.tm8, ha.tm, ha.k, _, _, _, ?_, ?_, ?_, f2⟩, ?_, ?_⟩
  · simp
  · simp
  · simp
  · unfold rowOf tmpnnRow; rw [f3]
  · unfold stateOf; rw [f3]

/-- the flag for the security radius is never set together with an error flag -/
theorem ExactJob.noError (h : ExactJob nb hw prm xyz) (hs : xyzSort nb prm.gr xyz = .ok S) {a : CCArgs}
    (ha : SizeOK a) {i : Nat} (hi : i < S.xyz.length)
    (hr : (stateOf S prm.gr a i).get .security_radius_reached = true) : NoError (stateOf S prm.gr a i) := by
  obtain ⟨-, hg, -, -⟩ := sorted_facts nb prm.gr xyz S h.gr h.fits h.box hs
  obtain ⟨row, o, p', f1, f2, -, f4, f3⟩ := (ready_of_grid hg ha).res hi
  unfold stateOf at hr ⊢
  rw [f3] at hr ⊢
  rcases f4.res with ⟨hf, -⟩ | ⟨-, -, hf, -⟩
  · rcases hf with h' | h' | h' <;> · rw [h'] at hr; simp at hr
  · rcases hf with h' | h'
    · exact ⟨h' _, h' _, h' _⟩
    · exact ⟨h' _, h' _, h' _⟩

/-- C24, C25: the row computed for a point whose cell ended well is correct. -/
theorem C24_row (h : ExactJob nb hw prm xyz) (hs : xyzSort nb prm.gr xyz = .ok S) {a : CCArgs}
    (ha : SizeOK a) {i : Nat} {p : Pt K} (hp : S.xyz[i]? = some p) (hc : Certain S prm.gr a i) :
    CorrectRow S.xyz i p (rowOf S prm.gr a i) := by
  obtain ⟨res, o, h1, h2, h3⟩ := h.cell hs ha hp
  have hcomp : Complete a S.xyz o := by
    unfold Certain at hc; rw [h3] at hc; exact hc
  rw [h2]
  exact ⟨C24_complete_cell h1 hcomp, C25_returned_touch h1 hcomp, row_nodup h1 hcomp.1,
    fun w hw x hx => C25_missing_irrelevant h1 hcomp w hw x hx⟩

/-- C26: in general position it lists exactly the touching cells. -/
theorem C26_row (h : ExactJob nb hw prm xyz) (hs : xyzSort nb prm.gr xyz = .ok S) {a : CCArgs}
    (ha : SizeOK a) {i : Nat} {p : Pt K} (hp : S.xyz[i]? = some p) (hc : Certain S prm.gr a i)
    (hg : GeneralAt S.xyz i p) : ExactRow S.xyz i p (rowOf S prm.gr a i) := by
  obtain ⟨res, o, h1, h2, h3⟩ := h.cell hs ha hp
  have hcomp : Complete a S.xyz o := by
    unfold Certain at hc; rw [h3] at hc; exact hc
  rw [h2]
  exact C26_exact_neighbours h1 hcomp hg

theorem countP_zero_range {n : Nat} {f : Nat → Bool} (h : (List.range n).countP f = 0) {i : Nat}
    (hi : i < n) : f i = false := by
  rw [List.countP_eq_zero] at h
  simpa using h i (List.mem_range.mpr hi)

/-- when the counters of a run without recompute say that all is well, it is -/
theorem ExactJob.certain (h : ExactJob nb hw prm xyz) (hs : xyzSort nb prm.gr xyz = .ok S)
    (hr : prm.useRecompute = false) {out : TessOut K} (ho : tesellateCpu nb hw prm xyz = .ok out)
    (hw' : out.report.srNotReached = 0 ∨ (xyz.length - 1 ≤ prm.k.toNat ∧ out.report.infBoundary = 0 ∧
      out.report.pOverflow = 0 ∧ out.report.tOverflow = 0)) {i : Nat} (hi : i < S.xyz.length) :
    Certain S prm.gr prm.args i := by
  obtain ⟨-, -, -, hl⟩ := sorted_facts nb prm.gr xyz S h.gr h.fits h.box hs
  obtain ⟨out', e1, e2⟩ := C39_counters h.job hs hr
  rw [ho] at e1; cases e1
  obtain ⟨c1, c2, -, -, c3, c4, -⟩ := e2
  simp only at c1 c2 c3 c4
  rcases hw' with hw' | ⟨w1, w2, w3, w4⟩
  · have : (stateOf S prm.gr prm.args i).get .security_radius_reached = true := by
      have hc : (List.range S.xyz.length).countP (fun i =>
          (stateOf S prm.gr prm.args i).get .security_radius_reached)
            = (List.range S.xyz.length).length := by
        rw [List.length_range]; omega
      exact List.countP_eq_length.mp hc i (List.mem_range.mpr hi)
    exact ⟨h.noError hs h.job.size hi this, Or.inl this⟩
  · rw [c2] at w2; rw [c3] at w3; rw [c4] at w4
    refine ⟨⟨countP_zero_range w3 hi, countP_zero_range w4 hi, countP_zero_range w2 hi⟩, Or.inr ?_⟩
    rw [hl]; exact w1

/-- C24, C25, C26: whenever a call without recompute reports that no cell missed its security radius,
or `k ≥ n-1` and no errors are reported, every returned row is correct for the returned (reordered)
points, and exact for points in general position.  This needs nothing but what the caller sees. -/
theorem C24_tessellation (h : ExactJob nb hw prm xyz) (hr : prm.useRecompute = false) :
    ∃ out, tesellateCpu nb hw prm xyz = .ok out ∧ out.xyz.Perm xyz ∧
      ((out.report.srNotReached = 0 ∨ (xyz.length - 1 ≤ prm.k.toNat ∧ out.report.infBoundary = 0 ∧
          out.report.pOverflow = 0 ∧ out.report.tOverflow = 0)) →
        ∀ i p, out.xyz[i]? = some p → ∃ row, RowIs out.dnn i row ∧ CorrectRow out.xyz i p row ∧
          (GeneralAt out.xyz i p → ExactRow out.xyz i p row)) := by
  obtain ⟨S, hs⟩ := h.sorts
  obtain ⟨out, h1, h2, -, h3⟩ := C32_rows h.job hs hr
  refine ⟨out, h1, by rw [h2]; exact C01_sort_permutes nb prm.gr xyz S hs, ?_⟩
  intro hw' i p hp
  rw [h2] at hp ⊢
  have hi := (List.getElem?_eq_some_iff.mp hp).1
  have hc := h.certain hs hr h1 hw' hi
  exact ⟨_, h3 i hi, C24_row h hs h.job.size hp hc, C26_row h hs h.job.size hp hc⟩

/-- C24, C25: also when some cells are bad: every row whose own cell ended well is correct. -/
theorem C25_tessellation (h : ExactJob nb hw prm xyz) (hr : prm.useRecompute = false)
    (hs : xyzSort nb prm.gr xyz = .ok S) :
    ∃ out, tesellateCpu nb hw prm xyz = .ok out ∧ out.xyz = S.xyz ∧
      ∀ i p, out.xyz[i]? = some p → Certain S prm.gr prm.args i →
        ∃ row, RowIs out.dnn i row ∧ CorrectRow out.xyz i p row := by
  obtain ⟨out, h1, h2, -, h3⟩ := C32_rows h.job hs hr
  refine ⟨out, h1, h2, ?_⟩
  intro i p hp hc
  rw [h2] at hp ⊢
  exact ⟨_, h3 i (List.getElem?_eq_some_iff.mp hp).1, C24_row h hs h.job.size hp hc⟩

/-- a row is determined by what `dnn[i].size()` and `dnn[i][j]` return -/
theorem RowIs.unique {d : Dnn} {i : Nat} {r r' : List Int} (h : RowIs d i r) (h' : RowIs d i r') :
    r = r' := by
  have hl : r.length = r'.length := by
    have := h.1.symm.trans h'.1
    injection this
  apply List.ext_getElem hl
  intro j h1 h2
  have := (h.2 j _ (List.getElem?_eq_getElem h1)).symm.trans (h'.2 j _ (List.getElem?_eq_getElem h2))
  injection this

/-- C26: neighbourhood is symmetric in the result of one call. -/
theorem C26_tessellation_symmetric (h : ExactJob nb hw prm xyz) (hr : prm.useRecompute = false)
    {out : TessOut K} (ho : tesellateCpu nb hw prm xyz = .ok out)
    (hw' : out.report.srNotReached = 0 ∨ (xyz.length - 1 ≤ prm.k.toNat ∧ out.report.infBoundary = 0 ∧
          out.report.pOverflow = 0 ∧ out.report.tOverflow = 0))
    (hgp : ∀ i p, out.xyz[i]? = some p → GeneralAt out.xyz i p) {i j : Nat} {ri rj : List Int}
    (hi : i < out.xyz.length) (hj : j < out.xyz.length)
    (h1 : RowIs out.dnn i ri) (h2 : RowIs out.dnn j rj) : (j : Int) ∈ ri ↔ (i : Int) ∈ rj := by
  obtain ⟨out', e1, -, e2⟩ := C24_tessellation h hr
  rw [ho] at e1; cases e1
  have gi := List.getElem?_eq_getElem hi
  have gj := List.getElem?_eq_getElem hj
  obtain ⟨r, a1, -, a2⟩ := e2 hw' i _ gi
  obtain ⟨r', b1, -, b2⟩ := e2 hw' j _ gj
  rw [h1.unique a1, h2.unique b1, a2 (hgp i _ gi) j, b2 (hgp j _ gj) i]
  constructor
  · rintro ⟨n1, q, n2, n3⟩
    rw [gj] at n2; cases n2
    exact ⟨fun e => n1 e.symm, _, gi, n3.symm⟩
  · rintro ⟨n1, q, n2, n3⟩
    rw [gi] at n2; cases n2
    exact ⟨fun e => n1 e.symm, _, gj, n3.symm⟩

/-- a correct row is independent of everything: the listed points are determined by the set of
points -/
theorem row_sites {xyz : List (Pt K)} {i : Nat} {p : Pt K} {row : List Int}
    (hc : CorrectRow xyz i p row) (he : ExactRow xyz i p row) (hp : xyz[i]? = some p) (q : Pt K) :
    q ∈ sitesOf xyz row ↔ q ∈ xyz ∧ q ≠ p ∧ Touch xyz p q := by
  rw [mem_sitesOf]
  constructor
  · rintro ⟨v, hv, hq⟩
    obtain ⟨w, q', rfl, h2, h3, h4, h5⟩ := hc.touch v hv
    have : q' = q := by
      have e : ((w : Int)).toNat = w := by omega
      rw [e, h2] at hq; injection hq
    subst this
    exact ⟨List.mem_of_getElem? h2, h4, h5⟩
  · rintro ⟨hq, hqp, ht⟩
    obtain ⟨w, hw, rfl⟩ := List.getElem_of_mem hq
    refine ⟨w, (he w).mpr ⟨?_, _, List.getElem?_eq_getElem hw, ht⟩, ?_⟩
    · rintro rfl
      rw [List.getElem?_eq_getElem hw] at hp
      injection hp with hp
      exact hqp hp
    · simp

/-- C53: two calls with the same points in any order and any parameters (grid, `k`, buffer sizes,
threads, chunks, integer type) find the same neighbours of the same point, if both report success. -/
theorem C53_tessellation {nb' hw2 : Nat} {prm' : Params} {xyz' : List (Pt K)} (hperm : xyz.Perm xyz')
    (h : ExactJob nb hw prm xyz) (hr : prm.useRecompute = false)
    (h' : ExactJob nb' hw2 prm' xyz') (hr' : prm'.useRecompute = false)
    {out out' : TessOut K} (ho : tesellateCpu nb hw prm xyz = .ok out)
    (ho' : tesellateCpu nb' hw2 prm' xyz' = .ok out')
    (hc : out.report.srNotReached = 0 ∨ (xyz.length - 1 ≤ prm.k.toNat ∧ out.report.infBoundary = 0 ∧
          out.report.pOverflow = 0 ∧ out.report.tOverflow = 0))
    (hc' : out'.report.srNotReached = 0 ∨ (xyz'.length - 1 ≤ prm'.k.toNat ∧
          out'.report.infBoundary = 0 ∧ out'.report.pOverflow = 0 ∧ out'.report.tOverflow = 0))
    {i i' : Nat} {p : Pt K} (hp : out.xyz[i]? = some p) (hp' : out'.xyz[i']? = some p)
    (hg : GeneralAt out.xyz i p) {row row' : List Int}
    (hrow : RowIs out.dnn i row) (hrow' : RowIs out'.dnn i' row') (q : Pt K) :
    q ∈ sitesOf out.xyz row ↔ q ∈ sitesOf out'.xyz row' := by
  obtain ⟨o1, e1, p1, e2⟩ := C24_tessellation h hr
  rw [ho] at e1; cases e1
  obtain ⟨o2, f1, p2, f2⟩ := C24_tessellation h' hr'
  rw [ho'] at f1; cases f1
  obtain ⟨r, a1, a2, a3⟩ := e2 hc i p hp
  obtain ⟨r', b1, b2, b3⟩ := f2 hc' i' p hp'
  have hg' := hg.perm ((p1.trans hperm).trans p2.symm) hp hp'
  rw [hrow.unique a1, hrow'.unique b1, row_sites a2 (a3 hg) hp, row_sites b2 (b3 hg') hp']
  have hm : ∀ q, q ∈ out.xyz ↔ q ∈ out'.xyz := fun q =>
    ((p1.trans hperm).trans p2.symm).mem_iff
  unfold Touch
  simp only [hm, voronoiCell_congr hm]

/-- C37: with recompute every row is correct, unless the cell of this point ended with an error flag
in a round with `k ≥ n-1` candidates. -/
theorem C37_tessellation (h : ExactJob nb hw prm xyz) (hs : xyzSort nb prm.gr xyz = .ok S)
    (hr : prm.useRecompute = true) (h2 : 2 ≤ xyz.length) (h64 : xyz.length ≤ 65536)
    (hb : PlanesBounded S prm.gr (max prm.args.k (xyz.length - 1))) :
    ∃ out, tesellateCpu nb hw prm xyz = .ok out ∧ out.xyz = S.xyz ∧
      ∀ i p, out.xyz[i]? = some p → ∃ row, RowIs out.dnn i row ∧
        ((CorrectRow out.xyz i p row ∧ (GeneralAt out.xyz i p → ExactRow out.xyz i p row)) ∨
          ∃ a, SizeOK a ∧ xyz.length - 1 ≤ a.k ∧ ¬ NoError (stateOf S prm.gr a i)) := by
  obtain ⟨-, -, -, hl⟩ := sorted_facts nb prm.gr xyz S h.gr h.fits h.box hs
  rw [← hl] at h2 h64 hb ⊢
  obtain ⟨out, e1, e2, e3⟩ := C37_rows h.job hs hr h2 h64 hb
  refine ⟨out, e1, e2, ?_⟩
  intro i p hp
  rw [e2] at hp ⊢
  have hi := (List.getElem?_eq_some_iff.mp hp).1
  obtain ⟨a, ha, hrow, hd⟩ := e3 i hi
  refine ⟨_, hrow, ?_⟩
  by_cases hne : NoError (stateOf S prm.gr a i)
  · exact Or.inl ⟨C24_row h hs ha hp ⟨hne, hd⟩, C26_row h hs ha hp ⟨hne, hd⟩⟩
  · refine Or.inr ⟨a, ha, ?_, hne⟩
    rcases hd with hd | hd
    · exact absurd (h.noError hs ha hi hd) hne
    · exact hd

end

end Votess
