import Verif.Proofs.General
import Verif.Spec.Delaunay
import Verif.Props.Walk
/-!
# C85 — the rows and the Delaunay triangulation

The rows are the Delaunay neighbours that have an empty ball with its centre in the box.
-/
namespace Votess

section
variable {K : Type} [Field K] [LinearOrder K] [IsStrictOrderedRing K] {L : List (Pt K)} {d : Dnn}

theorem Touch.ball {p q : Pt K} (hp : p ∈ L) (hq : q ∈ L) (h : Touch L p q) : ∃ c, InUnitBox c ∧ EmptyBall L c p q := by
  obtain ⟨c, h1, h2⟩ := h
  exact ⟨c, h1.1, le_antisymm (h1.2 q hq) (h2.2 p hp), h1.2⟩

omit [IsStrictOrderedRing K] in
theorem EmptyBall.touch {c p q : Pt K} (hc : InUnitBox c) (h : EmptyBall L c p q) : Touch L p q :=
  ⟨c, ⟨hc, h.2⟩, hc, fun r hr => h.1 ▸ h.2 r hr⟩

/-- a point on the surface of a ball without other points is among the sites of the row -/
theorem facing_site {p q : Pt K} {i : Nat} {row : List Int} (hbox : ∀ p ∈ L, InUnitBox p) (hq : q ∈ L) (hne : q ≠ p)
    (hf : Facing L p q) (hc : CorrectRow L i p row) : q ∈ sitesOf L row := by
  by_contra hnot
  obtain ⟨c, c1, c2, c3⟩ := hf
  have hsite : ∀ r ∈ sitesOf L row, r ∈ L := fun r hr => by
    obtain ⟨v, -, e⟩ := mem_sites.mp hr
    exact List.mem_of_getElem? e
  obtain ⟨e, e0, e1, he⟩ := small_enough
    (fun r : Pt K => 2 * ((q.x - c.x) * (r.x - p.x) + (q.y - c.y) * (r.y - p.y) + (q.z - c.z) * (r.z - p.z)))
    (fun r => if r = p then 1 else sqDist c r - sqDist c p) (sitesOf L row) (by
      intro r hr
      split
      · exact one_pos
      · rename_i hrp
        have := c3 r (hsite r hr) hrp (fun h => hnot (h ▸ hr))
        linarith)
  have hb := between_box (t := e) c1 (hbox q hq) e0.le (by linarith)
  have hin : VoronoiCell p (sitesOf L row) (between c q e) := by
    refine ⟨hb, fun r hr => ?_⟩
    by_cases hrp : r = p
    · rw [hrp]
    · have := he r hr
      simp only [if_neg hrp] at this
      unfold between
      unfold sqDist at this ⊢
      simp only
      linarith
  have hcell := ((hc.cell _).mp hin).2 q hq
  have hpos := sqDist_pos_of_ne hne
  have : sqDist (between c q e) p - sqDist (between c q e) q = e * sqDist q p + (1 - e) * (sqDist c p - sqDist c q) := by
    unfold between sqDist
    simp only
    ring
  rw [c2, sub_self, mul_zero, add_zero] at this
  have := mul_pos e0 hpos
  linarith

/-- C85: correct rows. -/
theorem C85_rows (hbox : ∀ p ∈ L, InUnitBox p) (hrows : AllRows L d) : DelaunayRows L d := by
  refine ⟨fun i w p hp hw => ?_, fun i p q hp hq hne hf => ?_⟩
  · obtain ⟨row, h1, h2⟩ := hrows i p hp
    obtain ⟨w', q, e, hq, -, hne, ht⟩ := h2.touch _ (listed_row h1 hw)
    obtain rfl : w = w' := by omega
    obtain ⟨c, c1, c2⟩ := ht.ball (List.mem_of_getElem? hp) (List.mem_of_getElem? hq)
    exact ⟨q, c, hq, hne, c1, c2⟩
  · obtain ⟨row, h1, h2⟩ := hrows i p hp
    exact listed_of_site h1 h2 (facing_site hbox hq hne hf h2)

/-- C85: exact rows. -/
theorem C85_exact_rows (hbox : ∀ p ∈ L, InUnitBox p)
    (h : ∀ i p, L[i]? = some p → ∃ row, RowIs d i row ∧ CorrectRow L i p row ∧ ExactRow L i p row) :
    DelaunayExact L d := by
  refine ⟨C85_rows hbox fun i p hp => let ⟨row, r1, r2, _⟩ := h i p hp; ⟨row, r1, r2⟩, ?_⟩
  intro i w p q c hp hq hne hc hb
  obtain ⟨row, r1, -, r2⟩ := h i p hp
  exact listed_of_mem r1 ((r2 w).mpr ⟨hne, q, hq, hb.touch hc⟩)

end

section exact
variable {K : Type} [Field K] [LinearOrder K] [IsStrictOrderedRing K] [FloorRing K] [Inhabited K] {nb hw : Nat}
  {prm : Params} {xyz : List (Pt K)}

theorem general_all {L L' : List (Pt K)} (h : L'.Perm L) (hg : ∀ i p, L[i]? = some p → GeneralAt L i p) :
    ∀ i p, L'[i]? = some p → GeneralAt L' i p := by
  intro i p hp
  obtain ⟨j, hj⟩ := List.mem_iff_getElem?.mp (h.subset (List.mem_of_getElem? hp))
  exact (hg j p hj).perm h.symm hj hp

/-- C85: exact arithmetic; if the points given are in general position the rows are exact. -/
theorem C85_exact (h : ExactJob nb hw prm xyz) (hr : prm.useRecompute = false) :
    ∃ out, tesellateCpu nb hw prm xyz = .ok out ∧ out.xyz.Perm xyz ∧
      ((out.report.srNotReached = 0 ∨ (xyz.length - 1 ≤ prm.k.toNat ∧ out.report.infBoundary = 0 ∧
          out.report.pOverflow = 0 ∧ out.report.tOverflow = 0)) → DelaunayRows out.xyz out.dnn ∧
        ((∀ i p, xyz[i]? = some p → GeneralAt xyz i p) → DelaunayExact out.xyz out.dnn)) := by
  obtain ⟨out, h1, h2, h3⟩ := C24_tessellation h hr
  have hbox : ∀ p ∈ out.xyz, InUnitBox p := fun p hp => (h.box p (h2.subset hp)).unit
  refine ⟨out, h1, h2, fun hw' => ⟨C85_rows hbox ?_, fun hg => C85_exact_rows hbox ?_⟩⟩
  · intro i p hp
    obtain ⟨row, r1, r2, -⟩ := h3 hw' i p hp
    exact ⟨row, r1, r2⟩
  · intro i p hp
    obtain ⟨row, r1, r2, r3⟩ := h3 hw' i p hp
    exact ⟨row, r1, r2, r3 (general_all h2 hg i p hp)⟩

/-- C85: exact arithmetic, with all other points as candidates and room for their planes and vertices. -/
theorem C85_exact_room (h : ExactJob nb hw prm xyz) (hr : prm.useRecompute = false)
    (hk : (xyz.length : Int) - 1 ≤ prm.k) (hp : prm.k + 6 ≤ prm.pm) (ht : 2 * prm.k + 8 ≤ prm.tm) :
    ∃ out, tesellateCpu nb hw prm xyz = .ok out ∧ out.xyz.Perm xyz ∧ DelaunayRows out.xyz out.dnn ∧
      ((∀ i p, xyz[i]? = some p → GeneralAt xyz i p) → DelaunayExact out.xyz out.dnn) := by
  obtain ⟨out, h1, h2, h3⟩ := C85_exact h hr
  obtain ⟨out', e1, -, e2, -⟩ := C64_enough_room h hr hk hp ht
  rw [h1] at e1; cases e1
  have hk1 := h.k1
  exact ⟨out, h1, h2, h3 (Or.inr ⟨by omega, e2.1, e2.2.2.1, e2.2.2.2.1⟩)⟩

/-- C85: exact arithmetic, with recompute. -/
theorem C85_exact_recompute (h : ExactJob nb hw prm xyz) (hr : prm.useRecompute = true)
    (hn : 2 ≤ xyz.length) (hk : prm.k + 6 ≤ prm.pm) (hp : (xyz.length : Int) + 5 ≤ prm.pm)
    (ht : 2 * prm.k + 8 ≤ prm.tm) (ht' : 2 * (xyz.length : Int) + 6 ≤ prm.tm) :
    ∃ out, tesellateCpu nb hw prm xyz = .ok out ∧ out.xyz.Perm xyz ∧ DelaunayRows out.xyz out.dnn ∧
      ((∀ i p, xyz[i]? = some p → GeneralAt xyz i p) → DelaunayExact out.xyz out.dnn) := by
  obtain ⟨out, h1, h2, h3⟩ := C64_recompute h hr hn hk hp ht ht'
  have hbox : ∀ p ∈ out.xyz, InUnitBox p := fun p hp => (h.box p (h2.subset hp)).unit
  refine ⟨out, h1, h2, C85_rows hbox ?_, fun hg => C85_exact_rows hbox ?_⟩
  · intro i p hp
    obtain ⟨row, r1, r2, -⟩ := h3 i p hp
    exact ⟨row, r1, r2⟩
  · intro i p hp
    obtain ⟨row, r1, r2, r3⟩ := h3 i p hp
    exact ⟨row, r1, r2, r3 (general_all h2 hg i p hp)⟩

end exact

section rounded
variable {hw : Nat} {prm : Params} {X L : List (Pt ℚ)} {d : Dnn}

/-- C85: single precision, all other points as candidates. -/
theorem C85_float (h : FloatSizes hw prm) (hX : InputOK X) (hm : AllMarginsBy 2 X) (hroom : Roomy prm X.length) :
    ∃ (out : TessOut F32) (L : List (Pt ℚ)), tesellateCpu 4 hw prm (X.map storePt) = .ok out ∧
      out.xyz = L.map storePt ∧ L.Perm X ∧ DelaunayExact L out.dnn := by
  obtain ⟨out, L, h1, h2, h3, h4⟩ := C71_enough_room h hX hm hroom
  exact ⟨out, L, h1, h2, h3, C85_exact_rows (hX.unit h3) h4⟩

/-- C85: single precision, few candidates: the report decides. -/
theorem C85_float_report (h : FloatSizes hw prm) (hX : InputOK X) (hm : AllMarginsBy 2 X) (hk : prm.k < X.length)
    (hr : prm.useRecompute = false) :
    ∃ (out : TessOut F32) (L : List (Pt ℚ)), tesellateCpu 4 hw prm (X.map storePt) = .ok out ∧
      out.xyz = L.map storePt ∧ L.Perm X ∧ (out.report.srNotReached = 0 → DelaunayExact L out.dnn) := by
  obtain ⟨out, L, h1, h2, h3, -, h4⟩ := C71_tessellation h hX hm hk hr
  exact ⟨out, L, h1, h2, h3, fun e => C85_exact_rows (hX.unit h3) (h4 (Or.inl e))⟩

/-- C85: products fused in any way, denormal numbers flushed to zero. -/
theorem C85_flush (ch : Choice b32z) (h : FloatSizes hw prm) (hX : InputOK X) (hm : AllMarginsBy 2 X)
    (hroom : Roomy prm X.length) :
    ∃ (out : TessOut (Fm ch)) (L : List (Pt ℚ)), tesellateCpu 4 hw prm (X.map (storeFm ch)) = .ok out ∧
      out.xyz = L.map (storeFm ch) ∧ L.Perm X ∧ DelaunayExact L out.dnn := by
  obtain ⟨out, L, h1, h2, h3, h4⟩ := C83_enough_room ch h hX hm hroom
  exact ⟨out, L, h1, h2, h3, C85_exact_rows (hX.unit h3) h4⟩

/-- C85: every execution on a GPU. -/
theorem C85_gpu (ch : Choice b32) {ndsize : Int} (h : FloatSizes hw prm) (hX : InputOK X) (hm : AllMarginsBy 2 X)
    (hroom : Roomy prm X.length) (hgr : prm.gr ≤ 255) (htm : prm.tm ≤ 254) (hu : Unchunked prm X.length)
    {out : TessOut (Fm ch)} (ho : TesellateGpu 4 hw ndsize true prm (X.map (storeFm ch)) out) :
    ∃ L : List (Pt ℚ), out.xyz = L.map (storeFm ch) ∧ L.Perm X ∧ DelaunayExact L out.dnn := by
  obtain ⟨L, h2, h3, h4⟩ := C75_gpu ch h hX hm hroom hgr htm hu ho
  exact ⟨L, h2, h3, C85_exact_rows (hX.unit h3) h4⟩

/-- C85: double precision coordinates. -/
theorem C85_double (h : FloatSizes hw prm) (hX : InputOK X) (hm : AllMarginsBy (2 / 2 ^ 29) X)
    (hroom : Roomy prm X.length) :
    ∃ (out : TessOut Dbl) (L : List (Pt ℚ)), tesellateCpu 4 hw prm (X.map storeDbl) = .ok out ∧
      out.xyz = L.map storeDbl ∧ L.Perm X ∧ DelaunayExact L out.dnn := by
  obtain ⟨out, L, h1, h2, h3, h4⟩ := C77_enough_room h hX hm hroom
  exact ⟨out, L, h1, h2, h3, C85_exact_rows (hX.unit h3) h4⟩

end rounded

/-! ### the triangulation of the whole space has more edges -/

/-- two points at the ends of a flat triangle near a face of the box -/
def flatTriangle : List (Pt ℚ) := [⟨1 / 8, 1 / 8, 1 / 2⟩, ⟨7 / 8, 1 / 8, 1 / 2⟩, ⟨1 / 2, 3 / 16, 1 / 2⟩]

theorem flatTriangle_job : ExactJob 4 8 ⟨2, 1, 8, 12, 0, 0, false, false⟩ flatTriangle :=
  ⟨by decide, by decide, fun p hp => by
    simp only [flatTriangle, List.mem_cons, List.not_mem_nil, or_false] at hp
    rcases hp with rfl | rfl | rfl <;> norm_num [InBox], by decide, by decide, by decide, by decide, by decide, by decide, by decide⟩

/-- C85: "in the box" cannot be left out.  A call with room for everything, without any error and with correct rows
does not list two points as neighbours that are neighbours in the Delaunay triangulation of the whole space: a ball
has the two on its surface and the third point outside, but the centres of all such balls are outside the box. -/
theorem C85_outside : ∃ out, tesellateCpu 4 8 ⟨2, 1, 8, 12, 0, 0, false, false⟩ flatTriangle = .ok out ∧
    out.report.error = 0 ∧ DelaunayRows out.xyz out.dnn ∧ ∃ (i w : Nat) (p q : Pt ℚ), i ≠ w ∧ out.xyz[i]? = some p ∧
      out.xyz[w]? = some q ∧ DelaunayPair out.xyz p q ∧ ¬ Listed out.dnn i w := by
  obtain ⟨out, h1, h2, h3, -⟩ := C85_exact_room flatTriangle_job rfl (by decide) (by decide) (by decide)
  obtain ⟨out', e1, -, e2, -⟩ := C64_enough_room flatTriangle_job rfl (by decide) (by decide) (by decide)
  rw [h1] at e1; cases e1
  refine ⟨out, h1, e2.2.2.2.2, h3, ?_⟩
  have m : ∀ p ∈ flatTriangle, ∃ i, out.xyz[i]? = some p := fun p hp => List.getElem?_of_mem (h2.symm.subset hp)
  obtain ⟨i, hi⟩ := m ⟨1 / 8, 1 / 8, 1 / 2⟩ (by simp [flatTriangle])
  obtain ⟨w, hw⟩ := m ⟨7 / 8, 1 / 8, 1 / 2⟩ (by simp [flatTriangle])
  have hr : (⟨1 / 2, 3 / 16, 1 / 2⟩ : Pt ℚ) ∈ out.xyz := h2.symm.subset (by simp [flatTriangle])
  refine ⟨i, w, _, _, ?_, hi, hw, ⟨⟨1 / 2, -1, 1 / 2⟩, ?_, ?_⟩, ?_⟩
  · rintro rfl
    rw [hi] at hw
    norm_num at hw
  · norm_num [sqDist]
  · intro r hr
    have := h2.subset hr
    simp only [flatTriangle, List.mem_cons, List.not_mem_nil, or_false] at this
    rcases this with rfl | rfl | rfl <;> norm_num [sqDist]
  · intro hl
    obtain ⟨q, c, q1, -, c1, c2, c3⟩ := h3.sound i w _ hi hl
    rw [hw] at q1; cases q1
    have := c3 _ hr
    have := c1.2.1.1
    unfold sqDist at *
    simp only at *
    nlinarith

/-! ### examples -/

example (ch : Choice b32z) : ∃ (out : TessOut (Fm ch)) (L : List (Pt ℚ)),
    tesellateCpu 4 8 ⟨3, 3, 9, 14, 0, 0, false, false⟩ (tiny4.map (storeFm ch)) = .ok out ∧
    out.xyz = L.map (storeFm ch) ∧ L.Perm tiny4 ∧ DelaunayExact L out.dnn :=
  C85_flush ch tiny4_sizes tiny4_input tiny4_margins tiny4_room

example : ∃ (out : TessOut F32) (L : List (Pt ℚ)),
    tesellateCpu 4 8 ⟨3, 3, 9, 14, 0, 0, false, false⟩ (tiny4.map storePt) = .ok out ∧
    out.xyz = L.map storePt ∧ L.Perm tiny4 ∧ DelaunayExact L out.dnn :=
  C85_float tiny4_sizes tiny4_input tiny4_margins tiny4_room

end Votess
