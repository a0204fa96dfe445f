import Verif.Props.Linking
/-!
# C93 — points that were left out

A large set of points is often treated in parts: each call gets the points of a region and of a halo around it.  The row of a
point is that of the whole set if the points left out are more than twice as far from it as any place of its cell.  Nothing else
is asked of the points left out, and no second call is needed to see it.
-/
namespace Votess

section
variable {K : Type} [Field K] [LinearOrder K] [IsStrictOrderedRing K]

/-- a place `x` is nearer to `p` than to `a`, which is more than twice as far away -/
theorem far_away {x p a : Pt K} (h : 4 * sqDist x p < sqDist p a) : sqDist x p < sqDist x a := by
  by_contra hn
  have hn' := not_lt.mp hn
  have key : sqDist p a ≤ 2 * sqDist x p + 2 * sqDist x a := by
    unfold sqDist
    nlinarith [sq_nonneg (p.x - x.x + (a.x - x.x)), sq_nonneg (p.y - x.y + (a.y - x.y)), sq_nonneg (p.z - x.z + (a.z - x.z))]
  linarith

/-- the row `row` of point `p`, found without the points `A` -/
structure RowOfAll (A L : List (Pt K)) (p : Pt K) (row : List Int) : Prop where
  /-- the listed points determine the cell of `p` among all points -/
  cell : ∀ x, VoronoiCell p (sitesOf L row) x ↔ VoronoiCell p (A ++ L) x
  /-- they are exactly the other points, of all, whose cells touch that of `p` -/
  touch : ∀ q, q ∈ sitesOf L row ↔ q ∈ A ++ L ∧ q ≠ p ∧ Touch (A ++ L) p q

/-- C93: the points `A` that were left out are more than twice as far from `p` as any place of the cell that the row cuts out. -/
theorem C93_halo [FloorRing K] [Inhabited K] {A L : List (Pt K)} {i : Nat} {p : Pt K} {row : List Int} (hp : L[i]? = some p)
    (hc : CorrectRow L i p row) (he : ExactRow L i p row)
    (hA : ∀ x, VoronoiCell p (sitesOf L row) x → ∀ a ∈ A, 4 * sqDist x p < sqDist p a) : RowOfAll A L p row := by
  have hpL := List.mem_of_getElem? hp
  have far : ∀ x, VoronoiCell p L x → ∀ a ∈ A, sqDist x p < sqDist x a := fun x hx a ha =>
    far_away (hA x ((hc.cell x).mpr hx) a ha)
  have cell : ∀ x, VoronoiCell p L x ↔ VoronoiCell p (A ++ L) x := by
    intro x
    constructor
    · intro hx
      refine ⟨hx.1, fun r hr => ?_⟩
      rcases List.mem_append.mp hr with h | h
      · exact (far x hx r h).le
      · exact hx.2 r h
    · intro hx
      exact ⟨hx.1, fun r hr => hx.2 r (List.mem_append_right _ hr)⟩
  refine ⟨fun x => (hc.cell x).trans (cell x), fun q => ?_⟩
  rw [row_sites hc he hp q]
  constructor
  · rintro ⟨h1, h2, x, h3, h4⟩
    refine ⟨List.mem_append_right _ h1, h2, x, (cell x).mp h3, h4.1, fun r hr => ?_⟩
    exact (h4.2 p hpL).trans (((cell x).mp h3).2 r hr)
  · rintro ⟨h1, h2, x, h3, h4⟩
    have h3' := (cell x).mpr h3
    refine ⟨?_, h2, x, h3', h4.1, fun r hr => h4.2 r (List.mem_append_right _ hr)⟩
    rcases List.mem_append.mp h1 with h | h
    · exact absurd (h4.2 p (List.mem_append_right _ hpL)) (not_le.mpr (far x h3' q h))
    · exact h

end

section exact
variable {K : Type} [Field K] [LinearOrder K] [IsStrictOrderedRing K] [FloorRing K] [Inhabited K] {nb hw : Nat}
  {prm : Params} {xyz A : List (Pt K)}

/-- C93: exact arithmetic, one call on the points `xyz`. -/
theorem C93_exact (h : ExactJob nb hw prm xyz) (hr : prm.useRecompute = false) :
    ∃ out, tesellateCpu nb hw prm xyz = .ok out ∧ out.xyz.Perm xyz ∧
      ((out.report.srNotReached = 0 ∨ (xyz.length - 1 ≤ prm.k.toNat ∧ out.report.infBoundary = 0 ∧
          out.report.pOverflow = 0 ∧ out.report.tOverflow = 0)) →
        ∀ i p, out.xyz[i]? = some p → GeneralAt out.xyz i p → ∃ row, RowIs out.dnn i row ∧
          ((∀ x, VoronoiCell p (sitesOf out.xyz row) x → ∀ a ∈ A, 4 * sqDist x p < sqDist p a) →
            RowOfAll A out.xyz p row)) := by
  obtain ⟨out, h1, h2, h3⟩ := C24_tessellation h hr
  refine ⟨out, h1, h2, fun hc i p hp hg => ?_⟩
  obtain ⟨row, r1, r2, r3⟩ := h3 hc i p hp
  exact ⟨row, r1, fun hA => C93_halo hp r2 (r3 hg) hA⟩

end exact

/-- C93: every way to compute a tessellation in rounded arithmetic (C89).  Of the points left out no margins are asked. -/
theorem C93_computed {X A : List (Pt ℚ)} {P : List (Pt ℚ) → Prop} {R : Nat → List Int → Prop} (hX : InputOK X)
    (hm : AllMarginsBy (2 + 1 / 2 ^ 29) X) (hc : Computed X P R) :
    ∃ L : List (Pt ℚ), P L ∧ L.Perm X ∧ ∀ i p, L[i]? = some p → ∃ row, R i row ∧
      ((∀ x, VoronoiCell p (sitesOf L row) x → ∀ a ∈ A, 4 * sqDist x p < sqDist p a) → RowOfAll A L p row) := by
  obtain ⟨L, h1, h2, h3⟩ := C89_exact hX hm hc
  refine ⟨L, h1, h2, fun i p hp => ?_⟩
  obtain ⟨row, r1, r2, r3⟩ := h3 i p hp
  exact ⟨row, r1, fun hA => C93_halo hp r2 r3 hA⟩

/-- C93: two calls, for two parts of a set: points with such halos that are in both parts have the same neighbours. -/
theorem C93_parts {X X' A A' : List (Pt ℚ)} {P P' : List (Pt ℚ) → Prop} {R R' : Nat → List Int → Prop} (hX : InputOK X)
    (hX' : InputOK X') (hm : AllMarginsBy (2 + 1 / 2 ^ 29) X) (hm' : AllMarginsBy (2 + 1 / 2 ^ 29) X')
    (hc : Computed X P R) (hc' : Computed X' P' R') (hall : (A ++ X).Perm (A' ++ X')) :
    ∃ L L' : List (Pt ℚ), P L ∧ P' L' ∧ L.Perm X ∧ L'.Perm X' ∧ ∀ i i' p, L[i]? = some p → L'[i']? = some p →
      ∃ row row', R i row ∧ R' i' row' ∧
        ((∀ x, VoronoiCell p (sitesOf L row) x → ∀ a ∈ A, 4 * sqDist x p < sqDist p a) →
          (∀ x, VoronoiCell p (sitesOf L' row') x → ∀ a ∈ A', 4 * sqDist x p < sqDist p a) →
          ∀ q, q ∈ sitesOf L row ↔ q ∈ sitesOf L' row') := by
  obtain ⟨L, h1, h2, h3⟩ := C93_computed (A := A) hX hm hc
  obtain ⟨L', k1, k2, k3⟩ := C93_computed (A := A') hX' hm' hc'
  refine ⟨L, L', h1, k1, h2, k2, fun i i' p hp hp' => ?_⟩
  obtain ⟨row, r1, r2⟩ := h3 i p hp
  obtain ⟨row', s1, s2⟩ := k3 i' p hp'
  refine ⟨row, row', r1, s1, fun hA hA' q => ?_⟩
  have hperm : (A ++ L).Perm (A' ++ L') := ((h2.append_left A).trans hall).trans (k2.symm.append_left A')
  have cell : ∀ p x, VoronoiCell p (A ++ L) x ↔ VoronoiCell p (A' ++ L') x := fun p x =>
    ⟨fun h => ⟨h.1, fun r hr => h.2 r (hperm.symm.subset hr)⟩, fun h => ⟨h.1, fun r hr => h.2 r (hperm.subset hr)⟩⟩
  rw [(r2 hA).touch q, (s2 hA').touch q, hperm.mem_iff]
  unfold Touch
  simp only [cell]

/-! ### example: a corner of the box -/

/-- a point near a corner and three points around it -/
def cornerPts : List (Pt ℚ) := [⟨1 / 10, 1 / 10, 1 / 10⟩, ⟨3 / 10, 3 / 25, 11 / 100⟩, ⟨11 / 100, 17 / 50, 13 / 100⟩, ⟨3 / 25, 11 / 100, 19 / 50⟩]

theorem corner_input : InputOK cornerPts := by
  intro p hp
  simp only [cornerPts, List.mem_cons, List.not_mem_nil, or_false] at hp
  rcases hp with rfl | rfl | rfl | rfl <;> norm_num

set_option maxRecDepth 100000 in
theorem corner_margins : AllMarginsBy (9 / 4) cornerPts :=
  (allMarginsB_sound (by decide +kernel)).margins (by norm_num) (input_box corner_input)

/-- The call on the four points returns for the point in the corner the neighbours it has among these and any other points that
are not nearer to it than half the box: whatever they are, they may coincide or lie outside. -/
example (A : List (Pt ℚ)) (hA : ∀ a ∈ A, 1 / 4 ≤ sqDist ⟨1 / 10, 1 / 10, 1 / 10⟩ a) :
    ∃ (out : TessOut F32) (L : List (Pt ℚ)) (i : Nat) (row : List Int),
      tesellateCpu 4 8 ⟨3, 3, 9, 14, 0, 0, false, false⟩ (cornerPts.map storePt) = .ok out ∧
      out.xyz = L.map storePt ∧ L.Perm cornerPts ∧ L[i]? = some ⟨1 / 10, 1 / 10, 1 / 10⟩ ∧ RowIs out.dnn i row ∧
      RowOfAll A L ⟨1 / 10, 1 / 10, 1 / 10⟩ row := by
  have hroom : Roomy ⟨3, 3, 9, 14, 0, 0, false, false⟩ cornerPts.length := ⟨by decide, by decide, by decide, rfl⟩
  have hm2 : AllMarginsBy 2 cornerPts := corner_margins.mono (by norm_num) (by norm_num)
  have hm : AllMarginsBy (2 + 1 / 2 ^ 29) cornerPts := corner_margins.mono (by norm_num) (by norm_num)
  obtain ⟨out, -, ho, -⟩ := C71_enough_room tiny4_sizes corner_input hm2 hroom
  obtain ⟨L, h1, h2, h3⟩ := C89_exact corner_input hm (.float tiny4_sizes (.inl hroom) ho)
  obtain ⟨i, hi⟩ := List.getElem?_of_mem (h2.symm.subset (show (⟨1 / 10, 1 / 10, 1 / 10⟩ : Pt ℚ) ∈ cornerPts by simp [cornerPts]))
  obtain ⟨row, r1, r2, r3⟩ := h3 i _ hi
  refine ⟨out, L, i, row, ho, h1, h2, hi, r1, C93_halo hi r2 r3 fun x hx a ha => lt_of_lt_of_le ?_ (hA a ha)⟩
  have hc := (r2.cell x).mp hx
  have c1 := hc.2 _ (h2.symm.subset (show (⟨3 / 10, 3 / 25, 11 / 100⟩ : Pt ℚ) ∈ cornerPts by simp [cornerPts]))
  have c2 := hc.2 _ (h2.symm.subset (show (⟨11 / 100, 17 / 50, 13 / 100⟩ : Pt ℚ) ∈ cornerPts by simp [cornerPts]))
  have c3 := hc.2 _ (h2.symm.subset (show (⟨3 / 25, 11 / 100, 19 / 50⟩ : Pt ℚ) ∈ cornerPts by simp [cornerPts]))
  obtain ⟨⟨x0, -⟩, ⟨y0, -⟩, z0, -⟩ := hc.1
  unfold sqDist at *
  simp only at *
  have bx : x.x ≤ 22 / 100 := by nlinarith
  have by' : x.y ≤ 25 / 100 := by nlinarith
  have bz : x.z ≤ 27 / 100 := by nlinarith
  nlinarith [mul_nonneg x0 (sub_nonneg.mpr bx), mul_nonneg y0 (sub_nonneg.mpr by'), mul_nonneg z0 (sub_nonneg.mpr bz)]

end Votess
