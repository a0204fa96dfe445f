import Verif.Props.IeeeExample
/-!
# C70 — single precision and exact arithmetic give the same neighbours

Consequences of C67 that do not mention Voronoi cells: the neighbour relation a call in single
precision returns is symmetric, it does not depend on the parameters or the order of the points, and it
is the one a call in exact arithmetic would return.
-/
namespace Votess

section
variable {hw : Nat} {prm : Params} {L0 : List (Pt ℚ)}

/-- all other points are candidates, there is room for their planes and vertices, and there is no
recompute -/
structure Roomy (prm : Params) (n : Nat) : Prop where
  k : prm.k = (n : Int) - 1
  pm : prm.k + 6 ≤ prm.pm
  tm : 2 * prm.k + 8 ≤ prm.tm
  plain : prm.useRecompute = false

theorem symmetric_of_exact {K : Type} [Field K] [LinearOrder K] {L : List (Pt K)} {i j : Nat}
    {p q : Pt K} {ri rj : List Int} (hp : L[i]? = some p) (hq : L[j]? = some q) (h1 : ExactRow L i p ri)
    (h2 : ExactRow L j q rj) : (j : Int) ∈ ri ↔ (i : Int) ∈ rj := by
  have symm : ∀ {a b : Pt K}, Touch L a b → Touch L b a := fun ⟨x, ha, hb⟩ => ⟨x, hb, ha⟩
  rw [h1 j, h2 i]
  constructor
  · rintro ⟨n1, q', n2, n3⟩
    rw [hq] at n2; cases n2
    exact ⟨fun e => n1 e.symm, _, hp, symm n3⟩
  · rintro ⟨n1, q', n2, n3⟩
    rw [hp] at n2; cases n2
    exact ⟨fun e => n1 e.symm, _, hq, symm n3⟩

/-- C70: in single precision, too, neighbours are neighbours of each other. -/
theorem C70_symmetric (h : FloatSizes hw prm) (hsafe : SafePoints prm.gr (L0.map toF32))
    (hm : AllMargins L0) (hroom : Roomy prm L0.length) {out : TessOut F32}
    (ho : tesellateCpu 4 hw prm (L0.map toF32) = .ok out) {i j : Nat} (hi : i < L0.length)
    (hj : j < L0.length) {ri rj : List Int} (h1 : RowIs out.dnn i ri) (h2 : RowIs out.dnn j rj) :
    (j : Int) ∈ ri ↔ (i : Int) ∈ rj := by
  obtain ⟨out', L, e1, -, e3, e4⟩ := C67_enough_room h hsafe hm hroom.k hroom.plain hroom.pm hroom.tm
  rw [ho] at e1; cases e1
  have hl := e3.length_eq
  have gi := List.getElem?_eq_getElem (l := L) (i := i) (by omega)
  have gj := List.getElem?_eq_getElem (l := L) (i := j) (by omega)
  obtain ⟨r, a1, -, a2⟩ := e4 i _ gi
  obtain ⟨r', b1, -, b2⟩ := e4 j _ gj
  rw [h1.unique a1, h2.unique b1]
  exact symmetric_of_exact gi gj a2 b2

theorem same_sites {K : Type} [Field K] [LinearOrder K] [IsStrictOrderedRing K] [FloorRing K]
    [Inhabited K] {L L' : List (Pt K)}
    (hperm : L.Perm L') {i i' : Nat} {p : Pt K} {row row' : List Int} (hp : L[i]? = some p)
    (hp' : L'[i']? = some p) (hc : CorrectRow L i p row) (he : ExactRow L i p row)
    (hc' : CorrectRow L' i' p row') (he' : ExactRow L' i' p row') (q : Pt K) :
    q ∈ sitesOf L row ↔ q ∈ sitesOf L' row' := by
  rw [row_sites hc he hp, row_sites hc' he' hp']
  have hm : ∀ q, q ∈ L ↔ q ∈ L' := fun q => hperm.mem_iff
  unfold Touch
  simp only [hm, voronoiCell_congr hm]

/-- C70: two calls in single precision with the same points in any order and any grid, threads and
chunks find the same neighbours of the same point. -/
theorem C70_parameters {hw' : Nat} {prm' : Params} {L0' : List (Pt ℚ)} (hperm : L0.Perm L0')
    (h : FloatSizes hw prm) (hsafe : SafePoints prm.gr (L0.map toF32)) (hroom : Roomy prm L0.length)
    (h' : FloatSizes hw' prm') (hsafe' : SafePoints prm'.gr (L0'.map toF32))
    (hroom' : Roomy prm' L0'.length) (hm : AllMargins L0) {out out' : TessOut F32}
    (ho : tesellateCpu 4 hw prm (L0.map toF32) = .ok out)
    (ho' : tesellateCpu 4 hw' prm' (L0'.map toF32) = .ok out') :
    ∃ L L' : List (Pt ℚ), out.xyz = L.map toF32 ∧ out'.xyz = L'.map toF32 ∧ L.Perm L0 ∧ L'.Perm L0' ∧
      ∀ i i' p row row', L[i]? = some p → L'[i']? = some p → RowIs out.dnn i row →
        RowIs out'.dnn i' row' → ∀ q, q ∈ sitesOf L row ↔ q ∈ sitesOf L' row' := by
  obtain ⟨o1, L, e1, e2, e3, e4⟩ := C67_enough_room h hsafe hm hroom.k hroom.plain hroom.pm hroom.tm
  rw [ho] at e1; cases e1
  obtain ⟨o2, L', f1, f2, f3, f4⟩ := C67_enough_room h' hsafe' (hm.perm hperm) hroom'.k hroom'.plain
    hroom'.pm hroom'.tm
  rw [ho'] at f1; cases f1
  refine ⟨L, L', e2, f2, e3, f3, fun i i' p row row' hp hp' hr hr' => ?_⟩
  obtain ⟨r, a1, a2, a3⟩ := e4 i p hp
  obtain ⟨r', b1, b2, b3⟩ := f4 i' p hp'
  rw [hr.unique a1, hr'.unique b1]
  exact same_sites (e3.trans (hperm.trans f3.symm)) hp hp' a2 a3 b2 b3

theorem safe_inBox {gr : Int} {L : List (Pt ℚ)} (h : SafePoints gr (L.map toF32)) :
    ∀ v ∈ L, InBox v := by
  intro v hv
  have hm : toF32 v ∈ L.map toF32 := List.mem_map.mpr ⟨v, hv, rfl⟩
  rcases h with h | ⟨-, h⟩
  · obtain ⟨x, y, z, e, hx, hy, hz⟩ := h _ hm
    have e' := toF32_inj (p := v) (q := ⟨x, y, z⟩) e
    subst e'
    have hb : (1 : ℚ) - 1 / 2 ^ 23 < 1 := by norm_num
    exact ⟨⟨hx.1, lt_of_le_of_lt hx.2 hb⟩, ⟨hy.1, lt_of_le_of_lt hy.2 hb⟩, hz.1, lt_of_le_of_lt hz.2 hb⟩
  · obtain ⟨x, y, z, e, -, hx, hy, hz⟩ := h _ hm
    have e' := toF32_inj (p := v) (q := ⟨x, y, z⟩) e
    subst e'
    exact ⟨hx, hy, hz⟩

theorem FloatSizes.exactJob {hw : Nat} {prm : Params} (h : FloatSizes hw prm) {L : List (Pt ℚ)}
    (hbox : ∀ v ∈ L, InBox v) : ExactJob 4 hw prm L := by
  obtain ⟨⟨g1, g2⟩, ⟨k1, k2⟩, ⟨p1, p2⟩, ⟨t1, t2⟩, th⟩ := h
  refine ⟨g1, ?_, hbox, k1, k2, p1, p2, t1, t2, th⟩
  calc prm.gr * prm.gr * prm.gr ≤ 1290 * 1290 * 1290 := by
        have a : prm.gr * prm.gr ≤ 1290 * 1290 := by nlinarith
        nlinarith
    _ ≤ 256 ^ 4 := by norm_num

/-- C70: a call in single precision finds the neighbours that the same program finds in exact
arithmetic, with the same or other parameters. -/
theorem C70_same_as_exact {hw' : Nat} {prm' : Params} (h : FloatSizes hw prm)
    (hsafe : SafePoints prm.gr (L0.map toF32)) (hroom : Roomy prm L0.length)
    (h' : FloatSizes hw' prm') (hroom' : Roomy prm' L0.length) (hm : AllMargins L0)
    {out : TessOut F32} (ho : tesellateCpu 4 hw prm (L0.map toF32) = .ok out) :
    ∃ (exact : TessOut ℚ) (L : List (Pt ℚ)), tesellateCpu 4 hw' prm' L0 = .ok exact ∧
      out.xyz = L.map toF32 ∧ L.Perm L0 ∧ exact.xyz.Perm L0 ∧
      ∀ i i' p row row', L[i]? = some p → exact.xyz[i']? = some p → RowIs out.dnn i row →
        RowIs exact.dnn i' row' → ∀ q, q ∈ sitesOf L row ↔ q ∈ sitesOf exact.xyz row' := by
  obtain ⟨o1, L, e1, e2, e3, e4⟩ := C67_enough_room h hsafe hm hroom.k hroom.plain hroom.pm hroom.tm
  rw [ho] at e1; cases e1
  have hbox := safe_inBox hsafe
  have hj : ExactJob 4 hw' prm' L0 := h'.exactJob hbox
  obtain ⟨exact, f1, f2, -, f4⟩ := C64_enough_room hj hroom'.plain (by rw [hroom'.k]) hroom'.pm hroom'.tm
  refine ⟨exact, L, f1, e2, e3, f2, fun i i' p row row' hp hp' hr hr' => ?_⟩
  obtain ⟨r, a1, a2, a3⟩ := e4 i p hp
  obtain ⟨r', b1, b2, b3⟩ := f4 i' p hp'
  rw [hr.unique a1, hr'.unique b1]
  have hub : ∀ v ∈ exact.xyz, InUnitBox v := by
    intro v hv
    obtain ⟨⟨x0, x1⟩, ⟨y0, y1⟩, z0, z1⟩ := hbox v (f2.mem_iff.mp hv)
    exact ⟨⟨x0, x1.le⟩, ⟨y0, y1.le⟩, z0, z1.le⟩
  exact same_sites (e3.trans f2.symm) hp hp' a2 a3 b2
    (b3 (Margins.general hub hp' ((hm.perm f2.symm) i' p hp')))

end

/-- four points, in single precision with 3 cells and in exact arithmetic with 5 cells per direction -/
example : ∃ (out : TessOut F32) (exact : TessOut ℚ) (L : List (Pt ℚ)),
    tesellateCpu 4 8 ⟨3, 3, 9, 14, 0, 0, false, false⟩ (four.map toF32) = .ok out ∧
    tesellateCpu 4 8 ⟨3, 5, 9, 14, 1, 0, false, false⟩ four = .ok exact ∧ out.xyz = L.map toF32 ∧
    ∀ i i' p row row', L[i]? = some p → exact.xyz[i']? = some p → RowIs out.dnn i row →
      RowIs exact.dnn i' row' → ∀ q, q ∈ sitesOf L row ↔ q ∈ sitesOf exact.xyz row' := by
  have hsz : FloatSizes 8 ⟨3, 3, 9, 14, 0, 0, false, false⟩ :=
    ⟨by decide, by decide, by decide, by decide, by decide⟩
  have hsz' : FloatSizes 8 ⟨3, 5, 9, 14, 1, 0, false, false⟩ :=
    ⟨by decide, by decide, by decide, by decide, by decide⟩
  obtain ⟨out, L, h1, -⟩ := C67_enough_room (hw := 8) hsz (four_safe 3) four_margins (by decide) rfl
    (by decide) (by decide)
  obtain ⟨exact, L, g1, g2, -, -, g3⟩ := C70_same_as_exact hsz (four_safe 3)
    ⟨by decide, by decide, by decide, rfl⟩ hsz' ⟨by decide, by decide, by decide, rfl⟩ four_margins h1
  exact ⟨out, exact, L, h1, g1, g2, g3⟩

end Votess
