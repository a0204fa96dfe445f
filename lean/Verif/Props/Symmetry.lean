import Verif.Proofs.General
import Verif.Props.Flush
/-!
# C86 — exchanging or reflecting axes

The code treats the three axes and the two directions of each differently: cell numbers, the order of the shells and
the initial box are not symmetric.  The neighbours found are.
-/
namespace Votess

section
variable {K : Type} [Field K] [LinearOrder K] [IsStrictOrderedRing K] [FloorRing K] [Inhabited K]

theorem sym_sites {g : Pt K → Pt K} (hg : CubeSym g) {X L L' : List (Pt K)} (hL : L.Perm X) (hL' : L'.Perm (X.map g))
    {i i' : Nat} {p : Pt K} {row row' : List Int} (hp : L[i]? = some p) (hp' : L'[i']? = some (g p))
    (hc : CorrectRow L i p row) (he : ExactRow L i p row) (hc' : CorrectRow L' i' (g p) row')
    (he' : ExactRow L' i' (g p) row') (q : Pt K) : q ∈ sitesOf L row ↔ g q ∈ sitesOf L' row' := by
  obtain ⟨G, hG⟩ := hg.iso
  rw [row_sites hc he hp, row_sites hc' he' hp']
  have hm : ∀ r, r ∈ L' ↔ r ∈ L.map g := fun r => (hL'.trans (hL.symm.map g)).mem_iff
  have ht : ∀ a b, Touch L' a b ↔ Touch (L.map g) a b := fun a b => by
    unfold Touch; simp only [voronoiCell_congr hm]
  rw [ht, hG.touch, hm, List.mem_map_of_injective hG.inj, hG.inj.ne_iff]

variable {nb hw nb' hw' : Nat} {prm prm' : Params} {xyz : List (Pt K)} {g : Pt K → Pt K}

/-- C86: exact arithmetic.  The two calls may have different parameters; general position of one of the two cells is
that of the other. -/
theorem C86_exact (hg : CubeSym g) (h : ExactJob nb hw prm xyz) (hr : prm.useRecompute = false)
    (h' : ExactJob nb' hw' prm' (xyz.map g)) (hr' : prm'.useRecompute = false)
    {out out' : TessOut K} (ho : tesellateCpu nb hw prm xyz = .ok out)
    (ho' : tesellateCpu nb' hw' prm' (xyz.map g) = .ok out')
    (hc : out.report.srNotReached = 0 ∨ (xyz.length - 1 ≤ prm.k.toNat ∧ out.report.infBoundary = 0 ∧
          out.report.pOverflow = 0 ∧ out.report.tOverflow = 0))
    (hc' : out'.report.srNotReached = 0 ∨ ((xyz.map g).length - 1 ≤ prm'.k.toNat ∧
          out'.report.infBoundary = 0 ∧ out'.report.pOverflow = 0 ∧ out'.report.tOverflow = 0))
    {i i' : Nat} {p : Pt K} (hp : out.xyz[i]? = some p) (hp' : out'.xyz[i']? = some (g p))
    (hgen : GeneralAt out.xyz i p) {row row' : List Int}
    (hrow : RowIs out.dnn i row) (hrow' : RowIs out'.dnn i' row') (q : Pt K) :
    q ∈ sitesOf out.xyz row ↔ g q ∈ sitesOf out'.xyz row' := by
  obtain ⟨o1, e1, p1, e2⟩ := C24_tessellation h hr
  rw [ho] at e1; cases e1
  obtain ⟨o2, f1, p2, f2⟩ := C24_tessellation h' hr'
  rw [ho'] at f1; cases f1
  obtain ⟨r, a1, a2, a3⟩ := e2 hc i p hp
  obtain ⟨r', b1, b2, b3⟩ := f2 hc' i' _ hp'
  have hgen' : GeneralAt out'.xyz i' (g p) :=
    (hg.general hgen).perm ((p1.map g).trans p2.symm) (by rw [List.getElem?_map, hp]; rfl) hp'
  rw [hrow.unique a1, hrow'.unique b1]
  exact sym_sites hg p1 p2 hp hp' a2 (a3 hgen) b2 (b3 hgen') q

end

section rounded
variable {hw hw' : Nat} {prm prm' : Params} {X : List (Pt ℚ)} {g : Pt ℚ → Pt ℚ}

/-- the rows `d` of `L` and `d'` of the images `L'` say the same -/
def SameUnder (g : Pt ℚ → Pt ℚ) (L L' : List (Pt ℚ)) (d d' : Dnn) : Prop :=
  ∀ i i' p, L[i]? = some p → L'[i']? = some (g p) → ∃ row row', RowIs d i row ∧ RowIs d' i' row' ∧
    ∀ q, q ∈ sitesOf L row ↔ g q ∈ sitesOf L' row'

theorem same_under {L L' : List (Pt ℚ)} {d d' : Dnn} (hg : CubeSym g) (hL : L.Perm X) (hL' : L'.Perm (X.map g))
    (h : ∀ i p, L[i]? = some p → ∃ row, RowIs d i row ∧ CorrectRow L i p row ∧ ExactRow L i p row)
    (h' : ∀ i p, L'[i]? = some p → ∃ row, RowIs d' i row ∧ CorrectRow L' i p row ∧ ExactRow L' i p row) :
    SameUnder g L L' d d' := by
  intro i i' p hp hp'
  obtain ⟨row, a1, a2, a3⟩ := h i p hp
  obtain ⟨row', b1, b2, b3⟩ := h' i' _ hp'
  exact ⟨row, row', a1, b1, fun q => sym_sites hg hL hL' hp hp' a2 a3 b2 b3 q⟩

/-- C86: points with margins still have them after a symmetry of the box. -/
theorem C86_margins (hg : CubeSym g) {m : ℚ} (h : AllMarginsBy m X) : AllMarginsBy m (X.map g) := by
  obtain ⟨G, hG⟩ := hg.iso
  exact hG.all_margins h

/-- C86: general position is kept, too. -/
theorem C86_general {K : Type} [Field K] [LinearOrder K] [IsStrictOrderedRing K] {g : Pt K → Pt K} (hg : CubeSym g)
    {L L' : List (Pt K)} (hL : L'.Perm (L.map g)) {i i' : Nat} {p : Pt K} (hp : L[i]? = some p)
    (hp' : L'[i']? = some (g p)) (h : GeneralAt L i p) : GeneralAt L' i' (g p) :=
  (hg.general h).perm hL.symm (by rw [List.getElem?_map, hp]; rfl) hp'

/-- C86: single precision. -/
theorem C86_float (hg : CubeSym g) (hX : InputOK X) (hX' : InputOK (X.map g)) (hm : AllMarginsBy 2 X)
    (h : FloatSizes hw prm) (hroom : Roomy prm X.length) (h' : FloatSizes hw' prm') (hroom' : Roomy prm' X.length) :
    ∃ (out out' : TessOut F32) (L L' : List (Pt ℚ)), tesellateCpu 4 hw prm (X.map storePt) = .ok out ∧
      tesellateCpu 4 hw' prm' ((X.map g).map storePt) = .ok out' ∧ out.xyz = L.map storePt ∧ L.Perm X ∧
      out'.xyz = L'.map storePt ∧ L'.Perm (X.map g) ∧ SameUnder g L L' out.dnn out'.dnn := by
  obtain ⟨out, L, h1, h2, h3, h4⟩ := C71_enough_room h hX hm hroom
  obtain ⟨out', L', k1, k2, k3, k4⟩ := C71_enough_room h' hX' (C86_margins hg hm) (by rw [List.length_map]; exact hroom')
  exact ⟨out, out', L, L', h1, k1, h2, h3, k2, k3, same_under hg h3 k3 h4 k4⟩

/-- C86: products fused in any two ways, denormal numbers flushed to zero. -/
theorem C86_flush (ch ch' : Choice b32z) (hg : CubeSym g) (hX : InputOK X) (hX' : InputOK (X.map g))
    (hm : AllMarginsBy 2 X) (h : FloatSizes hw prm) (hroom : Roomy prm X.length) (h' : FloatSizes hw' prm')
    (hroom' : Roomy prm' X.length) :
    ∃ (out : TessOut (Fm ch)) (out' : TessOut (Fm ch')) (L L' : List (Pt ℚ)),
      tesellateCpu 4 hw prm (X.map (storeFm ch)) = .ok out ∧
      tesellateCpu 4 hw' prm' ((X.map g).map (storeFm ch')) = .ok out' ∧ out.xyz = L.map (storeFm ch) ∧ L.Perm X ∧
      out'.xyz = L'.map (storeFm ch') ∧ L'.Perm (X.map g) ∧ SameUnder g L L' out.dnn out'.dnn := by
  obtain ⟨out, L, h1, h2, h3, h4⟩ := C83_enough_room ch h hX hm hroom
  obtain ⟨out', L', k1, k2, k3, k4⟩ := C83_enough_room ch' h' hX' (C86_margins hg hm)
    (by rw [List.length_map]; exact hroom')
  exact ⟨out, out', L, L', h1, k1, h2, h3, k2, k3, same_under hg h3 k3 h4 k4⟩

/-- C86: every two executions on GPUs. -/
theorem C86_gpu (ch ch' : Choice b32) {nd nd' : Int} (hg : CubeSym g) (hX : InputOK X) (hX' : InputOK (X.map g))
    (hm : AllMarginsBy 2 X) (h : FloatSizes hw prm) (hroom : Roomy prm X.length) (hgr : prm.gr ≤ 255)
    (htm : prm.tm ≤ 254) (hu : Unchunked prm X.length) (h' : FloatSizes hw' prm') (hroom' : Roomy prm' X.length)
    (hgr' : prm'.gr ≤ 255) (htm' : prm'.tm ≤ 254) (hu' : Unchunked prm' X.length)
    {out : TessOut (Fm ch)} (ho : TesellateGpu 4 hw nd true prm (X.map (storeFm ch)) out)
    {out' : TessOut (Fm ch')} (ho' : TesellateGpu 4 hw' nd' true prm' ((X.map g).map (storeFm ch')) out') :
    ∃ L L' : List (Pt ℚ), out.xyz = L.map (storeFm ch) ∧ L.Perm X ∧ out'.xyz = L'.map (storeFm ch') ∧
      L'.Perm (X.map g) ∧ SameUnder g L L' out.dnn out'.dnn := by
  obtain ⟨L, h2, h3, h4⟩ := C75_gpu ch h hX hm hroom hgr htm hu ho
  obtain ⟨L', k2, k3, k4⟩ := C75_gpu ch' h' hX' (C86_margins hg hm) (by rw [List.length_map]; exact hroom') hgr' htm'
    (by rw [List.length_map]; exact hu') ho'
  exact ⟨L, L', h2, h3, k2, k3, same_under hg h3 k3 h4 k4⟩

/-- C86: double precision coordinates. -/
theorem C86_double (hg : CubeSym g) (hX : InputOK X) (hX' : InputOK (X.map g)) (hm : AllMarginsBy (2 / 2 ^ 29) X)
    (h : FloatSizes hw prm) (hroom : Roomy prm X.length) (h' : FloatSizes hw' prm') (hroom' : Roomy prm' X.length) :
    ∃ (out out' : TessOut Dbl) (L L' : List (Pt ℚ)), tesellateCpu 4 hw prm (X.map storeDbl) = .ok out ∧
      tesellateCpu 4 hw' prm' ((X.map g).map storeDbl) = .ok out' ∧ out.xyz = L.map storeDbl ∧ L.Perm X ∧
      out'.xyz = L'.map storeDbl ∧ L'.Perm (X.map g) ∧ SameUnder g L L' out.dnn out'.dnn := by
  obtain ⟨out, L, h1, h2, h3, h4⟩ := C77_enough_room h hX hm hroom
  obtain ⟨out', L', k1, k2, k3, k4⟩ := C77_enough_room h' hX' (C86_margins hg hm) (by rw [List.length_map]; exact hroom')
  exact ⟨out, out', L, L', h1, k1, h2, h3, k2, k3, same_under hg h3 k3 h4 k4⟩

end rounded

/-! ### example: four points, the second axis reflected and the first and third exchanged; other parameters -/

/-- made of exchanges and one reflection -/
def turned (p : Pt ℚ) : Pt ℚ := swapYZ (swapXY (flipX (swapXY p)))

theorem turned_sym : CubeSym turned := .swapYZ (.swapXY (.flipX (.swapXY .id)))

example : turned ⟨1 / 5, 1 / 3, 1 / 7⟩ = ⟨1 / 5, 1 / 7, 2 / 3⟩ := by norm_num [turned, swapXY, swapYZ, flipX]

theorem tiny4_turned : InputOK (tiny4.map turned) := by
  intro p hp
  simp only [tiny4, List.map_cons, List.map_nil, List.mem_cons, List.not_mem_nil, or_false, turned, swapXY, swapYZ,
    flipX] at hp
  rcases hp with rfl | rfl | rfl | rfl <;> norm_num

example : ∃ (out out' : TessOut F32) (L L' : List (Pt ℚ)),
    tesellateCpu 4 8 ⟨3, 3, 9, 14, 0, 0, false, false⟩ (tiny4.map storePt) = .ok out ∧
    tesellateCpu 4 8 ⟨3, 7, 20, 36, 0, 0, false, false⟩ ((tiny4.map turned).map storePt) = .ok out' ∧
    out.xyz = L.map storePt ∧ L.Perm tiny4 ∧ out'.xyz = L'.map storePt ∧ L'.Perm (tiny4.map turned) ∧
    SameUnder turned L L' out.dnn out'.dnn :=
  C86_float turned_sym tiny4_input tiny4_turned tiny4_margins tiny4_sizes tiny4_room
    ⟨by decide, by decide, by decide, by decide, by decide⟩ ⟨by decide, by decide, by decide, rfl⟩

/-- exact arithmetic: two points, the second and third axis exchanged -/
example : CubeSym (swapYZ : Pt ℚ → Pt ℚ) ∧ ∃ out out' : TessOut ℚ, tesellateCpu 4 1 exPrm exXyz = .ok out ∧
    tesellateCpu 4 1 exPrm (exXyz.map swapYZ) = .ok out' ∧
    ∀ row row', RowIs out.dnn 0 row → RowIs out'.dnn 0 row' → ∀ q,
      q ∈ sitesOf out.xyz row ↔ swapYZ q ∈ sitesOf out'.xyz row' := by
  have hs : CubeSym (swapYZ : Pt ℚ → Pt ℚ) := .swapYZ .id
  obtain ⟨out, h1, h2, -, h4⟩ := exRun
  have e : exXyz.map swapYZ = exXyz := rfl
  refine ⟨hs, out, out, h1, by rw [e]; exact h1, fun row row' hr hr' q => ?_⟩
  exact C86_exact hs exJob rfl (by rw [e]; exact exJob) rfl h1 (by rw [e]; exact h1) (Or.inr (by rw [h4]; decide))
    (Or.inr (by rw [h4]; decide)) (p := ⟨1/4, 1/2, 1/2⟩) (by rw [h2]; rfl) (by rw [h2]; rfl)
    (by rw [h2]; exact cell_general) hr hr' q

end Votess
