import Verif.Props.Flush
/-!
# C88 — adding points

Two calls, the second with some more points: the row of a point changes only if one of the added points is listed in
it.  So the result of the second call tells which rows of the first one are still valid.
-/
namespace Votess

section
variable {K : Type} [Field K] [LinearOrder K] [IsStrictOrderedRing K] [FloorRing K] [Inhabited K]

/-- the rows `row` of `p` among `L` and `row'` of `p` among `L'`, which are the points of `L` and those of `A` -/
theorem local_sites {X A L L' : List (Pt K)} (hL : L.Perm X) (hL' : L'.Perm (A ++ X)) {i i' : Nat} {p : Pt K}
    {row row' : List Int} (hp : L[i]? = some p) (hp' : L'[i']? = some p) (hc : CorrectRow L i p row)
    (he : ExactRow L i p row) (hc' : CorrectRow L' i' p row') (he' : ExactRow L' i' p row')
    (hA : ∀ a ∈ A, a ∉ sitesOf L' row') (q : Pt K) : q ∈ sitesOf L row ↔ q ∈ sitesOf L' row' := by
  have sub : ∀ r ∈ L, r ∈ L' := fun r hr => hL'.symm.subset (List.mem_append_right _ (hL.subset hr))
  have old : ∀ r ∈ sitesOf L' row', r ∈ L := by
    intro r hr
    have h1 := ((row_sites hc' he' hp' r).mp hr).1
    rcases List.mem_append.mp (hL'.subset h1) with h | h
    · exact absurd hr (hA r h)
    · exact hL.symm.subset h
  have cell : ∀ x, VoronoiCell p L x → VoronoiCell p L' x := fun x hx =>
    (hc'.cell x).mp ⟨hx.1, fun r hr => hx.2 r (old r hr)⟩
  constructor
  · intro hq
    obtain ⟨h1, h2, x, h3, h4⟩ := (row_sites hc he hp q).mp hq
    refine (row_sites hc' he' hp' q).mpr ⟨sub q h1, h2, x, cell x h3, h4.1, fun r hr => ?_⟩
    exact (h4.2 p (List.mem_of_getElem? hp)).trans ((cell x h3).2 r hr)
  · intro hq
    obtain ⟨-, h2, x, h3, h4⟩ := (row_sites hc' he' hp' q).mp hq
    exact (row_sites hc he hp q).mpr ⟨old q hq, h2, x, ⟨h3.1, fun r hr => h3.2 r (sub r hr)⟩, h4.1,
      fun r hr => h4.2 r (sub r hr)⟩

variable {nb hw nb' hw' : Nat} {prm prm' : Params} {xyz A : List (Pt K)}

/-- C88: exact arithmetic.  The two calls may have different parameters. -/
theorem C88_exact (h : ExactJob nb hw prm xyz) (hr : prm.useRecompute = false)
    (h' : ExactJob nb' hw' prm' (A ++ xyz)) (hr' : prm'.useRecompute = false)
    {out out' : TessOut K} (ho : tesellateCpu nb hw prm xyz = .ok out)
    (ho' : tesellateCpu nb' hw' prm' (A ++ xyz) = .ok out')
    (hc : out.report.srNotReached = 0 ∨ (xyz.length - 1 ≤ prm.k.toNat ∧ out.report.infBoundary = 0 ∧
          out.report.pOverflow = 0 ∧ out.report.tOverflow = 0))
    (hc' : out'.report.srNotReached = 0 ∨ ((A ++ xyz).length - 1 ≤ prm'.k.toNat ∧
          out'.report.infBoundary = 0 ∧ out'.report.pOverflow = 0 ∧ out'.report.tOverflow = 0))
    {i i' : Nat} {p : Pt K} (hp : out.xyz[i]? = some p) (hp' : out'.xyz[i']? = some p)
    (hgen : GeneralAt out.xyz i p) (hgen' : GeneralAt out'.xyz i' p) {row row' : List Int}
    (hrow : RowIs out.dnn i row) (hrow' : RowIs out'.dnn i' row') (hA : ∀ a ∈ A, a ∉ sitesOf out'.xyz row') (q : Pt K) :
    q ∈ sitesOf out.xyz row ↔ q ∈ sitesOf out'.xyz row' := by
  obtain ⟨o1, e1, p1, e2⟩ := C24_tessellation h hr
  rw [ho] at e1; cases e1
  obtain ⟨o2, f1, p2, f2⟩ := C24_tessellation h' hr'
  rw [ho'] at f1; cases f1
  obtain ⟨r, a1, a2, a3⟩ := e2 hc i p hp
  obtain ⟨r', b1, b2, b3⟩ := f2 hc' i' _ hp'
  obtain rfl := hrow.unique a1
  obtain rfl := hrow'.unique b1
  exact local_sites p1 p2 hp hp' a2 (a3 hgen) b2 (b3 hgen') hA q

end

section rounded
variable {hw hw' : Nat} {prm prm' : Params} {X A : List (Pt ℚ)}

/-- rows `d'` of `L'` without points of `A` are as the rows `d` of `L` -/
def SameWithout (A L L' : List (Pt ℚ)) (d d' : Dnn) : Prop :=
  ∀ i i' p, L[i]? = some p → L'[i']? = some p → ∃ row row', RowIs d i row ∧ RowIs d' i' row' ∧
    ((∀ a ∈ A, a ∉ sitesOf L' row') → ∀ q, q ∈ sitesOf L row ↔ q ∈ sitesOf L' row')

theorem same_without {L L' : List (Pt ℚ)} {d d' : Dnn} (hL : L.Perm X) (hL' : L'.Perm (A ++ X))
    (h : ∀ i p, L[i]? = some p → ∃ row, RowIs d i row ∧ CorrectRow L i p row ∧ ExactRow L i p row)
    (h' : ∀ i p, L'[i]? = some p → ∃ row, RowIs d' i row ∧ CorrectRow L' i p row ∧ ExactRow L' i p row) :
    SameWithout A L L' d d' := by
  intro i i' p hp hp'
  obtain ⟨row, a1, a2, a3⟩ := h i p hp
  obtain ⟨row', b1, b2, b3⟩ := h' i' _ hp'
  exact ⟨row, row', a1, b1, fun hA q => local_sites hL hL' hp hp' a2 a3 b2 b3 hA q⟩

/-- C88: single precision. -/
theorem C88_float (hX : InputOK X) (hX' : InputOK (A ++ X)) (hm : AllMarginsBy 2 X) (hm' : AllMarginsBy 2 (A ++ X))
    (h : FloatSizes hw prm) (hroom : Roomy prm X.length) (h' : FloatSizes hw' prm')
    (hroom' : Roomy prm' (A ++ X).length) :
    ∃ (out out' : TessOut F32) (L L' : List (Pt ℚ)), tesellateCpu 4 hw prm (X.map storePt) = .ok out ∧
      tesellateCpu 4 hw' prm' ((A ++ X).map storePt) = .ok out' ∧ out.xyz = L.map storePt ∧ L.Perm X ∧
      out'.xyz = L'.map storePt ∧ L'.Perm (A ++ X) ∧ SameWithout A L L' out.dnn out'.dnn := by
  obtain ⟨out, L, h1, h2, h3, h4⟩ := C71_enough_room h hX hm hroom
  obtain ⟨out', L', k1, k2, k3, k4⟩ := C71_enough_room h' hX' hm' hroom'
  exact ⟨out, out', L, L', h1, k1, h2, h3, k2, k3, same_without h3 k3 h4 k4⟩

/-- C88: products fused in any two ways, denormal numbers flushed to zero. -/
theorem C88_flush (ch ch' : Choice b32z) (hX : InputOK X) (hX' : InputOK (A ++ X)) (hm : AllMarginsBy 2 X)
    (hm' : AllMarginsBy 2 (A ++ X)) (h : FloatSizes hw prm) (hroom : Roomy prm X.length) (h' : FloatSizes hw' prm')
    (hroom' : Roomy prm' (A ++ X).length) :
    ∃ (out : TessOut (Fm ch)) (out' : TessOut (Fm ch')) (L L' : List (Pt ℚ)),
      tesellateCpu 4 hw prm (X.map (storeFm ch)) = .ok out ∧
      tesellateCpu 4 hw' prm' ((A ++ X).map (storeFm ch')) = .ok out' ∧ out.xyz = L.map (storeFm ch) ∧ L.Perm X ∧
      out'.xyz = L'.map (storeFm ch') ∧ L'.Perm (A ++ X) ∧ SameWithout A L L' out.dnn out'.dnn := by
  obtain ⟨out, L, h1, h2, h3, h4⟩ := C83_enough_room ch h hX hm hroom
  obtain ⟨out', L', k1, k2, k3, k4⟩ := C83_enough_room ch' h' hX' hm' hroom'
  exact ⟨out, out', L, L', h1, k1, h2, h3, k2, k3, same_without h3 k3 h4 k4⟩

/-- C88: every two executions on GPUs. -/
theorem C88_gpu (ch ch' : Choice b32) {nd nd' : Int} (hX : InputOK X) (hX' : InputOK (A ++ X)) (hm : AllMarginsBy 2 X)
    (hm' : AllMarginsBy 2 (A ++ X)) (h : FloatSizes hw prm) (hroom : Roomy prm X.length) (hgr : prm.gr ≤ 255)
    (htm : prm.tm ≤ 254) (hu : Unchunked prm X.length) (h' : FloatSizes hw' prm') (hroom' : Roomy prm' (A ++ X).length)
    (hgr' : prm'.gr ≤ 255) (htm' : prm'.tm ≤ 254) (hu' : Unchunked prm' (A ++ X).length)
    {out : TessOut (Fm ch)} (ho : TesellateGpu 4 hw nd true prm (X.map (storeFm ch)) out)
    {out' : TessOut (Fm ch')} (ho' : TesellateGpu 4 hw' nd' true prm' ((A ++ X).map (storeFm ch')) out') :
    ∃ L L' : List (Pt ℚ), out.xyz = L.map (storeFm ch) ∧ L.Perm X ∧ out'.xyz = L'.map (storeFm ch') ∧
      L'.Perm (A ++ X) ∧ SameWithout A L L' out.dnn out'.dnn := by
  obtain ⟨L, h2, h3, h4⟩ := C75_gpu ch h hX hm hroom hgr htm hu ho
  obtain ⟨L', k2, k3, k4⟩ := C75_gpu ch' h' hX' hm' hroom' hgr' htm' hu' ho'
  exact ⟨L, L', h2, h3, k2, k3, same_without h3 k3 h4 k4⟩

/-- C88: double precision coordinates. -/
theorem C88_double (hX : InputOK X) (hX' : InputOK (A ++ X)) (hm : AllMarginsBy (2 / 2 ^ 29) X)
    (hm' : AllMarginsBy (2 / 2 ^ 29) (A ++ X)) (h : FloatSizes hw prm) (hroom : Roomy prm X.length)
    (h' : FloatSizes hw' prm') (hroom' : Roomy prm' (A ++ X).length) :
    ∃ (out out' : TessOut Dbl) (L L' : List (Pt ℚ)), tesellateCpu 4 hw prm (X.map storeDbl) = .ok out ∧
      tesellateCpu 4 hw' prm' ((A ++ X).map storeDbl) = .ok out' ∧ out.xyz = L.map storeDbl ∧ L.Perm X ∧
      out'.xyz = L'.map storeDbl ∧ L'.Perm (A ++ X) ∧ SameWithout A L L' out.dnn out'.dnn := by
  obtain ⟨out, L, h1, h2, h3, h4⟩ := C77_enough_room h hX hm hroom
  obtain ⟨out', L', k1, k2, k3, k4⟩ := C77_enough_room h' hX' hm' hroom'
  exact ⟨out, out', L, L', h1, k1, h2, h3, k2, k3, same_without h3 k3 h4 k4⟩

end rounded

/-! ### example: a fourth point -/

theorem tiny3_input : InputOK tiny4.tail := fun p hp => tiny4_input p (List.mem_of_mem_tail hp)

set_option maxRecDepth 100000 in
theorem tiny3_margins : AllMarginsBy 2 tiny4.tail :=
  (allMarginsB_sound (by decide +kernel)).margins two_pos (input_box tiny3_input)

example : ∃ (out out' : TessOut F32) (L L' : List (Pt ℚ)),
    tesellateCpu 4 8 ⟨2, 3, 9, 14, 0, 0, false, false⟩ (tiny4.tail.map storePt) = .ok out ∧
    tesellateCpu 4 8 ⟨3, 3, 9, 14, 0, 0, false, false⟩ ((tiny4.take 1 ++ tiny4.tail).map storePt) = .ok out' ∧
    out.xyz = L.map storePt ∧ L.Perm tiny4.tail ∧ out'.xyz = L'.map storePt ∧
    L'.Perm (tiny4.take 1 ++ tiny4.tail) ∧
    SameWithout (tiny4.take 1) L L' out.dnn out'.dnn :=
  C88_float tiny3_input tiny4_input tiny3_margins tiny4_margins
    ⟨by decide, by decide, by decide, by decide, by decide⟩ ⟨by decide, by decide, by decide, rfl⟩ tiny4_sizes tiny4_room

/-! ### the condition can be met, and is needed -/

/-- three points in a row, the third one hidden from the first by the second -/
def inRow : List (Pt ℚ) := [⟨1 / 8, 1 / 2, 1 / 2⟩, ⟨1 / 2, 1 / 2, 1 / 2⟩, ⟨7 / 8, 1 / 2, 1 / 2⟩]

set_option maxRecDepth 100000 in
theorem inRow_two : sglRunIs F32 (onePrm 2) (inRow.take 2) [[1], [0]] = true := by decide +kernel

set_option maxRecDepth 100000 in
theorem inRow_three : sglRunIs F32 (onePrm 2) inRow [[1], [0, 2], [1]] = true := by decide +kernel

theorem inRow_safe : Sgl.Safe F32 (onePrm 2).gr inRow := by
  intro v hv
  have h : ∀ p ∈ inRow, (0 ≤ p.x ∧ p.x ≤ 1 - 1 / 2 ^ 23) ∧ (0 ≤ p.y ∧ p.y ≤ 1 - 1 / 2 ^ 23) ∧
      (0 ≤ p.z ∧ p.z ≤ 1 - 1 / 2 ^ 23) := by decide +kernel
  obtain ⟨hx, hy, hz⟩ := h v hv
  have key : ∀ {x : ℚ}, 0 ≤ x ∧ x ≤ 1 - 1 / 2 ^ 23 → (0 ≤ x ∧ x ≤ 1) ∧ gcoordF (Sgl.fmt F32) 1 x < 1 :=
    fun h => ⟨⟨h.1, h.2.trans (by norm_num)⟩, Sgl.wide.gcoord_lt (by decide) (by decide) h.1 h.2⟩
  exact ⟨(key hx).1, (key hy).1, (key hz).1, (key hx).2, (key hy).2, (key hz).2⟩

/-- C88: when a third point is added behind the second one, the row of the first point stays as it was and that of the
second point, which lists the third, does not. -/
theorem C88_changed (hw : Nat) : ∃ out out' : TessOut F32,
    tesellateCpu 4 hw (onePrm 2) ((inRow.take 2).map Sgl.toS) = .ok out ∧
    tesellateCpu 4 hw (onePrm 2) (inRow.map Sgl.toS) = .ok out' ∧
    RowIs out.dnn 0 [1] ∧ RowIs out'.dnn 0 [1] ∧ RowIs out.dnn 1 [0] ∧ RowIs out'.dnn 1 [0, 2] := by
  obtain ⟨out, h1, -, h3⟩ := sglRunIs_call (onePrm_sizes (k := 2) (by decide) (by decide) hw)
    (fun v hv => inRow_safe v (List.mem_of_mem_take hv)) rfl inRow_two
  obtain ⟨out', k1, -, k3⟩ := sglRunIs_call (onePrm_sizes (k := 2) (by decide) (by decide) hw) inRow_safe rfl inRow_three
  exact ⟨out, out', h1, k1, h3 0 _ rfl, k3 0 _ rfl, h3 1 _ rfl, k3 1 _ rfl⟩

end Votess
