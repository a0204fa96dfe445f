import Verif.Props.Flush
import Verif.Props.Readme
/-!
# C89 — all the ways to compute a tessellation agree

The same points can be handed to a program compiled for `float` or `double`, with or without fused products or
denormal numbers, to a GPU or to the Python module, each with its own parameters, number of processors and
work-group size.  The neighbours found are the same.
-/
namespace Votess

section
variable {X : List (Pt ℚ)}

/-- `Computed X P R`: some way to compute the tessellation of `X` has ended with a table in which `R i row` says that
`row` is row `i`; of the order `L` of the points that the rows are about, `P L` is known. -/
inductive Computed (X : List (Pt ℚ)) : (List (Pt ℚ) → Prop) → (Nat → List Int → Prop) → Prop
  | float {hw : Nat} {prm : Params} {out : TessOut F32} (h : FloatSizes hw prm) (hroom : Ample prm X)
      (ho : tesellateCpu 4 hw prm (X.map storePt) = .ok out) :
      Computed X (fun L => out.xyz = L.map storePt) (RowIs out.dnn)
  | fused (ch : Choice b32) {hw : Nat} {prm : Params} {out : TessOut (Fm ch)} (h : FloatSizes hw prm)
      (hroom : Ample prm X) (ho : tesellateCpu 4 hw prm (X.map (storeFm ch)) = .ok out) :
      Computed X (fun L => out.xyz = L.map (storeFm ch)) (RowIs out.dnn)
  | flushed (ch : Choice b32z) {hw : Nat} {prm : Params} {out : TessOut (Fm ch)} (h : FloatSizes hw prm)
      (hroom : Ample prm X) (ho : tesellateCpu 4 hw prm (X.map (storeFm ch)) = .ok out) :
      Computed X (fun L => out.xyz = L.map (storeFm ch)) (RowIs out.dnn)
  | double {hw : Nat} {prm : Params} {out : TessOut Dbl} (h : FloatSizes hw prm) (hroom : Ample prm X)
      (ho : tesellateCpu 4 hw prm (X.map storeDbl) = .ok out) :
      Computed X (fun L => out.xyz = L.map storeDbl) (RowIs out.dnn)
  | gpu (ch : Choice b32) {hw : Nat} {ndsize : Int} {prm : Params} {out : TessOut (Fm ch)} (h : FloatSizes hw prm)
      (hroom : Roomy prm X.length) (hgr : prm.gr ≤ 255) (htm : prm.tm ≤ 254) (hu : Unchunked prm X.length)
      (ho : TesellateGpu 4 hw ndsize true prm (X.map (storeFm ch)) out) :
      Computed X (fun L => out.xyz = L.map (storeFm ch)) (RowIs out.dnn)
  | gpuFlushed (ch : Choice b32z) {hw : Nat} {ndsize : Int} {prm : Params} {out : TessOut (Fm ch)}
      (h : FloatSizes hw prm) (hroom : Roomy prm X.length) (hgr : prm.gr ≤ 255) (htm : prm.tm ≤ 254)
      (hu : Unchunked prm X.length) (ho : TesellateGpu 4 hw ndsize true prm (X.map (storeFm ch)) out) :
      Computed X (fun L => out.xyz = L.map (storeFm ch)) (RowIs out.dnn)
  | gpuDouble (ch : Choice b64) {hw : Nat} {ndsize : Int} {prm : Params} {out : TessOut (Fm ch)}
      (h : FloatSizes hw prm) (hroom : Roomy prm X.length) (hgr : prm.gr ≤ 255) (htm : prm.tm ≤ 254)
      (hu : Unchunked prm X.length) (ho : TesellateGpu 4 hw ndsize true prm (X.map (storeFm ch)) out) :
      Computed X (fun L => out.xyz = L.map (storeFm ch)) (RowIs out.dnn)
  | python (ch : Choice b32) {hw : Nat} {found : Bool} {dev : Device} {m : ArgMap} {prm : Params} {d : Dnn}
      (hp : m.params = .ok prm) (h : FloatSizes hw prm) (hroom : Ample prm X) (hn : X.length ≤ 8000000)
      (hr : prm.useRecompute = false) (hgr : prm.gr ≤ 255) (htm : prm.tm ≤ 254) (hu : Unchunked prm X.length)
      (hd : PyResult ch hw found dev m (X.map pyLit) d) :
      Computed X (fun L => InOrder prm.gr ((X.map pyLit).map (pyStore ch)) → L = X) (PyRow d)

section
variable {F : Type} [FP F (WithTop ℚ)] [Sgl F] [Inhabited F] {hw : Nat} {prm : Params}

theorem Sgl.in_ample (h : FloatSizes hw prm) (hX : InputOK X) (hm : AllMarginsBy (2 * om F) X)
    (hcl : ∀ k, 1 ≤ k → AllClear F (2 * om F) k X) (hroom : Ample prm X) :
    ∃ (out : TessOut F) (L : List (Pt ℚ)), tesellateCpu 4 hw prm (X.map (storeS : Pt ℚ → Pt F)) = .ok out ∧
      out.xyz = L.map storeS ∧ L.Perm X ∧
      ∀ i p, L[i]? = some p → ∃ row, RowIs out.dnn i row ∧ CorrectRow L i p row ∧ ExactRow L i p row := by
  rcases hroom with hroom | hroom | ⟨hroom, he⟩
  · exact in_enough_room h hX hm hroom
  · exact in_recompute h hX hcl hroom.k hroom.again hroom.pm hroom.tm
  · obtain ⟨out, L, h1, h2, h3, h4, -⟩ := in_enough_local (F := F) h hX hroom.k hroom.plain hroom.pm hroom.tm
    exact ⟨out, L, h1, h2, h3, fun i p hp => h4 i p hp
      ((hcl _ (by have := h.k; omega)).perm h3.symm i p hp) (he.perm h3.symm i p hp)⟩

end

/-- C89: each of them lists for every point exactly the points whose cells touch its cell. -/
theorem C89_exact {P : List (Pt ℚ) → Prop} {R : Nat → List Int → Prop} (hX : InputOK X)
    (hm : AllMarginsBy (2 + 1 / 2 ^ 29) X) (hc : Computed X P R) :
    ∃ L : List (Pt ℚ), P L ∧ L.Perm X ∧
      ∀ i p, L[i]? = some p → ∃ row, R i row ∧ CorrectRow L i p row ∧ ExactRow L i p row := by
  have hm2 : AllMarginsBy 2 X := hm.mono (by norm_num) (by norm_num)
  have hm64 : AllMarginsBy (2 / 2 ^ 29) X := hm.mono (by norm_num) (by norm_num)
  cases hc with
  | @float hw prm out h hroom ho =>
    have e : 2 * Sgl.om F32 = 2 := mul_one 2
    obtain ⟨o, L, h1, h2, h3, h4⟩ := Sgl.in_ample (F := F32) h hX (by rw [e]; exact hm2)
      (fun k hk => by rw [e]; exact Sgl.AllClear.of rfl (by norm_num) hk hm2) hroom
    have h1' : tesellateCpu 4 hw prm (X.map storePt) = .ok o := h1
    rw [ho] at h1'; cases h1'
    exact ⟨L, h2, h3, h4⟩
  | @fused ch hw prm out h hroom ho =>
    obtain ⟨o, L, h1, h2, h3, h4⟩ := Sgl.in_ample (F := Fm ch) h hX (by rw [fm32_two]; exact hm2)
      (fun k hk => fm32_clear hk hm2) hroom
    have h1' : tesellateCpu 4 hw prm (X.map (storeFm ch)) = .ok o := h1
    rw [ho] at h1'; cases h1'
    exact ⟨L, h2, h3, h4⟩
  | @flushed ch hw prm out h hroom ho =>
    obtain ⟨o, L, h1, h2, h3, h4⟩ := Sgl.in_ample (F := Fm ch) h hX (by rw [fm32z_two]; exact hm2)
      (fun k hk => fm32z_clear hk hm2) hroom
    have h1' : tesellateCpu 4 hw prm (X.map (storeFm ch)) = .ok o := h1
    rw [ho] at h1'; cases h1'
    exact ⟨L, h2, h3, h4⟩
  | @double hw prm out h hroom ho =>
    obtain ⟨o, L, h1, h2, h3, h4⟩ := Sgl.in_ample (F := Dbl) h hX (by rw [dbl_two]; exact hm64)
      (fun k hk => dbl_clear hm64 ((hm.mono (ν := 1 + 1 / 2 ^ 29) (by norm_num) (by norm_num)).allCut hk (by norm_num)))
      hroom
    have h1' : tesellateCpu 4 hw prm (X.map storeDbl) = .ok o := h1
    rw [ho] at h1'; cases h1'
    exact ⟨L, h2, h3, h4⟩
  | gpu ch h hroom hgr htm hu ho =>
    obtain ⟨L, h2, h3, h4⟩ := C75_gpu ch h hX hm2 hroom hgr htm hu ho
    exact ⟨L, h2, h3, h4⟩
  | gpuFlushed ch h hroom hgr htm hu ho =>
    obtain ⟨L, h2, h3, h4⟩ := C83_gpu ch h hX hm2 hroom hgr htm hu ho
    exact ⟨L, h2, h3, h4⟩
  | gpuDouble ch h hroom hgr htm hu ho =>
    obtain ⟨L, h2, h3, h4⟩ := C77_gpu ch h hX hm64 hroom hgr htm hu ho
    exact ⟨L, h2, h3, h4⟩
  | python ch hp h hroom hn hr hgr htm hu hd =>
    obtain ⟨L, h3, h2, -, h4⟩ := C79_any_device hp h hX hm hroom hn hr hgr htm hu hd
    exact ⟨L, h2, h3, h4⟩

/-- C89: any two of them find the same neighbours of every point. -/
theorem C89_agree {P P' : List (Pt ℚ) → Prop} {R R' : Nat → List Int → Prop} (hX : InputOK X)
    (hm : AllMarginsBy (2 + 1 / 2 ^ 29) X) (hc : Computed X P R) (hc' : Computed X P' R') :
    ∃ L L' : List (Pt ℚ), P L ∧ P' L' ∧ L.Perm X ∧ L'.Perm X ∧
      ∀ i i' p, L[i]? = some p → L'[i']? = some p → ∃ row row', R i row ∧ R' i' row' ∧
        ∀ q, q ∈ sitesOf L row ↔ q ∈ sitesOf L' row' := by
  obtain ⟨L, h1, h2, h3⟩ := C89_exact hX hm hc
  obtain ⟨L', k1, k2, k3⟩ := C89_exact hX hm hc'
  refine ⟨L, L', h1, k1, h2, k2, fun i i' p hp hp' => ?_⟩
  obtain ⟨row, a1, a2, a3⟩ := h3 i p hp
  obtain ⟨row', b1, b2, b3⟩ := k3 i' p hp'
  exact ⟨row, row', a1, b1, same_sites (h2.trans k2.symm) hp hp' a2 a3 b2 b3⟩

/-- C89: two of them that return the points in the same order have the same entries in every row. -/
theorem C89_same_order {P P' : List (Pt ℚ) → Prop} {R R' : Nat → List Int → Prop} (hX : InputOK X)
    (hm : AllMarginsBy (2 + 1 / 2 ^ 29) X) (hc : Computed X P R) (hc' : Computed X P' R')
    (hord : ∀ L L', P L → P' L' → L.Perm X → L'.Perm X → L = L') :
    ∃ L : List (Pt ℚ), P L ∧ P' L ∧ L.Perm X ∧
      ∀ i, i < X.length → ∃ row row', R i row ∧ R' i row' ∧ ∀ v : Int, v ∈ row ↔ v ∈ row' := by
  obtain ⟨L, h1, h2, h3⟩ := C89_exact hX hm hc
  obtain ⟨L', k1, k2, k3⟩ := C89_exact hX hm hc'
  obtain rfl := hord L L' h1 k1 h2 k2
  refine ⟨L, h1, k1, h2, fun i hi => ?_⟩
  have hi' : i < L.length := by rw [h2.length_eq]; exact hi
  have hp : L[i]? = some L[i] := List.getElem?_eq_getElem hi'
  obtain ⟨row, a1, a2, a3⟩ := h3 i _ hp
  obtain ⟨row', b1, b2, b3⟩ := k3 i _ hp
  refine ⟨row, row', a1, b1, fun v => ?_⟩
  constructor
  · intro hv
    obtain ⟨w, q, rfl, -⟩ := a2.touch v hv
    exact (b3 w).mpr ((a3 w).mp hv)
  · intro hv
    obtain ⟨w, q, rfl, -⟩ := b2.touch v hv
    exact (a3 w).mpr ((b3 w).mp hv)

end

/-- the ten points of the README: the call in double precision with resolution 2 and the call from Python, on a GPU
if there is one, with resolution 1 -/
example (ch : Choice b32) (found : Bool) : ∃ (out : TessOut Dbl) (d : Dnn),
    Computed readmePts (fun L => out.xyz = L.map storeDbl) (RowIs out.dnn) ∧
    Computed readmePts (fun L => InOrder 1 ((readmePts.map pyLit).map (pyStore ch)) → L = readmePts) (PyRow d) ∧
    ∃ L L' : List (Pt ℚ), out.xyz = L.map storeDbl ∧ L' = readmePts ∧ L.Perm readmePts ∧
      ∀ i i' p, L[i]? = some p → L'[i']? = some p → ∃ row row', RowIs out.dnn i row ∧ PyRow d i' row' ∧
        ∀ q, q ∈ sitesOf L row ↔ q ∈ sitesOf L' row' := by
  have hm : AllMarginsBy (2 + 1 / 2 ^ 29) readmePts := readme_margins.mono (by norm_num) (by norm_num)
  have hs : FloatSizes 1 ⟨9, 2, 32, 32, 0, 0, false, false⟩ := by constructor <;> simp
  have hs' : FloatSizes 1 ⟨9, 1, 32, 32, 0, 0, false, false⟩ := by constructor <;> simp
  have hroom : Roomy ⟨9, 2, 32, 32, 0, 0, false, false⟩ readmePts.length := by constructor <;> simp [readmePts]
  have hroom' : Roomy ⟨9, 1, 32, 32, 0, 0, false, false⟩ readmePts.length := by constructor <;> simp [readmePts]
  obtain ⟨out, -, ho, -⟩ := C77_enough_room hs readme_input (hm.mono (by norm_num) (by norm_num)) hroom
  obtain ⟨m', e, ⟨d, hd⟩, -⟩ := C80_python ch (hw := 1) le_rfl found .gpu
  have hp' : m'.params = .ok ⟨9, 1, 32, 32, 0, 0, false, false⟩ := by
    obtain ⟨m2, e2, h2, -⟩ := readmePy_params
    rw [e] at e2; cases e2; exact h2
  have c1 : Computed readmePts _ _ := .double hs (.inl hroom) ho
  have c2 : Computed readmePts _ _ :=
    .python ch hp' hs' (.inl hroom') (by simp [readmePts]) rfl (by simp) (by simp) (.inl rfl) hd
  obtain ⟨L, L', h1, h2, h3, -, h5⟩ := C89_agree readme_input hm c1 c2
  exact ⟨out, d, c1, c2, L, L', h1, h2 (C79_one_cell ch readme_input), h3, h5⟩

end Votess
