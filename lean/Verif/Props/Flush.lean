import Verif.Props.DoubleTess
import Verif.Props.Enough
/-!
# C83 — denormal numbers flushed to zero

Devices and processor modes may replace denormal results and operands by zero (SYCL devices without
`fp_config::denorm`; the processor's modes FTZ and DAZ, which some compilers switch on at program start).
In the format `b32z` a result below `2^-126` is zero (`Model/Ieee.lean`), and so is a coordinate when it is
stored.  For points that are not nearly degenerate this makes no difference.
-/
namespace Votess

open Sgl (toS)

section

theorem fm32z_two (ch : Choice b32z) : 2 * Sgl.om (Fm ch) = 2 := mul_one 2

theorem fm64z_two (ch : Choice b64z) : 2 * Sgl.om (Fm ch) = 2 / 2 ^ 29 := by
  show (2 : ℚ) * (1 / 2 ^ 29) = _
  norm_num

theorem fm32z_clear {ch : Choice b32z} {k : Nat} (hk : 1 ≤ k) {X : List (Pt ℚ)} (hm : AllMarginsBy 2 X) :
    Sgl.AllClear (Fm ch) (2 * Sgl.om (Fm ch)) k X := by
  rw [fm32z_two]
  exact Sgl.AllClear.of rfl (by norm_num) hk hm

theorem clearFmz {ch : Choice b32z} {k : Nat} (hk : 1 ≤ k) {L : List (Pt ℚ)} {i : Nat} {p : Pt ℚ} (hp : L[i]? = some p)
    (hm : MarginsBy 2 L i p) : Sgl.Clear (Fm ch) (2 * Sgl.om (Fm ch)) k L i p := by
  rw [fm32z_two]
  exact .of rfl (by norm_num) hk hp hm

variable {hw : Nat} {prm : Params} {X : List (Pt ℚ)}

/-- C83: denormal numbers are flushed, products fused in any way.  A call for points with margins reports no
infinite boundary, and if every cell reached its security radius, or all other points were candidates and no
buffer overflowed, the rows are exactly those of the points as given. -/
theorem C83_tessellation (ch : Choice b32z) (h : FloatSizes hw prm) (hX : InputOK X) (hm : AllMarginsBy 2 X)
    (hk : prm.k < X.length) (hr : prm.useRecompute = false) :
    ∃ (out : TessOut (Fm ch)) (L : List (Pt ℚ)), tesellateCpu 4 hw prm (X.map (storeFm ch)) = .ok out ∧
      out.xyz = L.map (storeFm ch) ∧ L.Perm X ∧ out.report.infBoundary = 0 ∧
      ((out.report.srNotReached = 0 ∨ ((X.length : Int) - 1 ≤ prm.k ∧
          out.report.pOverflow = 0 ∧ out.report.tOverflow = 0)) →
        ∀ i p, L[i]? = some p → ∃ row, RowIs out.dnn i row ∧ CorrectRow L i p row ∧ ExactRow L i p row) :=
  Sgl.in_tessellation (F := Fm ch) h hX (fm32z_clear (by have := h.k.1; omega) hm) hk hr

/-- C83: with all other points as candidates and room for their planes and vertices there is no
condition on what happens during the run. -/
theorem C83_enough_room (ch : Choice b32z) (h : FloatSizes hw prm) (hX : InputOK X) (hm : AllMarginsBy 2 X)
    (hroom : Roomy prm X.length) :
    ∃ (out : TessOut (Fm ch)) (L : List (Pt ℚ)), tesellateCpu 4 hw prm (X.map (storeFm ch)) = .ok out ∧
      out.xyz = L.map (storeFm ch) ∧ L.Perm X ∧
      ∀ i p, L[i]? = some p → ∃ row, RowIs out.dnn i row ∧ CorrectRow L i p row ∧ ExactRow L i p row :=
  Sgl.in_enough_room (F := Fm ch) h hX (by rw [fm32z_two]; exact hm) hroom

/-- C83: with recompute any number of candidates below the number of points will do. -/
theorem C83_recompute (ch : Choice b32z) (h : FloatSizes hw prm) (hX : InputOK X) (hm : AllMarginsBy 2 X)
    (hk : prm.k < X.length) (hr : prm.useRecompute = true) (hp : (X.length : Int) + 5 ≤ prm.pm)
    (ht : 2 * (X.length : Int) + 6 ≤ prm.tm) :
    ∃ (out : TessOut (Fm ch)) (L : List (Pt ℚ)), tesellateCpu 4 hw prm (X.map (storeFm ch)) = .ok out ∧
      out.xyz = L.map (storeFm ch) ∧ L.Perm X ∧
      ∀ i p, L[i]? = some p → ∃ row, RowIs out.dnn i row ∧ CorrectRow L i p row ∧ ExactRow L i p row :=
  Sgl.in_recompute (F := Fm ch) h hX (fun _ hk => fm32z_clear hk hm) hk hr hp ht

/-- C83: few candidates.  The rows of all points that have margins and for which `k` candidates are enough are
exact, whatever the other points are. -/
theorem C83_served (ch : Choice b32z) (h : FloatSizes hw prm) (hX : InputOK X) (hroom : RoomyFew prm X.length) :
    ∃ (out : TessOut (Fm ch)) (L : List (Pt ℚ)), tesellateCpu 4 hw prm (X.map (storeFm ch)) = .ok out ∧
      out.xyz = L.map (storeFm ch) ∧ L.Perm X ∧ ServedRows 2 prm.k.toNat X L out.dnn := by
  obtain ⟨out, L, h1, h2, h3, h4, -⟩ := Sgl.in_enough_local (F := Fm ch) h hX hroom.k hroom.plain hroom.pm hroom.tm
  exact ⟨out, L, h1, h2, h3, .of h3 fun i p hp hm => h4 i p hp (clearFmz (by have := h.k.1; omega) hp hm)⟩

/-- C83: every execution on a GPU that flushes. -/
theorem C83_gpu (ch : Choice b32z) {ndsize : Int} (h : FloatSizes hw prm) (hX : InputOK X) (hm : AllMarginsBy 2 X)
    (hroom : Roomy prm X.length) (hgr : prm.gr ≤ 255) (htm : prm.tm ≤ 254) (hu : Unchunked prm X.length)
    {out : TessOut (Fm ch)} (ho : TesellateGpu 4 hw ndsize true prm (X.map (storeFm ch)) out) :
    ∃ L : List (Pt ℚ), out.xyz = L.map (storeFm ch) ∧ L.Perm X ∧
      ∀ i p, L[i]? = some p → ∃ row, RowIs out.dnn i row ∧ CorrectRow L i p row ∧ ExactRow L i p row :=
  Sgl.in_gpu (F := Fm ch) h hX (by rw [fm32z_two]; exact hm) hroom hgr htm hu ho

/-- C83: there are such executions if the work-group size divides the number of points. -/
theorem C83_gpu_possible (ch : Choice b32z) {ndsize : Int} (h : FloatSizes hw prm) (hX : InputOK X)
    (hroom : Roomy prm X.length) (hgr : prm.gr ≤ 255) (htm : prm.tm ≤ 254)
    (hu : Unchunked prm X.length) (h0 : 0 < ndsize) (hd : ndsize ∣ X.length) :
    ∃ out : TessOut (Fm ch), TesellateGpu 4 hw ndsize true prm (X.map (storeFm ch)) out :=
  Sgl.in_gpu_possible (F := Fm ch) h hX hroom hgr htm hu h0 hd

/-- C83: every execution on a GPU with `double` coordinates. -/
theorem C83_gpu_double (ch : Choice b64z) {ndsize : Int} (h : FloatSizes hw prm) (hX : InputOK X)
    (hm : AllMarginsBy (2 / 2 ^ 29) X) (hroom : Roomy prm X.length) (hgr : prm.gr ≤ 255) (htm : prm.tm ≤ 254)
    (hu : Unchunked prm X.length) {out : TessOut (Fm ch)}
    (ho : TesellateGpu 4 hw ndsize true prm (X.map (storeFm ch)) out) :
    ∃ L : List (Pt ℚ), out.xyz = L.map (storeFm ch) ∧ L.Perm X ∧
      ∀ i p, L[i]? = some p → ∃ row, RowIs out.dnn i row ∧ CorrectRow L i p row ∧ ExactRow L i p row :=
  Sgl.in_gpu (F := Fm ch) h hX (by rw [fm64z_two]; exact hm) hroom hgr htm hu ho

/-- C83: a program that flushes and one that does not find the same neighbours of every point. -/
theorem C83_same_rows (ch : Choice b32) (ch' : Choice b32z) {hw' : Nat} {prm' : Params} (h : FloatSizes hw prm)
    (hroom : Roomy prm X.length) (h' : FloatSizes hw' prm') (hroom' : Roomy prm' X.length) (hX : InputOK X)
    (hm : AllMarginsBy 2 X) {out : TessOut (Fm ch)} {out' : TessOut (Fm ch')}
    (ho : tesellateCpu 4 hw prm (X.map (storeFm ch)) = .ok out)
    (ho' : tesellateCpu 4 hw' prm' (X.map (storeFm ch')) = .ok out') :
    ∃ L L' : List (Pt ℚ), out.xyz = L.map (storeFm ch) ∧ out'.xyz = L'.map (storeFm ch') ∧ L.Perm X ∧ L'.Perm X ∧
      ∀ i i' p row row', L[i]? = some p → L'[i']? = some p → RowIs out.dnn i row →
        RowIs out'.dnn i' row' → ∀ q, q ∈ sitesOf L row ↔ q ∈ sitesOf L' row' := by
  obtain ⟨o1, L, e1, e2, e3, e4⟩ := C75_enough_room ch h hX hm hroom
  rw [ho] at e1; cases e1
  obtain ⟨o2, L', f1, f2, f3, f4⟩ := C83_enough_room ch' h' hX hm hroom'
  rw [ho'] at f1; cases f1
  refine ⟨L, L', e2, f2, e3, f3, fun i i' p row row' hp hp' hr hr' => ?_⟩
  obtain ⟨r, a1, a2, a3⟩ := e4 i p hp
  obtain ⟨r', b1, b2, b3⟩ := f4 i' p hp'
  rw [hr.unique a1, hr'.unique b1]
  exact same_sites (e3.trans f3.symm) hp hp' a2 a3 b2 b3

end

/-! ### the sort on a host that does not flush -/

theorem nearest_z (x : ℚ) : nearest b32z x = nearest b32 x := rfl

theorem rnd_z (x : ℚ) : rnd b32z x = flush b32z (rnd b32 x) := by rw [rnd_off (f := b32) rfl]; rfl

/-- the cell of a coordinate does not depend on flushing -/
theorem gcoord_z {gr : Int} (h1 : 1 ≤ gr) (h2 : gr ≤ 2 ^ 24) {v : ℚ} (h0 : 0 ≤ v) (hv : v ≤ 1) :
    gcoordF b32z gr (rnd b32z v) = gcoordF b32 gr (rnd b32 v) := by
  have hg := gl32_pos h1 h2
  have n1 : b32z.normal < 1 / 2 := lt_of_le_of_lt wide32z.normal_le (by norm_num)
  have fl0 : ∀ t : ℚ, 0 ≤ t → t < 1 → ⌊t⌋ = 0 := fun t a b => Int.floor_eq_zero_iff.mpr ⟨a, b⟩
  have p0 := rnd_nonneg b32 h0
  have key : ∀ t : ℚ, 0 ≤ t → ⌊rnd b32z t⌋ = ⌊rnd b32 t⌋ := by
    intro t ht
    rw [rnd_z]
    rcases flush_cases b32z (rnd b32 t) with e | ⟨e, l, -⟩
    · rw [e]
    · have := rnd_nonneg b32 ht
      rw [abs_of_nonneg this] at l
      rw [e, Int.floor_zero, fl0 _ this (by linarith)]
  unfold gcoordF
  rcases flush_cases b32z (rnd b32 v) with e | ⟨e, l, -⟩
  · rw [rnd_z v, e]
    exact key _ (div_nonneg p0 hg.le)
  · rw [rnd_z v, e, zero_div, rnd_zero, Int.floor_zero]
    rw [abs_of_nonneg p0] at l
    symm
    have t0 := div_nonneg p0 hg.le
    apply fl0 _ (rnd_nonneg _ t0)
    have b := (gl32_bounds h1 h2).1
    have hq : (gr : ℚ) ≤ 2 ^ 24 := by exact_mod_cast h2
    have hq1 : (1 : ℚ) ≤ gr := by exact_mod_cast h1
    have g2 : 1 / 2 ^ 25 ≤ gl32 gr := by
      refine le_trans ?_ b
      rw [le_div_iff₀ (by linarith)]
      norm_num at *
      linarith
    have t1 : rnd b32 v / gl32 gr ≤ 1 / 2 := by
      rw [div_le_iff₀ hg]
      have := wide32z.normal_le
      norm_num at *
      linarith
    have := (abs_le.mp (wide32.err (rnd b32 v / gl32 gr))).2
    rw [abs_of_nonneg t0] at this
    norm_num at *
    linarith

theorem buckets_map {α β : Type} (g : α → β) (n shift : Nat) (l : List (Int × α)) :
    buckets n shift (l.map (Prod.map id g)) = (buckets n shift l).map (Prod.map id g) := by
  induction n generalizing shift l with
  | zero => rfl
  | succ n ih =>
    unfold buckets
    rw [← ih]
    congr 1
    unfold bucket
    rw [List.map_flatMap]
    congr 1
    funext b
    rw [List.filter_map]
    rfl

/-- the cell of a stored point does not depend on flushing -/
theorem cellId_z (ch : Choice b32z) {gr : Int} (h1 : 1 ≤ gr) (h2 : gr ≤ 1290) {X : List (Pt ℚ)} (hX : InputOK X)
    {p : Pt ℚ} (hp : p ∈ X) : cellId gr (storeFm ch p) = cellId gr (storePt p) := by
  obtain ⟨hx, hy, hz⟩ := hX p hp
  have ez : storeFm ch p = (toS (Sgl.roundS b32z p) : Pt (Fm ch)) := by
    simp only [storeFm, (Sgl.round_coordS fine32z hx).1, (Sgl.round_coordS fine32z hy).1, (Sgl.round_coordS fine32z hz).1]
    rfl
  have e : storePt p = (toS (Sgl.roundS b32 p) : Pt F32) := by
    simp only [storePt, (Sgl.round_coordS fine32 hx).1, (Sgl.round_coordS fine32 hy).1, (Sgl.round_coordS fine32 hz).1]
    rfl
  have gz := Sgl.storeS_safe (F := Fm ch) h1 h2 hX _ (List.mem_map_of_mem hp)
  have g := Sgl.storeS_safe (F := F32) h1 h2 hX _ (List.mem_map_of_mem hp)
  have h3 : gr ≤ 2 ^ 24 := by omega
  have key : ∀ {x : ℚ}, 0 ≤ x ∧ x ≤ 1 - 1 / 2 ^ 22 → gcoordF b32z gr (rnd b32z x) = gcoordF b32 gr (rnd b32 x) :=
    fun h => gcoord_z h1 h3 h.1 (h.2.trans (by norm_num))
  have a := Sgl.cellId_toS (F := Fm ch) h1 h3 gz
  have b := Sgl.cellId_toS (F := F32) h1 h3 g
  rw [ez, e]
  refine a.trans (Eq.trans ?_ b.symm)
  show (Except.ok (gcoordF b32z gr (rnd b32z p.x) + gcoordF b32z gr (rnd b32z p.y) * gr
    + gcoordF b32z gr (rnd b32z p.z) * gr * gr) : M Int) = _
  rw [key hx, key hy, key hz]
  rfl

/-- C83: a host that does not flush sorts as one that does: the same cell numbers and offsets, and the same points
at the same places.  So a host without and a device with flushing work together as if both flushed. -/
theorem C83_same_sort (ch : Choice b32z) {gr : Int} (h1 : 1 ≤ gr) (h2 : gr ≤ 1290) {X : List (Pt ℚ)} (hX : InputOK X) :
    ∃ (S : Sorted F32) (L : List (Pt ℚ)), xyzSort 4 gr (X.map storePt) = .ok S ∧ L.Perm X ∧ S.xyz = L.map storePt ∧
      xyzSort 4 gr (X.map (storeFm ch)) = .ok ⟨L.map (storeFm ch), S.id, S.offset⟩ := by
  have hsz : FloatSizes 1 ⟨1, gr, 20, 36, 1, 0, false, false⟩ :=
    ⟨⟨h1, h2⟩, by simp, by simp, by simp, Or.inl (by simp)⟩
  obtain ⟨S, -, hS, -⟩ := Sgl.safe_call (F := F32) hsz (Sgl.storeS_safe (F := F32) h1 h2 hX) rfl
  rw [← Sgl.storeS_eq hX] at hS
  change xyzSort 4 gr (X.map storePt) = .ok S at hS
  obtain ⟨ids, i1, i2, i3, i4⟩ := xyzSort_eq_ok hS
  have hl : ids.length = X.length := by
    have := mapM_ok_length i1
    rwa [List.length_map] at this
  have hids : cellIds gr (X.map (storeFm ch)) = .ok ids := by
    rw [← i1]
    unfold cellIds
    clear i1 i2 i3 i4 hl hS
    have : ∀ Y : List (Pt ℚ), (∀ p ∈ Y, p ∈ X) → (Y.map (storeFm ch)).mapM (cellId gr) = (Y.map storePt).mapM (cellId gr) := by
      intro Y
      induction Y with
      | nil => intro _; rfl
      | cons p Y ih =>
        intro hY
        rw [List.map_cons, List.map_cons, mapM_cons_eq, mapM_cons_eq, cellId_z ch h1 h2 hX (hY p List.mem_cons_self),
          ih fun q hq => hY q (List.mem_cons_of_mem _ hq)]
    exact this X fun _ h => h
  have ez : ∀ {α : Type} (g : Pt ℚ → α), buckets 4 0 (ids.zip (X.map g)) = (buckets 4 0 (ids.zip X)).map (Prod.map id g) := by
    intro α g
    rw [← buckets_map, List.zip_map_right]
  refine ⟨S, (buckets 4 0 (ids.zip X)).map (·.2), hS, ?_, ?_, ?_⟩
  · refine ((buckets_perm 4 0 _).map _).trans ?_
    rw [List.map_snd_zip (by omega)]
  · rw [i2, ez, List.map_map, List.map_map]; rfl
  · rw [xyzSort_eq, hids]
    simp only [bind_ok]
    have e1 : (buckets 4 0 (ids.zip (X.map (storeFm ch)))).map (·.1) = S.id := by
      rw [i3, ez, ez, List.map_map, List.map_map]; rfl
    rw [e1, i4, ez, List.map_map]
    simp only [bind_ok, pure_eq_ok, List.map_map]
    rfl

/-! ### without margins flushing matters -/

/-- nothing is fused -/
def plainZ : Choice b32z := .exact fun _ _ => .no

/-- three points very close to the origin -/
def specks : List (Pt ℚ) := [⟨0, 0, 0⟩, ⟨4 / 2 ^ 66, 0, 0⟩, ⟨1 / 2 ^ 66, 0, 0⟩, ⟨1 / 2, 1 / 2, 1 / 2⟩]

set_option maxRecDepth 100000 in
theorem specks_plain : sglRunIs F32 (onePrm 3) specks [[2, 3], [2, 3], [0, 1, 3], [0]] = true := by decide +kernel

set_option maxRecDepth 100000 in
theorem specks_flushed : sglRunIs (Fm plainZ) (onePrm 3) specks [[1, 3], [3], [1, 3], [0]] = true := by decide +kernel

theorem specks_safe {F : Type} [FP F (WithTop ℚ)] [Sgl F] : Sgl.Safe F (onePrm 3).gr specks := by
  intro v hv
  have h : ∀ p ∈ specks, (0 ≤ p.x ∧ p.x ≤ 1 - 1 / 2 ^ 23) ∧ (0 ≤ p.y ∧ p.y ≤ 1 - 1 / 2 ^ 23) ∧
      (0 ≤ p.z ∧ p.z ≤ 1 - 1 / 2 ^ 23) := by decide +kernel
  obtain ⟨hx, hy, hz⟩ := h v hv
  have key : ∀ {x : ℚ}, 0 ≤ x ∧ x ≤ 1 - 1 / 2 ^ 23 → (0 ≤ x ∧ x ≤ 1) ∧ gcoordF (Sgl.fmt F) 1 x < 1 :=
    fun h => ⟨⟨h.1, h.2.trans (by norm_num)⟩, Sgl.wide.gcoord_lt (by decide) (by decide) h.1 h.2⟩
  exact ⟨(key hx).1, (key hy).1, (key hz).1, (key hx).2, (key hy).2, (key hz).2⟩

/-- C83: the margins are needed.  For three points at a distance of `2^-66` from each other the squared distances
are denormal.  Without flushing the row of the first point contains its nearest neighbour; with flushing it does
not. -/
theorem C83_matters (hw : Nat) :
    (∃ out : TessOut F32, tesellateCpu 4 hw (onePrm 3) (specks.map toS) = .ok out ∧
      out.xyz = specks.map toS ∧ RowIs out.dnn 0 [2, 3]) ∧
    ∃ out : TessOut (Fm plainZ), tesellateCpu 4 hw (onePrm 3) (specks.map toS) = .ok out ∧
      out.xyz = specks.map toS ∧ RowIs out.dnn 0 [1, 3] := by
  obtain ⟨out, h1, h2, h3⟩ := sglRunIs_call (onePrm_sizes (k := 3) (by decide) (by decide) hw)
    specks_safe rfl specks_plain
  obtain ⟨out', h1', h2', h3'⟩ := sglRunIs_call (onePrm_sizes (k := 3) (by decide) (by decide) hw)
    specks_safe rfl specks_flushed
  exact ⟨⟨out, h1, h2, h3 0 _ rfl⟩, out', h1', h2', h3' 0 _ rfl⟩

/-! ### examples -/

/-- a denormal result is zero: `2^-64 * 2^-64` -/
example : (FP.mul (.lit (.fin (1 / 2 ^ 64))) (.lit (.fin (1 / 2 ^ 64))) : Fm plainZ).v = .fin 0 ∧
    (FP.mul (.fin (1 / 2 ^ 64)) (.fin (1 / 2 ^ 64)) : F32) = .fin (1 / 2 ^ 128) ∧
    (FP.mul (.lit (.fin (1 / 2 ^ 63))) (.lit (.fin (1 / 2 ^ 63))) : Fm plainZ).v = .fin (1 / 2 ^ 126) := by
  decide +kernel

/-- a denormal coordinate is stored as zero -/
example : storeFm plainZ ⟨1 / 2 ^ 130, 1 / 3, 1 / 2⟩ = ⟨.lit (.fin 0), .lit (.fin (11184811 / 2 ^ 25)), .lit (.fin (1 / 2))⟩ ∧
    storePt ⟨1 / 2 ^ 130, 1 / 3, 1 / 2⟩ = ⟨.fin (1 / 2 ^ 130), .fin (11184811 / 2 ^ 25), .fin (1 / 2)⟩ := by
  constructor
  · simp only [storeFm, Pt.mk.injEq]
    refine ⟨congrArg _ ?_, congrArg _ ?_, congrArg _ ?_⟩ <;> decide +kernel
  · decide +kernel

/-- four points, one of which has a denormal coordinate -/
def tiny4 : List (Pt ℚ) := [⟨1 / 2 ^ 130, 1 / 10, 1 / 5⟩, ⟨7 / 10, 1 / 5, 2 / 5⟩, ⟨3 / 10, 9 / 10, 1 / 2⟩, ⟨1 / 2, 2 / 5, 4 / 5⟩]

theorem tiny4_input : InputOK tiny4 := by
  intro p hp
  simp only [tiny4, List.mem_cons, List.not_mem_nil, or_false] at hp
  rcases hp with rfl | rfl | rfl | rfl <;> norm_num

set_option maxRecDepth 100000 in
theorem tiny4_margins : AllMarginsBy 2 tiny4 :=
  (allMarginsB_sound (by decide +kernel)).margins two_pos (input_box tiny4_input)

theorem tiny4_sizes : FloatSizes 8 ⟨3, 3, 9, 14, 0, 0, false, false⟩ :=
  ⟨by decide, by decide, by decide, by decide, by decide⟩

theorem tiny4_room : Roomy ⟨3, 3, 9, 14, 0, 0, false, false⟩ tiny4.length := ⟨by decide, by decide, by decide, rfl⟩

example (ch : Choice b32z) : ∃ (out : TessOut (Fm ch)) (L : List (Pt ℚ)),
    tesellateCpu 4 8 ⟨3, 3, 9, 14, 0, 0, false, false⟩ (tiny4.map (storeFm ch)) = .ok out ∧
    out.xyz = L.map (storeFm ch) ∧ L.Perm tiny4 ∧
    ∀ i p, L[i]? = some p → ∃ row, RowIs out.dnn i row ∧ ExactRow L i p row := by
  obtain ⟨out, L, h1, h2, h3, h4⟩ := C83_enough_room ch tiny4_sizes tiny4_input tiny4_margins tiny4_room
  exact ⟨out, L, h1, h2, h3, fun i p hp => by obtain ⟨row, g1, -, g2⟩ := h4 i p hp; exact ⟨row, g1, g2⟩⟩

/-- on a GPU, `float` -/
example (ch : Choice b32z) :
    (∃ out : TessOut (Fm ch), TesellateGpu 4 8 2 true ⟨3, 3, 9, 14, 0, 0, false, false⟩ (tiny4.map (storeFm ch)) out) ∧
    ∀ out : TessOut (Fm ch), TesellateGpu 4 8 2 true ⟨3, 3, 9, 14, 0, 0, false, false⟩ (tiny4.map (storeFm ch)) out →
      ∃ L : List (Pt ℚ), out.xyz = L.map (storeFm ch) ∧ L.Perm tiny4 ∧
        ∀ i p, L[i]? = some p → ∃ row, RowIs out.dnn i row ∧ ExactRow L i p row := by
  refine ⟨C83_gpu_possible ch tiny4_sizes tiny4_input tiny4_room (by decide) (by decide) (.inl rfl)
    (by decide) (by decide), fun out ho => ?_⟩
  obtain ⟨L, h1, h2, h3⟩ := C83_gpu ch tiny4_sizes tiny4_input tiny4_margins tiny4_room (by decide) (by decide) (.inl rfl) ho
  exact ⟨L, h1, h2, fun i p hp => by obtain ⟨row, g1, -, g2⟩ := h3 i p hp; exact ⟨row, g1, g2⟩⟩

/-- on a GPU, `double` -/
example (ch : Choice b64z) {out : TessOut (Fm ch)}
    (ho : TesellateGpu 4 8 2 true ⟨3, 3, 9, 14, 0, 0, false, false⟩ (tiny4.map (storeFm ch)) out) :
    ∃ L : List (Pt ℚ), out.xyz = L.map (storeFm ch) ∧ L.Perm tiny4 ∧
      ∀ i p, L[i]? = some p → ∃ row, RowIs out.dnn i row ∧ CorrectRow L i p row ∧ ExactRow L i p row :=
  C83_gpu_double ch tiny4_sizes tiny4_input (tiny4_margins.mono (by norm_num) (by norm_num)) tiny4_room
    (by decide) (by decide) (.inl rfl) ho

/-- fifteen points, eleven candidates -/
example (ch : Choice b32z) : ∃ (out : TessOut (Fm ch)) (L : List (Pt ℚ)),
    tesellateCpu 4 8 ⟨11, 3, 17, 30, 0, 0, false, false⟩ (fifteen.map (storeFm ch)) = .ok out ∧
    out.xyz = L.map (storeFm ch) ∧ L.Perm fifteen ∧ ServedRows 2 11 fifteen L out.dnn :=
  C83_served ch ⟨by decide, by decide, by decide, by decide, by decide⟩ fifteen_input
    ⟨by decide, by decide, by decide, rfl⟩

end Votess
