import Verif.Proofs.SglInput
import Verif.Props.IeeeWitness
/-!
# C75 — fused multiply-add, inexact division

The compiler may contract `a * b + c` to one operation with one rounding, wherever and however it likes, and the
reciprocal of a triple product may be off by 2.5 units in the last place (`Model/Fma.lean`).  For points that are not nearly degenerate this makes no difference: whatever the
decisions, the rows are those of the true Voronoi cells.
-/
namespace Votess

open Sgl (toS)

/-- the point as the program stores it, rounded to the type of the coordinates; see `storePt` -/
def storeFm {f : Fmt} (ch : Choice f) (p : Pt ℚ) : Pt (Fm ch) :=
  ⟨.lit (Fl.round f p.x), .lit (Fl.round f p.y), .lit (Fl.round f p.z)⟩

section

theorem fm32_two (ch : Choice b32) : 2 * Sgl.om (Fm ch) = 2 := mul_one 2

theorem fm32_clear {ch : Choice b32} {k : Nat} (hk : 1 ≤ k) {X : List (Pt ℚ)} (hm : AllMarginsBy 2 X) :
    Sgl.AllClear (Fm ch) (2 * Sgl.om (Fm ch)) k X := by
  rw [fm32_two]
  exact Sgl.AllClear.of rfl (by norm_num) hk hm

variable {hw : Nat} {prm : Params} {X : List (Pt ℚ)}

/-- C75: whatever the compiler contracts, a call for points with margins reports no infinite boundary,
and if every cell reached its security radius, or all other points were candidates and no buffer
overflowed, the rows are exactly those of the points as given. -/
theorem C75_tessellation (ch : Choice b32) (h : FloatSizes hw prm) (hX : InputOK X) (hm : AllMarginsBy 2 X)
    (hk : prm.k < X.length) (hr : prm.useRecompute = false) :
    ∃ (out : TessOut (Fm ch)) (L : List (Pt ℚ)), tesellateCpu 4 hw prm (X.map (storeFm ch)) = .ok out ∧
      out.xyz = L.map (storeFm ch) ∧ L.Perm X ∧ out.report.infBoundary = 0 ∧
      ((out.report.srNotReached = 0 ∨ ((X.length : Int) - 1 ≤ prm.k ∧
          out.report.pOverflow = 0 ∧ out.report.tOverflow = 0)) →
        ∀ i p, L[i]? = some p → ∃ row, RowIs out.dnn i row ∧ CorrectRow L i p row ∧ ExactRow L i p row) :=
  Sgl.in_tessellation (F := Fm ch) h hX (fm32_clear (by have := h.k.1; omega) hm) hk hr

/-- C75: with all other points as candidates and room for their planes and vertices there is no
condition on what happens during the run. -/
theorem C75_enough_room (ch : Choice b32) (h : FloatSizes hw prm) (hX : InputOK X) (hm : AllMarginsBy 2 X)
    (hroom : Roomy prm X.length) :
    ∃ (out : TessOut (Fm ch)) (L : List (Pt ℚ)), tesellateCpu 4 hw prm (X.map (storeFm ch)) = .ok out ∧
      out.xyz = L.map (storeFm ch) ∧ L.Perm X ∧
      ∀ i p, L[i]? = some p → ∃ row, RowIs out.dnn i row ∧ CorrectRow L i p row ∧ ExactRow L i p row :=
  Sgl.in_enough_room (F := Fm ch) h hX (by rw [fm32_two]; exact hm) hroom

/-- C75: with recompute any number of candidates below the number of points will do. -/
theorem C75_recompute (ch : Choice b32) (h : FloatSizes hw prm) (hX : InputOK X) (hm : AllMarginsBy 2 X)
    (hk : prm.k < X.length) (hr : prm.useRecompute = true) (hp : (X.length : Int) + 5 ≤ prm.pm)
    (ht : 2 * (X.length : Int) + 6 ≤ prm.tm) :
    ∃ (out : TessOut (Fm ch)) (L : List (Pt ℚ)), tesellateCpu 4 hw prm (X.map (storeFm ch)) = .ok out ∧
      out.xyz = L.map (storeFm ch) ∧ L.Perm X ∧
      ∀ i p, L[i]? = some p → ∃ row, RowIs out.dnn i row ∧ CorrectRow L i p row ∧ ExactRow L i p row :=
  Sgl.in_recompute (F := Fm ch) h hX (fun _ hk => fm32_clear hk hm) hk hr hp ht

/-- C75: the same for every execution on a GPU. -/
theorem C75_gpu (ch : Choice b32) {ndsize : Int} (h : FloatSizes hw prm) (hX : InputOK X) (hm : AllMarginsBy 2 X)
    (hroom : Roomy prm X.length) (hgr : prm.gr ≤ 255) (htm : prm.tm ≤ 254) (hu : Unchunked prm X.length)
    {out : TessOut (Fm ch)} (ho : TesellateGpu 4 hw ndsize true prm (X.map (storeFm ch)) out) :
    ∃ L : List (Pt ℚ), out.xyz = L.map (storeFm ch) ∧ L.Perm X ∧
      ∀ i p, L[i]? = some p → ∃ row, RowIs out.dnn i row ∧ CorrectRow L i p row ∧ ExactRow L i p row :=
  Sgl.in_gpu (F := Fm ch) h hX (by rw [fm32_two]; exact hm) hroom hgr htm hu ho

/-- C75: there are such executions if the work-group size divides the number of points. -/
theorem C75_gpu_possible (ch : Choice b32) {ndsize : Int} (h : FloatSizes hw prm) (hX : InputOK X)
    (hroom : Roomy prm X.length) (hgr : prm.gr ≤ 255) (htm : prm.tm ≤ 254)
    (hu : Unchunked prm X.length) (h0 : 0 < ndsize) (hd : ndsize ∣ X.length) :
    ∃ out : TessOut (Fm ch), TesellateGpu 4 hw ndsize true prm (X.map (storeFm ch)) out :=
  Sgl.in_gpu_possible (F := Fm ch) h hX hroom hgr htm hu h0 hd

/-- C75: two builds of the program, with different compilers or options, find the same neighbours of
every point; sizes and numbers of threads may differ, too. -/
theorem C75_two_builds (ch ch' : Choice b32) {hw' : Nat} {prm' : Params} (h : FloatSizes hw prm)
    (hroom : Roomy prm X.length) (h' : FloatSizes hw' prm') (hroom' : Roomy prm' X.length) (hX : InputOK X)
    (hm : AllMarginsBy 2 X) {out : TessOut (Fm ch)} {out' : TessOut (Fm ch')}
    (ho : tesellateCpu 4 hw prm (X.map (storeFm ch)) = .ok out)
    (ho' : tesellateCpu 4 hw' prm' (X.map (storeFm ch')) = .ok out') :
    ∃ L L' : List (Pt ℚ), out.xyz = L.map (storeFm ch) ∧ out'.xyz = L'.map (storeFm ch') ∧ L.Perm X ∧ L'.Perm X ∧
      ∀ i i' p row row', L[i]? = some p → L'[i']? = some p → RowIs out.dnn i row →
        RowIs out'.dnn i' row' → ∀ q, q ∈ sitesOf L row ↔ q ∈ sitesOf L' row' := by
  obtain ⟨o1, L, e1, e2, e3, e4⟩ := C75_enough_room ch h hX hm hroom
  rw [ho] at e1; cases e1
  obtain ⟨o2, L', f1, f2, f3, f4⟩ := C75_enough_room ch' h' hX hm hroom'
  rw [ho'] at f1; cases f1
  refine ⟨L, L', e2, f2, e3, f3, fun i i' p row row' hp hp' hr hr' => ?_⟩
  obtain ⟨r, a1, a2, a3⟩ := e4 i p hp
  obtain ⟨r', b1, b2, b3⟩ := f4 i' p hp'
  rw [hr.unique a1, hr'.unique b1]
  exact same_sites (e3.trans f3.symm) hp hp' a2 a3 b2 b3

end

/-! ### without margins the decisions matter -/

/-- the left product is fused when there is one -/
def fuseLeft : Choice b32 := .exact fun _ _ => .left

/-- the right product is fused when there is one -/
def fuseRight : Choice b32 := .exact fun _ _ => .right

/-- the sort and the cells of all points, without the driver -/
def sglRun (F : Type) [FP F (WithTop ℚ)] [Sgl F] [Inhabited F] (prm : Params) (L : List (Pt ℚ)) :
    M (Sorted F × List (List Int)) := do
  let ids ← cellIds prm.gr (L.map (toS : Pt ℚ → Pt F))
  let off ← offsetTable prm.gr ((buckets 4 0 (ids.zip (L.map (toS : Pt ℚ → Pt F)))).map (·.1))
  let S := Sorted.mk ((buckets 4 0 (ids.zip (L.map (toS : Pt ℚ → Pt F)))).map (·.2))
    ((buckets 4 0 (ids.zip (L.map (toS : Pt ℚ → Pt F)))).map (·.1)) off
  pure (S, (List.range S.xyz.length).map fun i => rowOf S prm.gr prm.args i)

/-- the run leaves the points as they are and returns these rows -/
def sglRunIs (F : Type) [FP F (WithTop ℚ)] [Sgl F] [Inhabited F] (prm : Params) (L : List (Pt ℚ))
    (rows : List (List Int)) : Bool :=
  match sglRun F prm L with
  | .error _ => false
  | .ok (S, rs) => decide (S.xyz.map Sgl.ofS = L) && decide (rs = rows)

theorem sglRunIs_call {F : Type} [FP F (WithTop ℚ)] [Sgl F] [Inhabited F] {hw : Nat} {prm : Params}
    {L : List (Pt ℚ)} {rows : List (List Int)} (h : FloatSizes hw prm) (hs : Sgl.Safe F prm.gr L)
    (hr : prm.useRecompute = false) (ht : sglRunIs F prm L rows = true) :
    ∃ out : TessOut F, tesellateCpu 4 hw prm (L.map toS) = .ok out ∧ out.xyz = L.map toS ∧
      (∀ i row, rows[i]? = some row → RowIs out.dnn i row) := by
  obtain ⟨S, out, hS, hperm, o1, o2, o3⟩ := Sgl.safe_call (F := F) h hs hr
  have hrun : sglRun F prm L = .ok (S, (List.range S.xyz.length).map fun i => rowOf S prm.gr prm.args i) := by
    have e := hS
    rw [xyzSort_eq] at e
    unfold sglRun
    cases h1 : cellIds prm.gr (L.map (toS : Pt ℚ → Pt F)) with
    | error e' => rw [h1] at e; cases e
    | ok ids =>
      rw [h1] at e
      simp only [bind_ok] at e ⊢
      cases h2 : offsetTable prm.gr ((buckets 4 0 (ids.zip (L.map (toS : Pt ℚ → Pt F)))).map (·.1)) with
      | error e' => rw [h2] at e; cases e
      | ok off =>
        rw [h2] at e
        simp only [bind_ok] at e ⊢
        injection e with e
        subst e; rfl
  unfold sglRunIs at ht
  rw [hrun] at ht
  simp only [Bool.and_eq_true, decide_eq_true_eq] at ht
  obtain ⟨t1, t2⟩ := ht
  have hx : S.xyz = L.map toS := by
    obtain ⟨L', e, -⟩ := Sgl.sorted_toS hperm
    rw [e, List.map_map, show Sgl.ofS ∘ (toS : Pt ℚ → Pt F) = id from funext Sgl.ofS_toS, List.map_id] at t1
    rw [e, t1]
  refine ⟨out, o1, o2.trans hx, ?_⟩
  intro i row hrow
  rw [← t2, List.getElem?_map] at hrow
  cases hi : (List.range S.xyz.length)[i]? with
  | none => rw [hi] at hrow; cases hrow
  | some j =>
    rw [hi] at hrow
    have hlt := (List.getElem?_eq_some_iff.mp hi).1
    rw [List.length_range] at hlt
    rw [List.getElem?_range hlt] at hi
    cases hi
    simp only [Option.map_some, Option.some.injEq] at hrow
    rw [← hrow]
    exact o3 i (by rw [← hperm.length_eq]; exact hlt)

theorem fm32_safe {ch : Choice b32} {gr : Int} (h1 : 1 ≤ gr) (h2 : gr ≤ 1290) {L : List (Pt ℚ)}
    (h : ∀ p ∈ L, (0 ≤ p.x ∧ p.x ≤ 1 - 1 / 2 ^ 23) ∧ (0 ≤ p.y ∧ p.y ≤ 1 - 1 / 2 ^ 23) ∧
      (0 ≤ p.z ∧ p.z ≤ 1 - 1 / 2 ^ 23)) : Sgl.Safe (Fm ch) gr L := by
  intro v hv
  obtain ⟨hx, hy, hz⟩ := h v hv
  have key : ∀ {x : ℚ}, 0 ≤ x ∧ x ≤ 1 - 1 / 2 ^ 23 → (0 ≤ x ∧ x ≤ 1) ∧ gcoordF b32 gr x < gr :=
    fun h => ⟨⟨h.1, h.2.trans (by norm_num)⟩, wide32.gcoord_lt h1 (by omega) h.1 h.2⟩
  exact ⟨(key hx).1, (key hy).1, (key hz).1, (key hx).2, (key hy).2, (key hz).2⟩

set_option maxRecDepth 100000 in
theorem thirds_left : sglRunIs (Fm fuseLeft) (onePrm 3) thirds [[3, 1], [2, 0], [1, 3, 0], [0, 2, 1]] = true := by
  decide +kernel

set_option maxRecDepth 100000 in
theorem thirds_right :
    sglRunIs (Fm fuseRight) (onePrm 3) thirds [[3, 1], [2, 0, 3], [1, 3, 0], [0, 2, 1]] = true := by
  decide +kernel

/-- C75: the margins are needed.  For four points with coordinates 1/3 and 2/3 the rows depend on which of
two products the compiler fuses: the row of the second point has two or three entries. -/
theorem C75_depends (hw : Nat) :
    (∃ out : TessOut (Fm fuseLeft), tesellateCpu 4 hw (onePrm 3) (thirds.map toS) = .ok out ∧
      out.xyz = thirds.map toS ∧ RowIs out.dnn 1 [2, 0]) ∧
    ∃ out : TessOut (Fm fuseRight), tesellateCpu 4 hw (onePrm 3) (thirds.map toS) = .ok out ∧
      out.xyz = thirds.map toS ∧ RowIs out.dnn 1 [2, 0, 3] := by
  obtain ⟨out, h1, h2, h3⟩ := sglRunIs_call (onePrm_sizes (k := 3) (by decide) (by decide) hw)
    (fm32_safe (by decide) (by decide) (by decide +kernel)) rfl thirds_left
  obtain ⟨out', h1', h2', h3'⟩ := sglRunIs_call (onePrm_sizes (k := 3) (by decide) (by decide) hw)
    (fm32_safe (by decide) (by decide) (by decide +kernel)) rfl thirds_right
  exact ⟨⟨out, h1, h2, h3 1 _ rfl⟩, out', h1', h2', h3' 1 _ rfl⟩

/-! ### examples -/

/-- a fused operation gives another number: `x * x - 1` for `x = 1 + 2^-12` -/
example : (FP.sub (FP.mul (.lit (.fin (1 + 1 / 2 ^ 12))) (.lit (.fin (1 + 1 / 2 ^ 12)))) (.lit (.fin 1)) :
      Fm fuseLeft).v = .fin (1 / 2 ^ 11 + 1 / 2 ^ 24) ∧
    (FP.sub (FP.mul (.fin (1 + 1 / 2 ^ 12)) (.fin (1 + 1 / 2 ^ 12))) (.fin 1) : F32) = .fin (1 / 2 ^ 11) := by
  decide +kernel

/-- quotients are four units too large, relative to 2^-24 -/
def quotLarge : Choice b32 where
  fuse _ _ := .no
  quot _ _ q := q * (1 + 4 / 2 ^ 24)
  near _ _ q _ _ := by
    rw [show q * (1 + 4 / 2 ^ 24) - q = 4 / 2 ^ 24 * q by ring, abs_mul]
    exact mul_le_mul_of_nonneg_right (by decide +kernel) (abs_nonneg q)

/-- another quotient than the correctly rounded one: `1 / (2 * 2)` -/
example : (FP.div (.lit (.fin 1)) (FP.mul (.lit (.fin 2)) (.lit (.fin 2))) : Fm quotLarge).v =
      .fin (1 / 4 + 1 / 2 ^ 24) ∧
    (FP.div (.fin 1) (FP.mul (.fin 2) (.fin 2)) : F32) = .fin (1 / 4) := by
  decide +kernel

/-- four points, every decision -/
example (ch : Choice b32) : ∃ (out : TessOut (Fm ch)) (L : List (Pt ℚ)),
    tesellateCpu 4 8 ⟨3, 3, 9, 14, 0, 0, false, false⟩ (tenths.map (storeFm ch)) = .ok out ∧
    out.xyz = L.map (storeFm ch) ∧ L.Perm tenths ∧
    ∀ i p, L[i]? = some p → ∃ row, RowIs out.dnn i row ∧ ExactRow L i p row := by
  obtain ⟨out, L, h1, h2, h3, h4⟩ := C75_enough_room ch (hw := 8) (prm := ⟨3, 3, 9, 14, 0, 0, false, false⟩)
    ⟨by decide, by decide, by decide, by decide, by decide⟩ tenths_input tenths_margins
    ⟨by decide, by decide, by decide, rfl⟩
  exact ⟨out, L, h1, h2, h3, fun i p hp => by obtain ⟨row, g1, -, g2⟩ := h4 i p hp; exact ⟨row, g1, g2⟩⟩

/-- on a GPU -/
example (ch : Choice b32) :
    (∃ out : TessOut (Fm ch), TesellateGpu 4 8 2 true ⟨3, 3, 9, 14, 0, 0, false, false⟩ (tenths.map (storeFm ch)) out) ∧
    ∀ out : TessOut (Fm ch), TesellateGpu 4 8 2 true ⟨3, 3, 9, 14, 0, 0, false, false⟩ (tenths.map (storeFm ch)) out →
      ∃ L : List (Pt ℚ), out.xyz = L.map (storeFm ch) ∧ L.Perm tenths ∧
        ∀ i p, L[i]? = some p → ∃ row, RowIs out.dnn i row ∧ ExactRow L i p row := by
  have hsz : FloatSizes 8 ⟨3, 3, 9, 14, 0, 0, false, false⟩ :=
    ⟨by decide, by decide, by decide, by decide, by decide⟩
  have hroom : Roomy ⟨3, 3, 9, 14, 0, 0, false, false⟩ tenths.length := ⟨by decide, by decide, by decide, rfl⟩
  refine ⟨C75_gpu_possible ch hsz tenths_input hroom (by decide) (by decide) (.inl rfl)
    (by decide) (by decide), fun out ho => ?_⟩
  obtain ⟨L, h1, h2, h3⟩ := C75_gpu ch hsz tenths_input tenths_margins hroom (by decide) (by decide) (.inl rfl) ho
  exact ⟨L, h1, h2, fun i p hp => by obtain ⟨row, g1, -, g2⟩ := h3 i p hp; exact ⟨row, g1, g2⟩⟩

end Votess
