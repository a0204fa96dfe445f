import Verif.Proofs.Elsewhere
import Verif.Props.DoubleTess
import Verif.Props.IeeeRun
/-!
# C78 — nearly degenerate points elsewhere do no harm

The theorems on rounded arithmetic so far ask for margins of all points.  But the row of a point is right as soon as
this point has margins, and its margins concern only the points that matter for its cell.  Everywhere else the points
may be as degenerate as they like: coincide, lie on a sphere or on a lattice.  And they may be changed without any effect
on the row.
-/
namespace Votess

section
variable {hw : Nat} {prm : Params} {X : List (Pt ℚ)}

/-- the rows of all points that have margins among the points given -/
def GoodRows (m : ℚ) (X L : List (Pt ℚ)) (dnn : Dnn) : Prop :=
  ∀ j p, X[j]? = some p → MarginsBy m X j p → ∀ i, L[i]? = some p →
    ∃ row, RowIs dnn i row ∧ CorrectRow L i p row ∧ ExactRow L i p row

theorem GoodRows.of {m : ℚ} {L : List (Pt ℚ)} {dnn : Dnn} (hperm : L.Perm X)
    (h : ∀ i p, L[i]? = some p → MarginsBy m L i p → ∃ row, RowIs dnn i row ∧ CorrectRow L i p row ∧ ExactRow L i p row) :
    GoodRows m X L dnn :=
  fun _ p hj hm i hi => h i p hi (MarginsBy.perm hperm.symm hj hi hm)

theorem clear32 {k : Nat} (hk : 1 ≤ k) {L : List (Pt ℚ)} {i : Nat} {p : Pt ℚ} (hp : L[i]? = some p) (hm : MarginsBy 2 L i p) :
    Sgl.Clear F32 (2 * Sgl.om F32) k L i p := by
  rw [om32, mul_one]
  exact .of ga32 (by norm_num) hk hp hm

/-- C78: all other points as candidates and room for their planes and vertices: whatever the points are, the call in
single precision succeeds and returns exact rows for all points that have margins. -/
theorem C78_enough_room (h : FloatSizes hw prm) (hX : InputOK X) (hroom : Roomy prm X.length) :
    ∃ (out : TessOut F32) (L : List (Pt ℚ)), tesellateCpu 4 hw prm (X.map storePt) = .ok out ∧
      out.xyz = L.map storePt ∧ L.Perm X ∧ GoodRows 2 X L out.dnn := by
  obtain ⟨out, L, h1, h2, h3, h4⟩ := Sgl.in_enough_room_local (F := F32) h hX hroom
  rw [om32, mul_one] at h4
  exact ⟨out, L, h1, h2, h3, .of h3 h4⟩

/-- C78: fewer candidates.  If the report says that every cell reached its security radius, the rows of the points
that have margins are exact. -/
theorem C78_report (h : FloatSizes hw prm) (hX : InputOK X) (hk : prm.k < X.length) (hr : prm.useRecompute = false) :
    ∃ (out : TessOut F32) (L : List (Pt ℚ)), tesellateCpu 4 hw prm (X.map storePt) = .ok out ∧
      out.xyz = L.map storePt ∧ L.Perm X ∧ (out.report.srNotReached = 0 → GoodRows 2 X L out.dnn) := by
  obtain ⟨out, L, h1, h2, h3, -, h4⟩ := Sgl.in_tessellation_local (F := F32) h hX hk hr
  exact ⟨out, L, h1, h2, h3, fun hs => .of h3 fun i p hp hm => h4 (.inl hs) i p hp
    (clear32 (by have := h.k.1; omega) hp hm)⟩

/-- C78: with recompute there is no condition on the report. -/
theorem C78_recompute (h : FloatSizes hw prm) (hX : InputOK X) (hk : prm.k < X.length) (hr : prm.useRecompute = true)
    (hp : (X.length : Int) + 5 ≤ prm.pm) (ht : 2 * (X.length : Int) + 6 ≤ prm.tm) :
    ∃ (out : TessOut F32) (L : List (Pt ℚ)), tesellateCpu 4 hw prm (X.map storePt) = .ok out ∧
      out.xyz = L.map storePt ∧ L.Perm X ∧ GoodRows 2 X L out.dnn := by
  obtain ⟨out, L, h1, h2, h3, h4⟩ := Sgl.in_recompute_local (F := F32) h hX hk hr hp ht
  exact ⟨out, L, h1, h2, h3, .of h3 fun i p hp hm => h4 i p hp fun k hk => clear32 hk hp hm⟩

/-- C78: the same whatever the compiler contracts. -/
theorem C78_fused (ch : Choice b32) (h : FloatSizes hw prm) (hX : InputOK X) (hroom : Roomy prm X.length) :
    ∃ (out : TessOut (Fm ch)) (L : List (Pt ℚ)), tesellateCpu 4 hw prm (X.map (storeFm ch)) = .ok out ∧
      out.xyz = L.map (storeFm ch) ∧ L.Perm X ∧ GoodRows 2 X L out.dnn := by
  obtain ⟨out, L, h1, h2, h3, h4⟩ := Sgl.in_enough_room_local (F := Fm ch) h hX hroom
  rw [fm32_two] at h4
  exact ⟨out, L, h1, h2, h3, .of h3 h4⟩

/-- C78: every execution on a GPU. -/
theorem C78_gpu (ch : Choice b32) {ndsize : Int} (h : FloatSizes hw prm) (hX : InputOK X) (hroom : Roomy prm X.length)
    (hgr : prm.gr ≤ 255) (htm : prm.tm ≤ 254) (hu : Unchunked prm X.length) {out : TessOut (Fm ch)}
    (ho : TesellateGpu 4 hw ndsize true prm (X.map (storeFm ch)) out) :
    ∃ L : List (Pt ℚ), out.xyz = L.map (storeFm ch) ∧ L.Perm X ∧ GoodRows 2 X L out.dnn := by
  obtain ⟨L, h2, h3, h4⟩ := Sgl.in_gpu_local (F := Fm ch) h hX hroom hgr htm hu ho
  rw [fm32_two] at h4
  exact ⟨L, h2, h3, .of h3 h4⟩

/-- C78: in double precision with the margins of double precision. -/
theorem C78_double (h : FloatSizes hw prm) (hX : InputOK X) (hroom : Roomy prm X.length) :
    ∃ (out : TessOut Dbl) (L : List (Pt ℚ)), tesellateCpu 4 hw prm (X.map storeDbl) = .ok out ∧
      out.xyz = L.map storeDbl ∧ L.Perm X ∧ GoodRows (2 / 2 ^ 29) X L out.dnn := by
  obtain ⟨out, L, h1, h2, h3, h4⟩ := Sgl.in_enough_room_local (F := Dbl) h hX hroom
  rw [dbl_two] at h4
  exact ⟨out, L, h1, h2, h3, .of h3 h4⟩

/-- C78: what is elsewhere has no influence.  `p` has margins among `X`, and `c` is a point of `X` that does not
matter for its cell.  Then the points that are not closer to `p` than `c` may be moved, removed, added or made to
coincide, as long as they do not come closer than `c` was: the row of `p` lists the same points as before. -/
theorem C78_elsewhere {hw' : Nat} {prm' : Params} {Y : List (Pt ℚ)} (h : FloatSizes hw prm) (hX : InputOK X)
    (hroom : Roomy prm X.length) (h' : FloatSizes hw' prm') (hY : InputOK Y) (hroom' : Roomy prm' Y.length)
    {j : Nat} {p c : Pt ℚ} (hp : X[j]? = some p) (hm : MarginsBy 2 X j p) (hcX : c ∈ X) (hc : ¬ Matters X p c)
    (hXY : (closerTo X p c).Perm (closerTo Y p c)) {out out' : TessOut F32}
    (ho : tesellateCpu 4 hw prm (X.map storePt) = .ok out) (ho' : tesellateCpu 4 hw' prm' (Y.map storePt) = .ok out') :
    ∃ L L' : List (Pt ℚ), out.xyz = L.map storePt ∧ out'.xyz = L'.map storePt ∧ L.Perm X ∧ L'.Perm Y ∧
      (∃ i : Nat, L[i]? = some p) ∧ (∃ i : Nat, L'[i]? = some p) ∧
      ∀ i i' row row', L[i]? = some p → L'[i']? = some p → RowIs out.dnn i row → RowIs out'.dnn i' row' →
        ∀ q, q ∈ sitesOf L row ↔ q ∈ sitesOf L' row' := by
  obtain ⟨o1, L, e1, e2, e3, e4⟩ := C78_enough_room h hX hroom
  rw [ho] at e1; cases e1
  obtain ⟨o2, L', f1, f2, f3, f4⟩ := C78_enough_room h' hY hroom'
  rw [ho'] at f1; cases f1
  have hpX := List.mem_of_getElem? hp
  have hpc : sqDist p p < sqDist p c := Matters.lt hc fun d hd => by
    have h2 := of_decide_eq_true (List.mem_filter.mp hd).2
    have h0 : sqDist p p = 0 := by simp [sqDist]
    rw [h0] at h2
    exact absurd (sqDist_nonneg _ _) (not_le.mpr h2)
  have hpY := mem_agree hXY hpX hpc
  obtain ⟨j', hj'⟩ := List.getElem?_of_mem hpY
  have hmY := hm.elsewhere hXY hcX hc hp hj'
  refine ⟨L, L', e2, f2, e3, f3, List.getElem?_of_mem (e3.mem_iff.mpr hpX), List.getElem?_of_mem (f3.mem_iff.mpr hpY), ?_⟩
  intro i i' row row' hi hi' hr hr' q
  obtain ⟨r, a1, a2, a3⟩ := e4 j p hp hm i hi
  obtain ⟨r', b1, b2, b3⟩ := f4 j' p hj' hmY i' hi'
  rw [hr.unique a1, hr'.unique b1]
  have hLL : (closerTo L p c).Perm (closerTo L' p c) := (e3.filter _).trans (hXY.trans (f3.symm.filter _))
  exact sites_agree hLL (fun hmat => hc (matters_perm e3 hmat)) hi hi' a2 a3 b2 b3 q

end

/-! ### examples -/

/-- the first point has margins though two others coincide -/
def spoilt : List (Pt ℚ) :=
  [⟨1/10, 1/10, 1/10⟩, ⟨3/10, 1/10, 1/5⟩, ⟨1/5, 2/5, 1/10⟩, ⟨1/10, 1/5, 9/20⟩, ⟨4/5, 1/5, 1/10⟩, ⟨4/5, 4/5, 9/10⟩,
    ⟨9/10, 9/10, 9/10⟩, ⟨9/10, 9/10, 9/10⟩]

/-- fewer points, other coordinates, none in common with the last three above -/
def other : List (Pt ℚ) :=
  [⟨4/5, 1/5, 1/10⟩, ⟨1/10, 1/5, 9/20⟩, ⟨1/5, 2/5, 1/10⟩, ⟨3/10, 1/10, 1/5⟩, ⟨1/10, 1/10, 1/10⟩, ⟨19/20, 19/20, 19/20⟩]

theorem spoilt_input : InputOK spoilt := by
  intro p hp
  simp only [spoilt, List.mem_cons, List.not_mem_nil, or_false] at hp
  rcases hp with rfl | rfl | rfl | rfl | rfl | rfl | rfl | rfl <;> norm_num

theorem other_input : InputOK other := by
  intro p hp
  simp only [other, List.mem_cons, List.not_mem_nil, or_false] at hp
  rcases hp with rfl | rfl | rfl | rfl | rfl | rfl <;> norm_num

set_option maxRecDepth 100000 in
theorem spoilt_margins : MarginsBy 2 spoilt 0 ⟨1/10, 1/10, 1/10⟩ :=
  (marginB_sound (by decide +kernel)).margins two_pos (input_box spoilt_input) rfl

/-- not all points have margins -/
theorem spoilt_not_all : ¬ AllMarginsBy 2 spoilt := by
  intro h
  have hm := h 6 ⟨9/10, 9/10, 9/10⟩ rfl
  have := hm.apart (input_box spoilt_input) (j := 7) (q := ⟨9/10, 9/10, 9/10⟩) rfl rfl (by decide)
  norm_num [sqDist] at this

theorem spoilt_call : ∃ (out : TessOut F32) (L : List (Pt ℚ)),
    tesellateCpu 4 8 ⟨7, 3, 13, 22, 0, 0, false, false⟩ (spoilt.map storePt) = .ok out ∧
    out.xyz = L.map storePt ∧ L.Perm spoilt ∧
    ∃ (i : Nat) (row : List Int), L[i]? = some ⟨1/10, 1/10, 1/10⟩ ∧ RowIs out.dnn i row ∧ ExactRow L i ⟨1/10, 1/10, 1/10⟩ row := by
  obtain ⟨out, L, h1, h2, h3, h4⟩ := C78_enough_room (hw := 8) (prm := ⟨7, 3, 13, 22, 0, 0, false, false⟩)
    ⟨by decide, by decide, by decide, by decide, by decide⟩ spoilt_input ⟨by decide, by decide, by decide, rfl⟩
  obtain ⟨i, hi⟩ := List.getElem?_of_mem (h3.mem_iff.mpr (List.mem_of_getElem? (show spoilt[0]? = some ⟨1/10, 1/10, 1/10⟩ from rfl)))
  obtain ⟨row, a, -, b⟩ := h4 0 _ rfl spoilt_margins i hi
  exact ⟨out, L, h1, h2, h3, i, row, hi, a, b⟩

set_option maxRecDepth 100000 in
theorem spoilt_far : ¬ Matters spoilt ⟨1/10, 1/10, 1/10⟩ ⟨4/5, 4/5, 9/10⟩ := by
  rw [← mattersB_iff]
  decide +kernel

example {out out' : TessOut F32} (ho : tesellateCpu 4 8 ⟨7, 3, 13, 22, 0, 0, false, false⟩ (spoilt.map storePt) = .ok out)
    (ho' : tesellateCpu 4 8 ⟨5, 4, 11, 18, 2, 0, false, false⟩ (other.map storePt) = .ok out') :
    ∃ L L' : List (Pt ℚ), out.xyz = L.map storePt ∧ out'.xyz = L'.map storePt ∧ L.Perm spoilt ∧ L'.Perm other ∧
      (∃ i : Nat, L[i]? = some ⟨1/10, 1/10, 1/10⟩) ∧ (∃ i : Nat, L'[i]? = some ⟨1/10, 1/10, 1/10⟩) ∧
      ∀ i i' row row', L[i]? = some ⟨1/10, 1/10, 1/10⟩ → L'[i']? = some ⟨1/10, 1/10, 1/10⟩ → RowIs out.dnn i row →
        RowIs out'.dnn i' row' → ∀ q, q ∈ sitesOf L row ↔ q ∈ sitesOf L' row' :=
  C78_elsewhere ⟨by decide, by decide, by decide, by decide, by decide⟩ spoilt_input ⟨by decide, by decide, by decide, rfl⟩
    ⟨by decide, by decide, by decide, by decide, by decide⟩ other_input ⟨by decide, by decide, by decide, rfl⟩
    (j := 0) rfl spoilt_margins (by decide +kernel) spoilt_far (by decide +kernel) ho ho'

end Votess
