import Verif.Spec.Ray
import Verif.Props.Halo
/-!
# C94 — following a straight line through the cells

Light rays, particles and profiles along a line are followed from cell to cell.  It is enough to look at the rows: the line leaves
a cell through the plane of a listed point, and it enters the cell of this point.
-/
namespace Votess

section
variable {K : Type} [Field K]

theorem rayAt_one (x y : Pt K) : rayAt x y 1 = y := by
  simp [rayAt]

theorem rayAt_zero (x y : Pt K) : rayAt x y 0 = x := by
  simp [rayAt]

/-- how much nearer `q` is than `p` changes linearly along the line -/
theorem rayAt_diff (x y p q : Pt K) (s : K) : sqDist (rayAt x y s) p - sqDist (rayAt x y s) q =
    (sqDist x p - sqDist x q) + s * ((sqDist y p - sqDist y q) - (sqDist x p - sqDist x q)) := by
  unfold rayAt sqDist
  ring

variable [LinearOrder K] [IsStrictOrderedRing K]

theorem rayAt_box {x y : Pt K} (hx : InUnitBox x) (hy : InUnitBox y) {s : K} (h0 : 0 ≤ s) (h1 : s ≤ 1) :
    InUnitBox (rayAt x y s) := by
  obtain ⟨⟨a, b⟩, ⟨c, d⟩, e, f⟩ := hx
  obtain ⟨⟨a', b'⟩, ⟨c', d'⟩, e', f'⟩ := hy
  have key : ∀ v w : K, 0 ≤ v → v ≤ 1 → 0 ≤ w → w ≤ 1 → 0 ≤ v + s * (w - v) ∧ v + s * (w - v) ≤ 1 := by
    intro v w v0 v1 w0 w1
    have e : v + s * (w - v) = (1 - s) * v + s * w := by ring
    have p1 := mul_nonneg (sub_nonneg.mpr h1) v0
    have p2 := mul_nonneg h0 w0
    have p3 := mul_nonneg (sub_nonneg.mpr h1) (sub_nonneg.mpr v1)
    have p4 := mul_nonneg h0 (sub_nonneg.mpr w1)
    rw [e]
    constructor <;> linarith
  exact ⟨key _ _ a b a' b', key _ _ c d c' d', key _ _ e f e' f'⟩

variable {L : List (Pt K)} {N : Nat → Nat → Prop}

/-- the listed points determine the cells -/
def CellsListed (L : List (Pt K)) (N : Nat → Nat → Prop) : Prop :=
  ∀ (i : Nat) (p : Pt K), L[i]? = some p → ∀ x, InUnitBox x →
    (∀ (w : Nat) (q : Pt K), N i w → L[w]? = some q → sqDist x p ≤ sqDist x q) → VoronoiCell p L x

theorem hit_next (hN : CellsListed L N) {x y : Pt K} (hx : InUnitBox x) (hy : InUnitBox y) {u : K} {i w : Nat} {p q : Pt K}
    (h0 : 0 ≤ u) (h1 : u ≤ 1) (hp : L[i]? = some p) (h : FirstHit L N x y u i w p q) :
    VoronoiCell p L (rayAt x y u) ∧ VoronoiCell q L (rayAt x y u) ∧
      ∀ s, u < s → s ≤ 1 → ¬ VoronoiCell p L (rayAt x y s) := by
  have hc := hN i p hp _ (rayAt_box hx hy h0 h1) h.first
  refine ⟨hc, ⟨hc.1, fun r hr => h.plane.le.trans (hc.2 r hr)⟩, fun s h2 h3 hs => ?_⟩
  have c1 := hs.2 q (List.mem_of_getElem? h.point)
  have c2 := rayAt_diff x y p q s
  have c3 := rayAt_diff x y p q u
  have c4 := h.plane
  have c5 := h.away
  have c6 := rayAt_diff x y p q 1
  rw [rayAt_one] at c6
  set D := (sqDist y p - sqDist y q) - (sqDist x p - sqDist x q)
  have hD : 0 < D := by
    by_contra hn
    have : (1 - u) * D ≤ 0 := mul_nonpos_of_nonneg_of_nonpos (by linarith) (not_lt.mp hn)
    nlinarith
  have : 0 < (s - u) * D := mul_pos (by linarith) hD
  nlinarith

/-- a line that does not end in the cell in which it is leaves it through the plane of a listed point -/
theorem exists_hit (hN : CellsListed L N) {x y : Pt K} (hy : InUnitBox y) {t : K} {i : Nat} {p : Pt K}
    (h1 : t ≤ 1) (hp : L[i]? = some p) (hc : VoronoiCell p L (rayAt x y t)) (hn : ¬ VoronoiCell p L y) :
    ∃ u w q, t ≤ u ∧ u < 1 ∧ FirstHit L N x y u i w p q := by
  classical
  let S := L.toFinset.filter fun q => (∃ w, N i w ∧ L[w]? = some q) ∧ sqDist y q < sqDist y p
  let ρ : Pt K → K := fun q => -(sqDist x p - sqDist x q) / ((sqDist y p - sqDist y q) - (sqDist x p - sqDist x q))
  have hS : S.Nonempty := by
    by_contra he
    refine hn (hN i p hp y hy fun w q h2 h3 => ?_)
    by_contra h4
    exact he ⟨q, Finset.mem_filter.mpr ⟨List.mem_toFinset.mpr (List.mem_of_getElem? h3), ⟨w, h2, h3⟩, not_le.mp h4⟩⟩
  have facts : ∀ q ∈ S, 0 < (sqDist y p - sqDist y q) - (sqDist x p - sqDist x q) ∧ t ≤ ρ q ∧ ρ q < 1 := by
    intro q hq
    obtain ⟨m1, -, m2⟩ := Finset.mem_filter.mp hq
    have c1 := hc.2 q (List.mem_toFinset.mp m1)
    have c2 := rayAt_diff x y p q t
    have hD : 0 < (sqDist y p - sqDist y q) - (sqDist x p - sqDist x q) := by
      by_contra hneg
      have := mul_nonpos_of_nonneg_of_nonpos (sub_nonneg.mpr h1) (not_lt.mp hneg)
      nlinarith
    refine ⟨hD, ?_, ?_⟩
    · rw [le_div_iff₀ hD]; linarith
    · rw [div_lt_one hD]; linarith
  obtain ⟨q, hq, hmin⟩ := Finset.exists_min_image S ρ hS
  obtain ⟨hD, f1, f2⟩ := facts q hq
  obtain ⟨-, ⟨w, m3, m4⟩, m5⟩ := Finset.mem_filter.mp hq
  refine ⟨ρ q, w, q, f1, f2, m3, m4, ?_, m5, fun w' q' n1 n2 => ?_⟩
  · have c := rayAt_diff x y p q (ρ q)
    have e : ρ q * ((sqDist y p - sqDist y q) - (sqDist x p - sqDist x q)) = -(sqDist x p - sqDist x q) :=
      div_mul_cancel₀ _ hD.ne'
    rw [e] at c
    linarith
  · have mem := List.mem_of_getElem? n2
    have c := rayAt_diff x y p q' (ρ q)
    by_cases hq' : sqDist y q' < sqDist y p
    · have hS' : q' ∈ S := Finset.mem_filter.mpr ⟨List.mem_toFinset.mpr mem, ⟨w', n1, n2⟩, hq'⟩
      obtain ⟨hD', -, -⟩ := facts q' hS'
      have hle := (le_div_iff₀ hD').mp (hmin q' hS')
      linarith
    · have c1 := hc.2 q' mem
      have c2 := rayAt_diff x y p q' t
      have c3 := not_lt.mp hq'
      by_contra hlt
      have hlt' := not_le.mp hlt
      set A := sqDist x p - sqDist x q'
      set D := sqDist y p - sqDist y q' - A
      have hD' : 0 < (ρ q - t) * D := by nlinarith
      have hDp : 0 < D := by
        by_contra hneg
        have := mul_nonpos_of_nonneg_of_nonpos (sub_nonneg.mpr f1) (not_lt.mp hneg)
        linarith
      have := mul_pos (sub_pos.mpr f2) hDp
      nlinarith

/-- between two places of a cell the line is in the cell -/
theorem rayAt_between {x y : Pt K} (hx : InUnitBox x) (hy : InUnitBox y) {p : Pt K} {t u : K} (h0 : 0 ≤ t) (h1 : u ≤ 1)
    (ht : VoronoiCell p L (rayAt x y t)) (hu : VoronoiCell p L (rayAt x y u)) :
    ∀ s, t ≤ s → s ≤ u → VoronoiCell p L (rayAt x y s) := by
  intro s s1 s2
  refine ⟨rayAt_box hx hy (h0.trans s1) (s2.trans h1), fun q hq => ?_⟩
  have a := ht.2 q hq
  have b := hu.2 q hq
  have c1 := rayAt_diff x y p q t
  have c2 := rayAt_diff x y p q u
  have c3 := rayAt_diff x y p q s
  set A := sqDist x p - sqDist x q
  set D := sqDist y p - sqDist y q - A
  rcases le_total 0 D with h | h
  · have := mul_nonneg (sub_nonneg.mpr s2) h
    linarith
  · have := mul_nonpos_of_nonneg_of_nonpos (sub_nonneg.mpr s1) h
    linarith

/-- C94: rows that determine the cells are enough to follow lines. -/
theorem C94_follow (hN : CellsListed L N) : Traversable L N := by
  classical
  refine ⟨fun x y hx hy i p hp hc => ?_, fun x y hx hy u i w p q h0 h1 hp h => hit_next hN hx hy h0 h1 hp h⟩
  suffices main : ∀ (n : Nat) (t : K) (i : Nat) (p : Pt K), 0 ≤ t → t ≤ 1 → L[i]? = some p → VoronoiCell p L (rayAt x y t) →
      (L.toFinset.filter fun q => sqDist y q < sqDist y p).card ≤ n → RayPath L N x y t i from
    main _ 0 i p le_rfl zero_le_one hp (by rw [rayAt_zero]; exact hc) le_rfl
  intro n
  induction n with
  | zero =>
    intro t i p h0 h1 hp hc hn
    have hy' : VoronoiCell p L (rayAt x y 1) := by
      rw [rayAt_one]
      refine ⟨hy, fun q hq => ?_⟩
      by_contra hlt
      have hmem : q ∈ L.toFinset.filter fun q => sqDist y q < sqDist y p :=
        Finset.mem_filter.mpr ⟨List.mem_toFinset.mpr hq, not_le.mp hlt⟩
      have := Finset.card_pos.mpr ⟨q, hmem⟩
      omega
    exact .last hp (rayAt_between hx hy h0 le_rfl hc hy')
  | succ n ih =>
    intro t i p h0 h1 hp hc hn
    by_cases hend : VoronoiCell p L y
    · exact .last hp (rayAt_between hx hy h0 le_rfl hc (by rw [rayAt_one]; exact hend))
    obtain ⟨u, w, q, u1, u2, hh⟩ := exists_hit hN hy h1 hp hc hend
    obtain ⟨k1, k2, k3⟩ := hit_next hN hx hy (h0.trans u1) u2.le hp hh
    refine .cross hp u1 u2 (rayAt_between hx hy h0 u2.le hc k1) k3 hh.listed (ih u w q (h0.trans u1) u2.le hh.point k2 ?_)
    have hlt : (L.toFinset.filter fun r => sqDist y r < sqDist y q).card <
        (L.toFinset.filter fun r => sqDist y r < sqDist y p).card := by
      refine Finset.card_lt_card (Finset.ssubset_iff_of_subset (fun r hr => ?_) |>.mpr ⟨q, ?_, ?_⟩)
      · obtain ⟨a, b⟩ := Finset.mem_filter.mp hr
        exact Finset.mem_filter.mpr ⟨a, b.trans hh.away⟩
      · exact Finset.mem_filter.mpr ⟨List.mem_toFinset.mpr (List.mem_of_getElem? hh.point), hh.away⟩
      · intro hq
        exact lt_irrefl _ (Finset.mem_filter.mp hq).2
    omega

omit [IsStrictOrderedRing K] in
theorem cellsListed_of_rows {R : Nat → List Int → Prop}
    (h : ∀ i p, L[i]? = some p → ∃ row, R i row ∧ CorrectRow L i p row) :
    CellsListed L fun i w => ∃ row, R i row ∧ (w : Int) ∈ row := by
  intro i p hp x hx hw
  obtain ⟨row, r1, r2⟩ := h i p hp
  refine (r2.cell x).mp ⟨hx, fun q hq => ?_⟩
  obtain ⟨v, hv, hq⟩ := List.mem_filterMap.mp hq
  obtain ⟨w, q', rfl, -⟩ := r2.touch v hv
  exact hw w q ⟨row, r1, hv⟩ (by simpa using hq)

end

section exact
variable {K : Type} [Field K] [LinearOrder K] [IsStrictOrderedRing K] [FloorRing K] [Inhabited K] {nb hw : Nat}
  {prm : Params} {xyz : List (Pt K)}

/-- C94: exact arithmetic; the points need not be in general position. -/
theorem C94_exact (h : ExactJob nb hw prm xyz) (hr : prm.useRecompute = false) :
    ∃ out, tesellateCpu nb hw prm xyz = .ok out ∧ out.xyz.Perm xyz ∧
      ((out.report.srNotReached = 0 ∨ (xyz.length - 1 ≤ prm.k.toNat ∧ out.report.infBoundary = 0 ∧
          out.report.pOverflow = 0 ∧ out.report.tOverflow = 0)) →
        Traversable out.xyz fun i w => ∃ row, RowIs out.dnn i row ∧ (w : Int) ∈ row) := by
  obtain ⟨out, h1, h2, h3⟩ := C24_tessellation h hr
  refine ⟨out, h1, h2, fun hc => C94_follow (cellsListed_of_rows fun i p hp => ?_)⟩
  obtain ⟨row, r1, r2, -⟩ := h3 hc i p hp
  exact ⟨row, r1, r2⟩

end exact

/-- C94: every way to compute a tessellation in rounded arithmetic (C89). -/
theorem C94_computed {X : List (Pt ℚ)} {P : List (Pt ℚ) → Prop} {R : Nat → List Int → Prop} (hX : InputOK X)
    (hm : AllMarginsBy (2 + 1 / 2 ^ 29) X) (hc : Computed X P R) :
    ∃ L : List (Pt ℚ), P L ∧ L.Perm X ∧ Traversable L fun i w => ∃ row, R i row ∧ (w : Int) ∈ row := by
  obtain ⟨L, h1, h2, h3⟩ := C89_exact hX hm hc
  refine ⟨L, h1, h2, C94_follow (cellsListed_of_rows fun i p hp => ?_)⟩
  obtain ⟨row, r1, r2, -⟩ := h3 i p hp
  exact ⟨row, r1, r2⟩

/-! ### examples -/

/-- three points in exact arithmetic -/
example : ∃ out, tesellateCpu 4 8 ⟨2, 1, 8, 12, 0, 0, false, false⟩ flatTriangle = .ok out ∧
    Traversable out.xyz fun i w => ∃ row, RowIs out.dnn i row ∧ (w : Int) ∈ row := by
  obtain ⟨out, h1, h2, h3⟩ := C94_exact flatTriangle_job rfl
  obtain ⟨out', e1, -, e2, -⟩ := C64_enough_room flatTriangle_job rfl (by decide) (by decide) (by decide)
  rw [h1] at e1; cases e1
  exact ⟨out, h1, h3 (.inr ⟨by decide, e2.1, e2.2.2.1, e2.2.2.2.1⟩)⟩

/-- the ten points of the README, from Python -/
example (ch : Choice b32) (found : Bool) (dev : Device) : ∃ d : Dnn,
    Traversable readmePts fun i w => ∃ row, PyRow d i row ∧ (w : Int) ∈ row := by
  have hm : AllMarginsBy (2 + 1 / 2 ^ 29) readmePts := readme_margins.mono (by norm_num) (by norm_num)
  have hs : FloatSizes 1 ⟨9, 1, 32, 32, 0, 0, false, false⟩ := by constructor <;> simp
  have hroom : Roomy ⟨9, 1, 32, 32, 0, 0, false, false⟩ readmePts.length := by constructor <;> simp [readmePts]
  obtain ⟨m', e, ⟨d, hd⟩, -⟩ := C80_python ch (hw := 1) le_rfl found dev
  have hp : m'.params = .ok ⟨9, 1, 32, 32, 0, 0, false, false⟩ := by
    obtain ⟨m2, e2, h2, -⟩ := readmePy_params
    rw [e] at e2; cases e2; exact h2
  have c : Computed readmePts _ _ := .python ch hp hs (.inl hroom) (by simp [readmePts]) rfl (by simp) (by simp) (.inl rfl) hd
  obtain ⟨L, h1, -, h3⟩ := C94_computed readme_input hm c
  obtain rfl := h1 (C79_one_cell ch readme_input)
  exact ⟨d, h3⟩

/-- a line that crosses the plane between two points half way -/
example : FirstHit (K := ℚ) [⟨1/4, 1/2, 1/2⟩, ⟨3/4, 1/2, 1/2⟩] (fun i w => i ≠ w) ⟨1/8, 1/3, 1/3⟩ ⟨7/8, 1/2, 2/3⟩ (1/2) 0 1
    ⟨1/4, 1/2, 1/2⟩ ⟨3/4, 1/2, 1/2⟩ := by
  refine ⟨by decide, rfl, by norm_num [rayAt, sqDist], by norm_num [sqDist], fun w q h1 h2 => ?_⟩
  match w, h1, h2 with
  | 1, _, h2 => obtain rfl := Option.some.inj h2; norm_num [rayAt, sqDist]
  | n + 2, _, h2 => simp at h2

end Votess
