import Verif.Proofs.IeeeTable
import Verif.Props.Driver
/-!
# C65 — calls with single precision coordinates

The other theorems on the grid either hold for any arithmetic and assume that the cell numbers are in
range, or they are about exact arithmetic.  Here the arithmetic is that of `float`, and the question
is for which coordinates the cell numbers are in range.
-/
namespace Votess

/-- the coordinates are finite and between `0` and `b` -/
def CoordsIn (b : ℚ) (p : Pt F32) : Prop :=
  ∃ x y z : ℚ, p = ⟨.fin x, .fin y, .fin z⟩ ∧ (0 ≤ x ∧ x ≤ b) ∧ (0 ≤ y ∧ y ≤ b) ∧ (0 ≤ z ∧ z ≤ b)

/-- the coordinates are `float` values in `[0, 1)` -/
def FloatUnit (p : Pt F32) : Prop :=
  ∃ x y z : ℚ, p = ⟨.fin x, .fin y, .fin z⟩ ∧ (IsFl b32 x ∧ IsFl b32 y ∧ IsFl b32 z) ∧
    (0 ≤ x ∧ x < 1) ∧ (0 ≤ y ∧ y < 1) ∧ (0 ≤ z ∧ z < 1)

theorem cellId32 {gr : Int} (h1 : 1 ≤ gr) (h2 : gr ≤ 2 ^ 24) {x y z : ℚ} (hx : 0 ≤ x ∧ x ≤ 1)
    (hy : 0 ≤ y ∧ y ≤ 1) (hz : 0 ≤ z ∧ z ≤ 1) :
    cellId gr (⟨.fin x, .fin y, .fin z⟩ : Pt F32)
      = .ok (gcoord32 gr x + gcoord32 gr y * gr + gcoord32 gr z * gr * gr) := by
  unfold cellId
  simp only [gridCoord32 h1 h2 hx.1 hx.2, gridCoord32 h1 h2 hy.1 hy.2, gridCoord32 h1 h2 hz.1 hz.2,
    bind_ok, pure_eq_ok]

theorem id_range {gr a b c : Int} (ha : 0 ≤ a ∧ a < gr) (hb : 0 ≤ b ∧ b < gr)
    (hc : 0 ≤ c ∧ c < gr) : 0 ≤ a + b * gr + c * gr * gr ∧ a + b * gr + c * gr * gr < gr * gr * gr := by
  have := cellOf_range (gr := gr) (c := (a, b, c)) ⟨ha, hb, hc⟩
  unfold cellOf at this
  simp only at this
  constructor
  · linarith [this.1]
  · linarith [this.2]

/-- C65: every point with coordinates between `0` and `1 - 2^-23` gets a cell number in range,
whatever the grid: the rounding of `1.0f / gr` and of the quotient does no harm. -/
theorem C65_cell {gr : Int} (h1 : 1 ≤ gr) (h2 : gr ≤ 2 ^ 24) {p : Pt F32}
    (hp : CoordsIn (1 - 1 / 2 ^ 23) p) :
    ∃ c, cellId gr p = .ok c ∧ 0 ≤ c ∧ c < gr * gr * gr := by
  obtain ⟨x, y, z, rfl, hx, hy, hz⟩ := hp
  have hb : (1 : ℚ) - 1 / 2 ^ 23 ≤ 1 := by norm_num
  refine ⟨_, cellId32 h1 h2 ⟨hx.1, hx.2.trans hb⟩ ⟨hy.1, hy.2.trans hb⟩ ⟨hz.1, hz.2.trans hb⟩, ?_⟩
  exact id_range ⟨gcoord32_nonneg h1 h2 hx.1, gcoord32_lt h1 h2 hx.1 hx.2⟩
    ⟨gcoord32_nonneg h1 h2 hy.1, gcoord32_lt h1 h2 hy.1 hy.2⟩
    ⟨gcoord32_nonneg h1 h2 hz.1, gcoord32_lt h1 h2 hz.1 hz.2⟩

/-- the largest `float` below `1` -/
def below1 : ℚ := 1 - 1 / 2 ^ 24

theorem float_lt_one {x : ℚ} (hx : IsFl b32 x) (h : x < 1) : x ≤ below1 := by
  obtain ⟨m, e, h1, h2, h3⟩ := hx
  have hm : m < 2 ^ 24 := lt_of_le_of_lt (le_abs_self m) h1
  by_contra hc
  rw [not_le] at hc
  have hpe := pow2_pos e
  unfold below1 at hc
  by_cases he : e ≤ -24
  · have hp : pow2 e ≤ 1 / 2 ^ 24 := (pow2_le he).trans (by rw [pow2_eq]; norm_num)
    have : (m : ℚ) ≤ 2 ^ 24 - 1 := by exact_mod_cast (by omega : m ≤ 2 ^ 24 - 1)
    have hx2 : x ≤ (2 ^ 24 - 1) * pow2 e := by
      rw [h3]; exact mul_le_mul_of_nonneg_right this hpe.le
    have : (2 ^ 24 - 1) * pow2 e ≤ ((2 : ℚ) ^ 24 - 1) * (1 / 2 ^ 24) :=
      mul_le_mul_of_nonneg_left hp (by norm_num)
    norm_num at *
    linarith
  · -- a multiple of 2^-23 below 1
    have hd : ∃ d : Nat, e = -23 + d := ⟨(e + 23).toNat, by omega⟩
    obtain ⟨d, rfl⟩ := hd
    have hxi : x * 2 ^ 23 = ((m * 2 ^ d : Int) : ℚ) := by
      rw [h3, pow2_add, pow2_nat, show pow2 (-23) = 1 / 2 ^ 23 by rw [pow2_eq]; norm_num]
      push_cast; field_simp
    have : ((m * 2 ^ d : Int) : ℚ) < ((2 ^ 23 : Int) : ℚ) := by rw [← hxi]; push_cast; linarith
    have : m * 2 ^ d < 2 ^ 23 := by exact_mod_cast this
    have : m * 2 ^ d ≤ 2 ^ 23 - 1 := by omega
    have : ((m * 2 ^ d : Int) : ℚ) ≤ ((2 ^ 23 - 1 : Int) : ℚ) := Int.cast_le.mpr this
    rw [← hxi] at this
    push_cast at this
    linarith

/-- C65: for a given grid all `float` coordinates in `[0, 1)` are fine if the single value `1 - 2^-24`
is. -/
theorem C65_cell_unit {gr : Int} (h1 : 1 ≤ gr) (h2 : gr ≤ 2 ^ 24)
    (hb : ∃ i, gridCoord (FP.recip gr) (.fin (1 - 1 / 2 ^ 24) : F32) = .ok i ∧ i < gr) {p : Pt F32}
    (hp : FloatUnit p) : ∃ c, cellId gr p = .ok c ∧ 0 ≤ c ∧ c < gr * gr * gr := by
  obtain ⟨i, hi, hlt⟩ := hb
  rw [gridCoord32 h1 h2 (by norm_num) (by norm_num)] at hi
  cases hi
  obtain ⟨x, y, z, rfl, ⟨fx, fy, fz⟩, hx, hy, hz⟩ := hp
  have key : ∀ t : ℚ, IsFl b32 t → 0 ≤ t ∧ t < 1 → 0 ≤ gcoord32 gr t ∧ gcoord32 gr t < gr :=
    fun t ft ht => ⟨gcoord32_nonneg h1 h2 ht.1,
      lt_of_le_of_lt (gcoord32_mono h1 h2 (float_lt_one ft ht.2)) hlt⟩
  exact ⟨_, cellId32 h1 h2 ⟨hx.1, hx.2.le⟩ ⟨hy.1, hy.2.le⟩ ⟨hz.1, hz.2.le⟩,
    id_range (key x fx hx) (key y fy hy) (key z fz hz)⟩

theorem topSafe_iff (gr : Int) : topSafe gr = true ↔
    ∃ i, gridCoord (FP.recip gr) (.fin (1 - 1 / 2 ^ 24) : F32) = .ok i ∧ i < gr := by
  unfold topSafe
  split
  · rename_i i h; rw [h]; simp
  · rename_i e h; rw [h]; simp

/-- C65: for the grids not in the table, every point with `float` coordinates in `[0, 1)` gets a cell
number in range. -/
theorem C65_cell_good {gr : Int} (h1 : 1 ≤ gr) (h2 : gr ≤ 1290) (hg : gr ∉ badGrids) {p : Pt F32}
    (hp : FloatUnit p) : ∃ c, cellId gr p = .ok c ∧ 0 ≤ c ∧ c < gr * gr * gr :=
  C65_cell_unit h1 (by omega) ((topSafe_iff gr).mp ((topSafe_iff_table h1 h2).mpr hg)) hp

/-- C65: in particular for every grid up to `24 x 24 x 24`. -/
theorem C65_cell_small {gr : Int} (h1 : 1 ≤ gr) (h2 : gr ≤ 24) {p : Pt F32} (hp : FloatUnit p) :
    ∃ c, cellId gr p = .ok c ∧ 0 ≤ c ∧ c < gr * gr * gr := by
  refine C65_cell_good h1 (by omega) ?_ hp
  have : ∀ n : Fin 25, (n.val : Int) ∉ badGrids := by decide +kernel
  have := this ⟨gr.toNat, by omega⟩
  simpa [Int.toNat_of_nonneg (show 0 ≤ gr by omega)] using this

/-- C65: for a power of two there is no rounding at all: the cell number is the exact one. -/
theorem C65_power_of_two {n : Nat} (hn : n ≤ 24) {x : ℚ} (hx : IsFl b32 x) (h0 : 0 ≤ x) (h1 : x < 1) :
    gridCoord (FP.recip (2 ^ n : Int)) (.fin x : F32) = .ok ⌊x * 2 ^ n⌋ := by
  have g1 : (1 : Int) ≤ 2 ^ n := one_le_pow₀ (by norm_num)
  have g2 : (2 : Int) ^ n ≤ 2 ^ 24 := pow_le_pow_right₀ (by norm_num) hn
  rw [gridCoord32 g1 g2 h0 h1.le]
  have e1 : gl32 (2 ^ n) = pow2 (-(n : Int)) := by
    unfold gl32
    have : (1 : ℚ) / ((2 ^ n : Int) : ℚ) = pow2 (-(n : Int)) := by
      rw [pow2_eq, zpow_neg, zpow_natCast]; push_cast; rw [one_div]
    rw [this]
    exact rnd_fl b32_p (isFl_pow2 b32_p (by show (-149 : Int) ≤ _; omega))
  have e2 : x / pow2 (-(n : Int)) = x * 2 ^ n := by
    rw [pow2_eq, zpow_neg, zpow_natCast, div_inv_eq_mul]
  unfold gcoord32
  rw [e1, e2]
  obtain ⟨m, e, a, b, rfl⟩ := hx
  have : (m : ℚ) * pow2 e * 2 ^ n = m * pow2 (e + n) := by rw [pow2_add, pow2_nat]; ring
  rw [this, rnd_fl b32_p ⟨m, e + n, a, by omega, rfl⟩]

/-! ### whole calls -/

/-- sizes for which the driver is defined; the number of cells fits in `int` -/
structure FloatSizes (hw : Nat) (prm : Params) : Prop where
  gr : 1 ≤ prm.gr ∧ prm.gr ≤ 1290
  k : 1 ≤ prm.k ∧ prm.k < 65536
  pm : 6 ≤ prm.pm ∧ prm.pm ≤ 255
  tm : 8 ≤ prm.tm ∧ prm.tm < 32768
  threads : prm.nthreads ≠ 0 ∨ 1 ≤ hw

/-- the coordinates are safe: all are at most `1 - 2^-23`, or the grid is not in the table and they
are `float` values below `1` -/
def SafePoints (gr : Int) (xyz : List (Pt F32)) : Prop :=
  (∀ p ∈ xyz, CoordsIn (1 - 1 / 2 ^ 23) p) ∨ (gr ∉ badGrids ∧ ∀ p ∈ xyz, FloatUnit p)

instance : Inhabited F32 := ⟨.fin 0⟩

theorem safe_cells {hw : Nat} {prm : Params} {xyz : List (Pt F32)} (h : FloatSizes hw prm)
    (hs : SafePoints prm.gr xyz) :
    ∀ p ∈ xyz, ∃ c, cellId prm.gr p = .ok c ∧ 0 ≤ c ∧ c < prm.gr * prm.gr * prm.gr := by
  have h1 := h.gr
  intro p hp
  rcases hs with hs | ⟨hg, hs⟩
  · exact C65_cell h1.1 (by omega) (hs p hp)
  · exact C65_cell_good h1.1 h1.2 hg (hs p hp)

theorem safe_job {hw : Nat} {prm : Params} {xyz : List (Pt F32)} (h : FloatSizes hw prm)
    (hs : SafePoints prm.gr xyz) : JobOK 4 hw prm xyz := by
  obtain ⟨⟨g1, g2⟩, ⟨k1, k2⟩, ⟨p1, p2⟩, ⟨t1, t2⟩, th⟩ := h
  refine ⟨g1, ?_, k1, k2, p1, p2, t1, t2, th⟩
  intro p hp c hc
  obtain ⟨c', e, c1, c2⟩ := safe_cells ⟨⟨g1, g2⟩, ⟨k1, k2⟩, ⟨p1, p2⟩, ⟨t1, t2⟩, th⟩ hs p hp
  rw [hc] at e; cases e
  refine ⟨c1, c2, lt_of_lt_of_le c2 ?_⟩
  calc prm.gr * prm.gr * prm.gr ≤ 1290 * 1290 * 1290 := by
        have a : prm.gr * prm.gr ≤ 1290 * 1290 := by nlinarith
        nlinarith
    _ ≤ 256 ^ 4 := by norm_num

/-- C65: a call with single precision arithmetic does nothing undefined: it succeeds, the points are
permuted, and the row of every point is the row computed for that point alone. -/
theorem C65_call {hw : Nat} {prm : Params} {xyz : List (Pt F32)} (h : FloatSizes hw prm)
    (hs : SafePoints prm.gr xyz) (hr : prm.useRecompute = false) :
    ∃ S out, xyzSort 4 prm.gr xyz = .ok S ∧ S.xyz.Perm xyz ∧
      tesellateCpu 4 hw prm xyz = .ok out ∧ out.xyz = S.xyz ∧
      ∀ i, i < xyz.length → RowIs out.dnn i (rowOf S prm.gr prm.args i) := by
  have hc := safe_cells h hs
  obtain ⟨S, hS⟩ := (C05_sort_safe_iff 4 prm.gr xyz h.gr.1).mpr (fun p hp => by
    obtain ⟨c, a, b, d⟩ := hc p hp; exact ⟨c, a, by omega, d⟩)
  have hp := C01_sort_permutes 4 prm.gr xyz S hS
  obtain ⟨out, o1, o2, -, o4⟩ := C32_rows (safe_job h hs) hS hr
  exact ⟨S, out, hS, hp, o1, o2, fun i hi => o4 i (by rw [hp.length_eq]; exact hi)⟩

/-- C65: so does a call with recompute, for up to 122 points (more as long as the arithmetic gives no
cell with more than 128 planes, see `C37_rows`). -/
theorem C65_call_recompute {hw : Nat} {prm : Params} {xyz : List (Pt F32)} (h : FloatSizes hw prm)
    (hs : SafePoints prm.gr xyz) (hr : prm.useRecompute = true) (hk : prm.k ≤ 121)
    (h2 : 2 ≤ xyz.length) (hn : xyz.length ≤ 122) :
    ∃ S out, xyzSort 4 prm.gr xyz = .ok S ∧ S.xyz.Perm xyz ∧
      tesellateCpu 4 hw prm xyz = .ok out ∧ out.xyz = S.xyz ∧
      ∀ i, i < xyz.length → ∃ a, SizeOK a ∧ RowIs out.dnn i (rowOf S prm.gr a i) ∧
        ((stateOf S prm.gr a i).get .security_radius_reached = true ∨ xyz.length - 1 ≤ a.k) := by
  have hc := safe_cells h hs
  obtain ⟨S, hS⟩ := (C05_sort_safe_iff 4 prm.gr xyz h.gr.1).mpr (fun p hp => by
    obtain ⟨c, a, b, d⟩ := hc p hp; exact ⟨c, a, by omega, d⟩)
  have hp := C01_sort_permutes 4 prm.gr xyz S hS
  have hl := hp.length_eq
  have hj := safe_job h hs
  obtain ⟨out, o1, o2, o4⟩ := C37_rows hj hS hr (by omega) (by omega)
    (planesBounded_small (hj.grid hS) (by
      have := h.k; simp only [Params.args]; omega))
  refine ⟨S, out, hS, hp, o1, o2, fun i hi => ?_⟩
  obtain ⟨a, a1, a2, a3⟩ := o4 i (by omega)
  exact ⟨a, a1, a2, by rw [← hl]; exact a3⟩

/-! ### the grids of the table -/

/-- C65: for a grid of the table a point with a third coordinate of `1 - 2^-24` passes the validation
and nevertheless makes the sort write outside of its buffer. -/
theorem C65_outside {hw : Nat} {prm : Params} (hg : prm.gr ∈ badGrids) (xyz : List (Pt F32)) {x y : ℚ}
    (hx : 0 ≤ x ∧ x < 1) (hy : 0 ≤ y ∧ y < 1)
    (hp : ⟨.fin x, .fin y, .fin (1 - 1 / 2 ^ 24)⟩ ∈ xyz)
    (hall : ∀ p ∈ xyz, CoordsIn 1 p) : tesellateCpu 4 hw prm xyz = .error .oob := by
  have hr : ∀ g ∈ badGrids, (1 : Int) ≤ g ∧ g ≤ 1290 := by decide +kernel
  obtain ⟨g1, g2⟩ := hr _ hg
  have g3 : prm.gr ≤ 2 ^ 24 := by omega
  have hge : prm.gr ≤ gcoord32 prm.gr (1 - 1 / 2 ^ 24) := by
    by_contra hc
    have : topSafe prm.gr = true := (topSafe_iff _).mpr
      ⟨_, gridCoord32 g1 g3 (by norm_num) (by norm_num), by omega⟩
    exact (topSafe_iff_table g1 g2).mp this hg
  have hex : ∃ ids, cellIds prm.gr xyz = .ok ids := by
    apply mapM_ok_of_forall
    intro p hp
    obtain ⟨x, y, z, rfl, hx, hy, hz⟩ := hall p hp
    exact ⟨_, cellId32 g1 g3 hx hy hz⟩
  obtain ⟨ids, hids⟩ := hex
  have hid := cellId32 g1 g3 ⟨hx.1, hx.2.le⟩ ⟨hy.1, hy.2.le⟩
    (show (0 : ℚ) ≤ 1 - 1 / 2 ^ 24 ∧ (1 : ℚ) - 1 / 2 ^ 24 ≤ 1 by constructor <;> norm_num)
  have c1 := gcoord32_nonneg g1 g3 hx.1
  have c2 := gcoord32_nonneg g1 g3 hy.1
  have hbig : prm.gr * prm.gr * prm.gr ≤ gcoord32 prm.gr x + gcoord32 prm.gr y * prm.gr
      + gcoord32 prm.gr (1 - 1 / 2 ^ 24) * prm.gr * prm.gr := by
    have a := mul_le_mul_of_nonneg_right (mul_le_mul_of_nonneg_right hge (by omega : 0 ≤ prm.gr))
      (by omega : 0 ≤ prm.gr)
    have b : 0 ≤ gcoord32 prm.gr y * prm.gr := mul_nonneg c2 (by omega)
    omega
  obtain ⟨i, hi, he⟩ := List.getElem_of_mem hp
  obtain ⟨c, hc, hc'⟩ := mapM_ok_get hids i _ (List.getElem?_eq_getElem hi)
  rw [he, hid] at hc'
  cases hc'
  have hmem : gcoord32 prm.gr x + gcoord32 prm.gr y * prm.gr
      + gcoord32 prm.gr (1 - 1 / 2 ^ 24) * prm.gr * prm.gr ∈
        (buckets 4 0 (ids.zip xyz)).map (·.1) := by
    rw [((buckets_perm 4 0 (ids.zip xyz)).map (·.1)).mem_iff, (mapM_ok_zip hids).2.1]
    exact List.mem_of_getElem? hc
  unfold tesellateCpu
  rw [xyzSort_eq, hids]
  simp only [bind_ok]
  unfold offsetTable
  rw [offsetCount_oob prm.gr _ (by positivity) ⟨_, hmem, fun h => by omega⟩]
  rfl

/-- C65: the largest `float` below `1` matters: two points in the unit box, one of them with this
`z`, a grid of 100 cells in each direction. -/
theorem C65_witness : ∃ (prm : Params) (xyz : List (Pt F32)), (∀ p ∈ xyz, FloatUnit p) ∧
    validateXyzset xyz = true ∧ tesellateCpu 4 4 prm xyz = .error .oob := by
  refine ⟨⟨1, 100, 32, 32, 0, 0, false, false⟩,
    [⟨.fin (1/2), .fin (1/2), .fin (1 - 1 / 2 ^ 24)⟩, ⟨.fin (1/4), .fin (1/4), .fin (1/4)⟩], ?_,
    by decide +kernel, C65_outside (by decide +kernel) _ (x := 1/2) (y := 1/2) (by norm_num)
      (by norm_num) (by simp) ?_⟩
  · have e1 : IsFl b32 (1/2) := ⟨1, -1, by decide, by decide, by decide +kernel⟩
    have e2 : IsFl b32 (1/4) := ⟨1, -2, by decide, by decide, by decide +kernel⟩
    have e3 : IsFl b32 (1 - 1 / 2 ^ 24) := ⟨2 ^ 24 - 1, -24, by decide, by decide, by decide +kernel⟩
    intro p hp
    simp only [List.mem_cons, List.not_mem_nil, or_false] at hp
    rcases hp with rfl | rfl
    · exact ⟨_, _, _, rfl, ⟨e1, e1, e3⟩, by norm_num, by norm_num, by norm_num⟩
    · exact ⟨_, _, _, rfl, ⟨e2, e2, e2⟩, by norm_num, by norm_num, by norm_num⟩
  · intro p hp
    simp only [List.mem_cons, List.not_mem_nil, or_false] at hp
    rcases hp with rfl | rfl
    · exact ⟨_, _, _, rfl, by norm_num, by norm_num, by norm_num⟩
    · exact ⟨_, _, _, rfl, by norm_num, by norm_num, by norm_num⟩

/-- C65: in the first coordinate the same value gives the number of another cell: the point is filed
at the other end of the box, one row further. -/
theorem C65_misplaced : cellId 100 (⟨.fin (1 - 1 / 2 ^ 24), .fin 0, .fin 0⟩ : Pt F32)
    = cellId 100 (⟨.fin 0, .fin (1 / 64), .fin 0⟩ : Pt F32) := by decide +kernel

/-- the hypotheses are met: two points, one at `1 - 2^-23`, in a grid of the table -/
example : ∃ out, tesellateCpu 4 4 ⟨1, 100, 32, 32, 0, 0, false, false⟩
    [(⟨.fin (1/2), .fin (1/2), .fin (1 - 1 / 2 ^ 23)⟩ : Pt F32), ⟨.fin (1/4), .fin (1/4), .fin 0⟩]
      = .ok out := by
  obtain ⟨S, out, -, -, h, -⟩ := C65_call (hw := 4) (prm := ⟨1, 100, 32, 32, 0, 0, false, false⟩)
    (xyz := [⟨.fin (1/2), .fin (1/2), .fin (1 - 1 / 2 ^ 23)⟩, ⟨.fin (1/4), .fin (1/4), .fin 0⟩])
    ⟨by decide, by decide, by decide, by decide, by decide⟩
    (Or.inl fun p hp => by
      simp only [List.mem_cons, List.not_mem_nil, or_false] at hp
      rcases hp with rfl | rfl
      · exact ⟨_, _, _, rfl, by norm_num, by norm_num, by norm_num⟩
      · exact ⟨_, _, _, rfl, by norm_num, by norm_num, by norm_num⟩) rfl
  exact ⟨out, h⟩

/-- `1 - 2^-24` itself in a grid that is not in the table -/
example : ∃ c, cellId 32 (⟨.fin (1 - 1 / 2 ^ 24), .fin 0, .fin (1/2)⟩ : Pt F32) = .ok c ∧ 0 ≤ c ∧
    c < 32 * 32 * 32 :=
  C65_cell_good (by decide) (by decide) (by decide +kernel)
    ⟨_, _, _, rfl, ⟨⟨2 ^ 24 - 1, -24, by decide, by decide, by decide +kernel⟩, IsFl.zero b32,
      ⟨1, -1, by decide, by decide, by decide +kernel⟩⟩, by norm_num, by norm_num, by norm_num⟩

/-- a coordinate in a grid of 32 cells: `0.8125 * 32 = 26` -/
example : gridCoord (FP.recip (2 ^ 5 : Int)) (.fin (13/16) : F32) = .ok ⌊(13/16 : ℚ) * 2 ^ 5⌋ :=
  C65_power_of_two (by decide) ⟨13, -4, by decide, by decide, by decide +kernel⟩ (by norm_num)
    (by norm_num)

/-- three points with recompute -/
example : ∃ out, tesellateCpu 4 4 ⟨1, 25, 32, 32, 0, 0, false, true⟩
    [(⟨.fin (1/2), .fin (1/2), .fin (1/8)⟩ : Pt F32), ⟨.fin (1/4), .fin (1/4), .fin 0⟩,
      ⟨.fin (3/4), .fin (1/4), .fin (1/3)⟩] = .ok out := by
  obtain ⟨S, out, -, -, h, -⟩ := C65_call_recompute (hw := 4) (prm := ⟨1, 25, 32, 32, 0, 0, false, true⟩)
    (xyz := [⟨.fin (1/2), .fin (1/2), .fin (1/8)⟩, ⟨.fin (1/4), .fin (1/4), .fin 0⟩,
      ⟨.fin (3/4), .fin (1/4), .fin (1/3)⟩])
    ⟨by decide, by decide, by decide, by decide, by decide⟩
    (Or.inl fun p hp => by
      simp only [List.mem_cons, List.not_mem_nil, or_false] at hp
      rcases hp with rfl | rfl | rfl
      · exact ⟨_, _, _, rfl, by norm_num, by norm_num, by norm_num⟩
      · exact ⟨_, _, _, rfl, by norm_num, by norm_num, by norm_num⟩
      · exact ⟨_, _, _, rfl, by norm_num, by norm_num, by norm_num⟩) rfl (by decide) (by decide)
      (by decide)
  exact ⟨out, h⟩

end Votess
