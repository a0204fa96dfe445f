import Verif.Model.Double
import Verif.Proofs.Wide
import Verif.Props.IeeeKnn
import Mathlib.Data.Nat.Prime.Basic
/-!
# C76 — calls with double precision coordinates

`votess::tesellate<int, double>` computes the edge length of the grid cells in `float`.  For which grids and
coordinates are the cell numbers in range, and is the search exact up to the rounding of `double`?
-/
namespace Votess

/-- a point with coordinates of type `double` -/
def toDbl (p : Pt ℚ) : Pt Dbl := ⟨.dbl (.fin p.x), .dbl (.fin p.y), .dbl (.fin p.z)⟩

/-- the coordinates are between `0` and `b` -/
def InCube (b : ℚ) (p : Pt ℚ) : Prop :=
  (0 ≤ p.x ∧ p.x ≤ b) ∧ (0 ≤ p.y ∧ p.y ≤ b) ∧ (0 ≤ p.z ∧ p.z ≤ b)

/-- the coordinates are `double` values in `[0, 1)` -/
def DoubleUnit (p : Pt ℚ) : Prop :=
  (IsFl b64 p.x ∧ 0 ≤ p.x ∧ p.x < 1) ∧ (IsFl b64 p.y ∧ 0 ≤ p.y ∧ p.y < 1) ∧ (IsFl b64 p.z ∧ 0 ≤ p.z ∧ p.z < 1)

theorem recipDbl {gr : Int} (h1 : 1 ≤ gr) (h2 : gr ≤ 2 ^ 24) : (FP.recip gr : Dbl) = .flt (.fin (gl32 gr)) := by
  have h := recip32 h1 h2
  show Dbl.flt (Fl.div (.fin 1) (Fl.round b32 gr)) = _
  change (match Fl.div (.fin 1) (Fl.round b32 (gr : ℚ)) with
    | .fin a => .fin a | .pinf => .pinf | .ninf => .ninf | .nan => .nan : F32) = _ at h
  congr 1
  revert h
  cases Fl.div (.fin 1) (Fl.round b32 (gr : ℚ)) <;> exact id

theorem gridCoordDbl {gr : Int} (h1 : 1 ≤ gr) (h2 : gr ≤ 2 ^ 24) {x : ℚ} (hx : 0 ≤ x) (hx1 : x ≤ 1) :
    gridCoord (FP.recip gr) (.dbl (.fin x) : Dbl) = .ok (gcoordF b64 gr x) := by
  obtain ⟨a, b, -, -⟩ := wide64.gcoord_range h1 h2 hx hx1
  unfold gridCoord
  rw [recipDbl h1 h2]
  have e : (FP.div (.dbl (.fin x)) (.flt (.fin (gl32 gr))) : Dbl) = .dbl (.fin (rnd b64 (x / gl32 gr))) := by
    show Dbl.dbl (Fl.div (.fin x) (.fin (gl32 gr))) = _
    rw [Fl.div_fin, if_neg (gl32_pos h1 h2).ne', wide64.small]
    rw [abs_of_nonneg a]
    exact b.trans (by norm_num)
  rw [e]
  have e2 : (FP.floorInt (.dbl (.fin (rnd b64 (x / gl32 gr))) : Dbl)) = some (gcoordF b64 gr x) :=
    wide64.floorInt_gcoord h1 h2 hx hx1
  rw [e2]

theorem cellIdDbl {gr : Int} (h1 : 1 ≤ gr) (h2 : gr ≤ 2 ^ 24) {p : Pt ℚ} (hp : InCube 1 p) :
    cellId gr (toDbl p) = .ok (gcoordF b64 gr p.x + gcoordF b64 gr p.y * gr + gcoordF b64 gr p.z * gr * gr) := by
  unfold cellId toDbl
  simp only [gridCoordDbl h1 h2 hp.1.1 hp.1.2, gridCoordDbl h1 h2 hp.2.1.1 hp.2.1.2,
    gridCoordDbl h1 h2 hp.2.2.1 hp.2.2.2, bind_ok, pure_eq_ok]

/-- C76: every point with coordinates between `0` and `1 - 2^-23` gets a cell number in range, whatever the
grid. -/
theorem C76_cell {gr : Int} (h1 : 1 ≤ gr) (h2 : gr ≤ 2 ^ 24) {p : Pt ℚ} (hp : InCube (1 - 1 / 2 ^ 23) p) :
    ∃ c, cellId gr (toDbl p) = .ok c ∧ 0 ≤ c ∧ c < gr * gr * gr := by
  have hb : (1 : ℚ) - 1 / 2 ^ 23 ≤ 1 := by norm_num
  obtain ⟨hx, hy, hz⟩ := hp
  refine ⟨_, cellIdDbl h1 h2 ⟨⟨hx.1, hx.2.trans hb⟩, ⟨hy.1, hy.2.trans hb⟩, ⟨hz.1, hz.2.trans hb⟩⟩, ?_⟩
  exact id_range ⟨wide64.gcoord_nonneg h1 h2 hx.1, wide64.gcoord_lt h1 h2 hx.1 hx.2⟩
    ⟨wide64.gcoord_nonneg h1 h2 hy.1, wide64.gcoord_lt h1 h2 hy.1 hy.2⟩
    ⟨wide64.gcoord_nonneg h1 h2 hz.1, wide64.gcoord_lt h1 h2 hz.1 hz.2⟩

/-! ### which grids are right for all doubles -/

theorem ilog2_inv {gr : Int} (h1 : 1 ≤ gr) (h2 : gr ≤ 2 ^ 24) : -24 ≤ ilog2 (1 / gr) := by
  have hg : (1 : ℚ) ≤ gr := by exact_mod_cast h1
  have hg2 : (gr : ℚ) ≤ 2 ^ 24 := by exact_mod_cast h2
  have h := (ilog2_spec (x := 1 / gr) (by positivity)).2
  have hlo : pow2 (-24) ≤ 1 / (gr : ℚ) := by
    rw [pow2_eq, le_div_iff₀ (by linarith)]
    norm_num at hg2 ⊢
    linarith
  have := pow2_lt_iff.mp (lt_of_le_of_lt hlo h)
  omega

/-- the edge length is a multiple of `2^-47` -/
theorem gl32_multiple {gr : Int} (h1 : 1 ≤ gr) (h2 : gr ≤ 2 ^ 24) : ∃ m : Int, gl32 gr * 2 ^ 47 = m := by
  have hg : (1 : ℚ) ≤ gr := by exact_mod_cast h1
  have hne : (1 : ℚ) / gr ≠ 0 := by positivity
  have hq : -47 ≤ quantum b32 (1 / gr) := by
    rw [quantum_eq b32 (by positivity)]
    refine le_max_of_le_left ?_
    have := ilog2_inv h1 h2
    show (-47 : Int) ≤ _ - (((24 : Nat) : Int) - 1)
    omega
  obtain ⟨d, hd⟩ := Int.le.dest hq
  refine ⟨rne (1 / gr / pow2 (quantum b32 (1 / gr))) * 2 ^ d, ?_⟩
  unfold gl32
  rw [rnd_off rfl]
  unfold nearest
  rw [if_neg hne]
  have e : pow2 (quantum b32 (1 / (gr : ℚ))) * 2 ^ 47 = 2 ^ d := by
    rw [← hd, pow2_add, pow2_nat, show pow2 (-47) = 1 / 2 ^ 47 by rw [pow2_eq]; norm_num]
    ring
  push_cast
  rw [mul_assoc, e]

theorem b64_u : b64.u = 1 / 2 ^ 53 := by unfold Fmt.u; rw [pow2_eq]; norm_num [b64]

theorem rnd64_le {t : ℚ} (h : 0 ≤ t) : rnd b64 t ≤ t + t / 2 ^ 53 + 1 / 2 ^ 150 := by
  have h1 := (abs_le.mp (rnd_err wide64.p1 t)).2
  have he : b64.eta ≤ 1 / 2 ^ 150 := fine64.eta.trans (by norm_num)
  rw [b64_u, abs_of_nonneg h] at h1
  linarith

/-- C76: the grid coordinate of every `double` in `[0, 1)` is in range exactly if `1.0f / gr` is not rounded
down. -/
theorem C76_grid_iff {gr : Int} (h1 : 1 ≤ gr) (h2 : gr ≤ 2 ^ 24) :
    (∀ x, IsFl b64 x → 0 ≤ x → x < 1 → ∃ c, gridCoord (FP.recip gr) (.dbl (.fin x) : Dbl) = .ok c ∧ 0 ≤ c ∧ c < gr)
      ↔ 1 / (gr : ℚ) ≤ rnd b32 (1 / gr) := by
  have hg : (1 : ℚ) ≤ gr := by exact_mod_cast h1
  have hg2 : (gr : ℚ) ≤ 2 ^ 24 := by exact_mod_cast h2
  have hp := gl32_pos h1 h2
  obtain ⟨m, hm⟩ := gl32_multiple h1 h2
  have hmg : gl32 gr * gr * 2 ^ 47 = ((m * gr : Int) : ℚ) := by push_cast; rw [← hm]; ring
  change _ ↔ 1 / (gr : ℚ) ≤ gl32 gr
  rw [div_le_iff₀ (by linarith)]
  constructor
  · intro hall
    by_contra hc
    rw [not_le] at hc
    -- the product is below 1 by at least 2^-47
    have hi : ((m * gr : Int) : ℚ) < ((2 ^ 47 : Int) : ℚ) := by
      rw [← hmg]; push_cast; linarith
    have hi : m * gr ≤ 2 ^ 47 - 1 := by have : m * gr < 2 ^ 47 := by exact_mod_cast hi
                                        omega
    have hi : ((m * gr : Int) : ℚ) ≤ 2 ^ 47 - 1 := by exact_mod_cast hi
    rw [← hmg] at hi
    have hx0 : (0 : ℚ) ≤ 1 - 1 / 2 ^ 53 := by norm_num
    have hx1 : (1 : ℚ) - 1 / 2 ^ 53 < 1 := by norm_num
    obtain ⟨c, hc1, -, hc2⟩ := hall (1 - 1 / 2 ^ 53) ⟨2 ^ 53 - 1, -53, by decide, by decide, by decide +kernel⟩ hx0 hx1
    rw [gridCoordDbl h1 h2 hx0 hx1.le] at hc1
    cases hc1
    have hle : (gr : ℚ) ≤ (1 - 1 / 2 ^ 53) / gl32 gr := by
      rw [le_div_iff₀ hp]
      norm_num at hi ⊢
      linarith
    have := le_rnd (f := b64) wide64.p1 (y := gr) ⟨gr, 0, by
      rw [abs_of_pos (by omega)]
      exact lt_of_le_of_lt h2 (by decide), by decide, by simp [pow2]⟩ hle
    unfold gcoordF at hc2
    rw [Int.floor_lt] at hc2
    linarith
  · intro hc x hx hx0 hx1
    refine ⟨_, gridCoordDbl h1 h2 hx0 hx1.le, wide64.gcoord_nonneg h1 h2 hx0, ?_⟩
    unfold gcoordF
    rw [Int.floor_lt]
    rcases eq_or_lt_of_le hc with he | hlt
    · -- a power of two: no rounding
      have hi : m * gr = 2 ^ 47 := by
        have : ((m * gr : Int) : ℚ) = ((2 ^ 47 : Int) : ℚ) := by rw [← hmg, ← he]; push_cast; ring
        exact_mod_cast this
      have hd : gr.toNat ∣ 2 ^ 47 := by
        have : gr ∣ ((2 ^ 47 : Nat) : Int) := ⟨m, by rw [mul_comm]; exact_mod_cast hi.symm⟩
        have h' := Int.natAbs_dvd_natAbs.mpr this
        rw [Int.natAbs_natCast] at h'
        convert h' using 1
        omega
      obtain ⟨n, -, hn⟩ := (Nat.dvd_prime_pow Nat.prime_two).mp hd
      have hgn : (gr : ℚ) = 2 ^ n := by
        have : gr = ((2 ^ n : Nat) : Int) := by rw [← hn]; omega
        rw [this]; push_cast; rfl
      have hq : x / gl32 gr = x * 2 ^ n := by
        rw [div_eq_iff hp.ne', mul_assoc, ← hgn, mul_comm (gr : ℚ), ← he, mul_one]
      rw [hq, hgn]
      obtain ⟨a, e, ha1, ha2, rfl⟩ := hx
      have h3 : (a : ℚ) * pow2 e * 2 ^ n = a * pow2 (e + n) := by rw [pow2_add, pow2_nat]; ring
      rw [h3, rnd_fl wide64.p1 ⟨a, e + n, ha1, by omega, rfl⟩, ← h3]
      have : (0 : ℚ) < 2 ^ n := by positivity
      nlinarith
    · have hi : ((2 ^ 47 : Int) : ℚ) < ((m * gr : Int) : ℚ) := by
        rw [← hmg]; push_cast; linarith
      have hi : 2 ^ 47 + 1 ≤ m * gr := by have : 2 ^ 47 < m * gr := by exact_mod_cast hi
                                          omega
      have hi : (2 : ℚ) ^ 47 + 1 ≤ ((m * gr : Int) : ℚ) := by exact_mod_cast hi
      rw [← hmg] at hi
      have ht0 : 0 ≤ x / gl32 gr := div_nonneg hx0 hp.le
      have ht : x / gl32 gr * (1 + 1 / 2 ^ 47) ≤ gr := by
        have e : x / gl32 gr * gl32 gr = x := by field_simp
        have : (1 : ℚ) + 1 / 2 ^ 47 ≤ gl32 gr * gr := by norm_num at hi ⊢; linarith
        calc x / gl32 gr * (1 + 1 / 2 ^ 47) ≤ x / gl32 gr * (gl32 gr * gr) := mul_le_mul_of_nonneg_left this ht0
          _ = x * gr := by rw [← mul_assoc, e]
          _ ≤ 1 * gr := mul_le_mul_of_nonneg_right hx1.le (by linarith)
          _ = gr := one_mul _
      have hr := rnd64_le ht0
      generalize x / gl32 gr = t at *
      norm_num at hr ht ⊢
      by_cases h : t ≤ 1 / 2
      · linarith
      · linarith

/-- the grids up to 24 are right for all doubles -/
theorem glUp_small {gr : Int} (h1 : 1 ≤ gr) (h2 : gr ≤ 24) : 1 / (gr : ℚ) ≤ rnd b32 (1 / gr) := by
  have : ∀ n : Fin 25, 1 / (((n.val : Nat) : Int) : ℚ) ≤ rnd b32 (1 / (((n.val : Nat) : Int) : ℚ)) := by decide +kernel
  have := this ⟨gr.toNat, by omega⟩
  simpa [Int.toNat_of_nonneg (show 0 ≤ gr by omega)] using this

/-- the coordinates are safe: all are at most `1 - 2^-23`, or `1.0f / gr` is not rounded down and they are
`double` values below `1` -/
def SafeDoubles (gr : Int) (xyz : List (Pt ℚ)) : Prop :=
  (∀ p ∈ xyz, InCube (1 - 1 / 2 ^ 23) p) ∨ (1 / (gr : ℚ) ≤ rnd b32 (1 / gr) ∧ ∀ p ∈ xyz, DoubleUnit p)

theorem safeDoubles_cells {gr : Int} (h1 : 1 ≤ gr) (h2 : gr ≤ 2 ^ 24) {xyz : List (Pt ℚ)} (hs : SafeDoubles gr xyz) :
    ∀ p ∈ xyz.map toDbl, ∃ c, cellId gr p = .ok c ∧ 0 ≤ c ∧ c < gr * gr * gr := by
  intro p' hp'
  obtain ⟨p, hp, rfl⟩ := List.mem_map.mp hp'
  rcases hs with hs | ⟨hg, hs⟩
  · exact C76_cell h1 h2 (hs p hp)
  · obtain ⟨⟨fx, x0, x1⟩, ⟨fy, y0, y1⟩, ⟨fz, z0, z1⟩⟩ := hs p hp
    have key : ∀ t : ℚ, IsFl b64 t → 0 ≤ t → t < 1 → 0 ≤ gcoordF b64 gr t ∧ gcoordF b64 gr t < gr := by
      intro t a b c
      obtain ⟨d, d1, d2⟩ := (C76_grid_iff h1 h2).mpr hg t a b c
      rw [gridCoordDbl h1 h2 b c.le] at d1
      cases d1
      exact d2
    exact ⟨_, cellIdDbl h1 h2 ⟨⟨x0, x1.le⟩, ⟨y0, y1.le⟩, ⟨z0, z1.le⟩⟩,
      id_range (key _ fx x0 x1) (key _ fy y0 y1) (key _ fz z0 z1)⟩

theorem safeDoubles_job {hw : Nat} {prm : Params} {xyz : List (Pt ℚ)} (h : FloatSizes hw prm)
    (hs : SafeDoubles prm.gr xyz) : JobOK 4 hw prm (xyz.map toDbl) := by
  have hc := safeDoubles_cells h.gr.1 (by have := h.gr.2; omega) hs
  obtain ⟨⟨g1, g2⟩, ⟨k1, k2⟩, ⟨p1, p2⟩, ⟨t1, t2⟩, th⟩ := h
  refine ⟨g1, ?_, k1, k2, p1, p2, t1, t2, th⟩
  intro p hp c hc'
  obtain ⟨c', e, c1, c2⟩ := hc p hp
  rw [hc'] at e; cases e
  refine ⟨c1, c2, lt_of_lt_of_le c2 ?_⟩
  calc prm.gr * prm.gr * prm.gr ≤ 1290 * 1290 * 1290 := by
        have a : prm.gr * prm.gr ≤ 1290 * 1290 := by nlinarith
        nlinarith
    _ ≤ 256 ^ 4 := by norm_num

/-- C76: a call with double precision coordinates does nothing undefined: it succeeds, the points are permuted,
and the row of every point is the row computed for that point alone. -/
theorem C76_call {hw : Nat} {prm : Params} {xyz : List (Pt ℚ)} (h : FloatSizes hw prm)
    (hs : SafeDoubles prm.gr xyz) (hr : prm.useRecompute = false) :
    ∃ S out, xyzSort 4 prm.gr (xyz.map toDbl) = .ok S ∧ S.xyz.Perm (xyz.map toDbl) ∧
      tesellateCpu 4 hw prm (xyz.map toDbl) = .ok out ∧ out.xyz = S.xyz ∧
      ∀ i, i < xyz.length → RowIs out.dnn i (rowOf S prm.gr prm.args i) := by
  have hc := safeDoubles_cells h.gr.1 (by have := h.gr.2; omega) hs
  obtain ⟨S, hS⟩ := (C05_sort_safe_iff 4 prm.gr (xyz.map toDbl) h.gr.1).mpr (fun p hp => by
    obtain ⟨c, a, b, d⟩ := hc p hp; exact ⟨c, a, by omega, d⟩)
  have hp := C01_sort_permutes 4 prm.gr _ S hS
  obtain ⟨out, o1, o2, -, o4⟩ := C32_rows (safeDoubles_job h hs) hS hr
  exact ⟨S, out, hS, hp, o1, o2, fun i hi => o4 i (by rw [hp.length_eq, List.length_map]; exact hi)⟩

/-! ### the other grids -/

/-- C76: if `1.0f / gr` is rounded down, a point with a third coordinate of `1 - 2^-53` passes the validation and
nevertheless makes the sort write outside of its buffer. -/
theorem C76_outside {hw : Nat} {prm : Params} (g1 : 1 ≤ prm.gr) (g2 : prm.gr ≤ 2 ^ 24)
    (hg : rnd b32 (1 / prm.gr) < 1 / (prm.gr : ℚ)) (xyz : List (Pt ℚ)) {p : Pt ℚ} (hz : p.z = 1 - 1 / 2 ^ 53)
    (hp : p ∈ xyz) (hall : ∀ p ∈ xyz, InCube 1 p) : tesellateCpu 4 hw prm (xyz.map toDbl) = .error .oob := by
  have hge : prm.gr ≤ gcoordF b64 prm.gr (1 - 1 / 2 ^ 53) := by
    by_contra hc
    rw [not_le] at hc
    refine absurd hg (not_lt.mpr ((C76_grid_iff g1 g2).mp fun x hx hx0 hx1 =>
      ⟨_, gridCoordDbl g1 g2 hx0 hx1.le, wide64.gcoord_nonneg g1 g2 hx0, ?_⟩))
    refine lt_of_le_of_lt (wide64.gcoord_mono g1 g2 ?_) hc
    -- the largest double below 1
    by_contra hc'
    rw [not_le] at hc'
    obtain ⟨m, e, h1, h2, h3⟩ := hx
    have hm : m < 2 ^ 53 := lt_of_le_of_lt (le_abs_self m) h1
    have hpe := pow2_pos e
    by_cases he : e ≤ -53
    · have hp : pow2 e ≤ 1 / 2 ^ 53 := (pow2_le he).trans (by rw [pow2_eq]; norm_num)
      have : (m : ℚ) ≤ 2 ^ 53 - 1 := by exact_mod_cast (by omega : m ≤ 2 ^ 53 - 1)
      have hx2 : x ≤ (2 ^ 53 - 1) * pow2 e := by
        rw [h3]; exact mul_le_mul_of_nonneg_right this hpe.le
      have : (2 ^ 53 - 1) * pow2 e ≤ ((2 : ℚ) ^ 53 - 1) * (1 / 2 ^ 53) :=
        mul_le_mul_of_nonneg_left hp (by norm_num)
      norm_num at *
      linarith
    · obtain ⟨d, rfl⟩ : ∃ d : Nat, e = -52 + d := ⟨(e + 52).toNat, by omega⟩
      have hxi : x * 2 ^ 52 = ((m * 2 ^ d : Int) : ℚ) := by
        rw [h3, pow2_add, pow2_nat, show pow2 (-52) = 1 / 2 ^ 52 by rw [pow2_eq]; norm_num]
        push_cast; field_simp
      have : ((m * 2 ^ d : Int) : ℚ) < ((2 ^ 52 : Int) : ℚ) := by rw [← hxi]; push_cast; linarith
      have : m * 2 ^ d < 2 ^ 52 := by exact_mod_cast this
      have : m * 2 ^ d ≤ 2 ^ 52 - 1 := by omega
      have : ((m * 2 ^ d : Int) : ℚ) ≤ ((2 ^ 52 - 1 : Int) : ℚ) := Int.cast_le.mpr this
      rw [← hxi] at this
      push_cast at this
      norm_num at *
      linarith
  have hex : ∃ ids, cellIds prm.gr (xyz.map toDbl) = .ok ids := by
    apply mapM_ok_of_forall
    intro p' hp'
    obtain ⟨q, hq, rfl⟩ := List.mem_map.mp hp'
    exact ⟨_, cellIdDbl g1 g2 (hall q hq)⟩
  obtain ⟨ids, hids⟩ := hex
  have hpc := hall p hp
  have hid := cellIdDbl g1 g2 hpc
  rw [hz] at hid
  have c1 := wide64.gcoord_nonneg g1 g2 hpc.1.1
  have c2 := wide64.gcoord_nonneg g1 g2 hpc.2.1.1
  have hbig : prm.gr * prm.gr * prm.gr ≤ gcoordF b64 prm.gr p.x + gcoordF b64 prm.gr p.y * prm.gr
      + gcoordF b64 prm.gr (1 - 1 / 2 ^ 53) * prm.gr * prm.gr := by
    have a := mul_le_mul_of_nonneg_right (mul_le_mul_of_nonneg_right hge (by omega : 0 ≤ prm.gr))
      (by omega : 0 ≤ prm.gr)
    have b : 0 ≤ gcoordF b64 prm.gr p.y * prm.gr := mul_nonneg c2 (by omega)
    linarith
  obtain ⟨i, hi, he⟩ := List.getElem_of_mem (List.mem_map_of_mem (f := toDbl) hp)
  obtain ⟨c, hc, hc'⟩ := mapM_ok_get hids i _ (List.getElem?_eq_getElem hi)
  rw [he, hid] at hc'
  cases hc'
  have hmem : gcoordF b64 prm.gr p.x + gcoordF b64 prm.gr p.y * prm.gr
      + gcoordF b64 prm.gr (1 - 1 / 2 ^ 53) * prm.gr * prm.gr ∈
        (buckets 4 0 (ids.zip (xyz.map toDbl))).map (·.1) := by
    rw [((buckets_perm 4 0 (ids.zip (xyz.map toDbl))).map (·.1)).mem_iff, (mapM_ok_zip hids).2.1]
    exact List.mem_of_getElem? hc
  unfold tesellateCpu
  rw [xyzSort_eq, hids]
  simp only [bind_ok]
  unfold offsetTable
  rw [offsetCount_oob prm.gr _ (by positivity) ⟨_, hmem, fun h => by omega⟩]
  rfl

/-- C76: such grids exist; the smallest has 25 cells in each direction, and 585 of the first 1290 are of this
kind, more than in single precision. -/
theorem C76_grids : rnd b32 (1 / ((25 : Int) : ℚ)) < 1 / ((25 : Int) : ℚ) ∧
    ((irange 1 1291).filter fun gr => decide (rnd b32 (1 / (gr : ℚ)) < 1 / (gr : ℚ))).length = 585 ∧
    badGrids.length = 358 := by decide +kernel

/-- C76: two points in the unit box, one of them at `z = 1 - 2^-53`: the call writes outside of a buffer although
the grid of 29 cells is right for all single precision coordinates. -/
theorem C76_witness : ∃ (prm : Params) (xyz : List (Pt ℚ)), (∀ p ∈ xyz, DoubleUnit p) ∧ prm.gr ∉ badGrids ∧
    validateXyzset (xyz.map toDbl) = true ∧ tesellateCpu 4 4 prm (xyz.map toDbl) = .error .oob := by
  have e1 : IsFl b64 (1/2) := ⟨1, -1, by decide, by decide, by decide +kernel⟩
  have e2 : IsFl b64 (1/4) := ⟨1, -2, by decide, by decide, by decide +kernel⟩
  have e3 : IsFl b64 (1 - 1 / 2 ^ 53) := ⟨2 ^ 53 - 1, -53, by decide, by decide, by decide +kernel⟩
  refine ⟨⟨1, 29, 32, 32, 0, 0, false, false⟩, [⟨1/2, 1/2, 1 - 1 / 2 ^ 53⟩, ⟨1/4, 1/4, 1/4⟩], ?_,
    by decide +kernel, by decide +kernel,
    C76_outside (by decide) (by decide) (by decide +kernel) _ (p := ⟨1/2, 1/2, 1 - 1 / 2 ^ 53⟩) rfl (by simp) ?_⟩
  · intro p hp
    simp only [List.mem_cons, List.not_mem_nil, or_false] at hp
    rcases hp with rfl | rfl
    · exact ⟨⟨e1, by norm_num, by norm_num⟩, ⟨e1, by norm_num, by norm_num⟩, ⟨e3, by norm_num, by norm_num⟩⟩
    · exact ⟨⟨e2, by norm_num, by norm_num⟩, ⟨e2, by norm_num, by norm_num⟩, ⟨e2, by norm_num, by norm_num⟩⟩
  · intro p hp
    simp only [List.mem_cons, List.not_mem_nil, or_false] at hp
    rcases hp with rfl | rfl
    · exact ⟨by norm_num, by norm_num, by norm_num⟩
    · exact ⟨by norm_num, by norm_num, by norm_num⟩

/-- C76: in the first coordinate such a value gives the number of another cell. -/
theorem C76_misplaced : cellId 25 (toDbl ⟨1 - 1 / 2 ^ 53, 0, 0⟩) = cellId 25 (toDbl ⟨0, 3 / 64, 0⟩) := by
  decide +kernel

/-! ### the search -/

/-- edge length of the cells of a grid of 5 cells: `0.2f` -/
def fifth : ℚ := 13421773 / 2 ^ 26

/-- three points: the second is in the last cell along the first axis, the third is further away from the first
point by `2^-28` -/
def earlyXyz : List (Pt ℚ) :=
  [⟨fifth - 1/2^10, 3/32, 3/32⟩, ⟨4 * fifth + 1/2^28, 3/32, 3/32⟩, ⟨fifth - 1/2^10, 3/32 + 3 * fifth + 1/2^10 + 1/2^27, 3/32⟩]

def toF64 (p : Pt ℚ) : Pt F64 := ⟨.fin p.x, .fin p.y, .fin p.z⟩

/-- the run in some arithmetic as a test: the points stay in order, and `j` is the nearest neighbour found for the
first -/
def earlyRun {F : Type} [FP F (WithTop ℚ)] [DecidableEq F] (emb : Pt ℚ → Pt F) (j : Int) : Bool :=
  match (do
      let ids ← cellIds 5 (earlyXyz.map emb)
      let off ← offsetTable 5 ((buckets 4 0 (ids.zip (earlyXyz.map emb))).map (·.1))
      pure { xyz := (buckets 4 0 (ids.zip (earlyXyz.map emb))).map (·.2),
             id := (buckets 4 0 (ids.zip (earlyXyz.map emb))).map (·.1), offset := off } :
      M (Sorted F)) with
  | .error _ => false
  | .ok S => decide (S.xyz = earlyXyz.map emb) &&
    match knnCompute S.xyz S.id S.offset 0 1 5 [((0 : Int), (⊤ : WithTop ℚ))] with
    | .error _ => false
    | .ok res => decide (res.map (·.1) = [j])

theorem earlyRun_spec {F : Type} [FP F (WithTop ℚ)] [DecidableEq F] [Inhabited F] {emb : Pt ℚ → Pt F} {j : Int}
    (h : earlyRun emb j = true) : ∃ (S : Sorted F) (res : List (Int × WithTop ℚ)), xyzSort 4 5 (earlyXyz.map emb) = .ok S ∧ S.xyz = earlyXyz.map emb ∧
    knnCompute S.xyz S.id S.offset 0 1 5 [((0 : Int), (⊤ : WithTop ℚ))] = .ok res ∧ res.map (·.1) = [j] := by
  unfold earlyRun at h
  rw [← xyzSort_eq] at h
  cases hS : xyzSort 4 5 (earlyXyz.map emb) with
  | error e => rw [hS] at h; simp at h
  | ok S =>
    rw [hS] at h
    simp only [Bool.and_eq_true, decide_eq_true_eq] at h
    obtain ⟨h1, h2⟩ := h
    cases hk : knnCompute S.xyz S.id S.offset 0 1 5 [((0 : Int), (⊤ : WithTop ℚ))] with
    | error e => rw [hk] at h2; simp at h2
    | ok res =>
      rw [hk] at h2
      exact ⟨S, res, rfl, h1, hk, by simpa using h2⟩

set_option maxRecDepth 100000 in
theorem earlyRun_dbl : earlyRun toDbl 2 = true := by decide +kernel

set_option maxRecDepth 100000 in
theorem earlyRun_f64 : earlyRun toF64 1 = true := by decide +kernel

theorem earlyXyz_unit : ∀ p ∈ earlyXyz, DoubleUnit p := by
  have key : ∀ (m e : Int), |m| < 2 ^ 53 → -1074 ≤ e → 0 ≤ (m : ℚ) * pow2 e → (m : ℚ) * pow2 e < 1 →
      IsFl b64 (m * pow2 e) ∧ 0 ≤ (m : ℚ) * pow2 e ∧ (m : ℚ) * pow2 e < 1 :=
    fun m e h1 h2 h3 h4 => ⟨⟨m, e, h1, h2, rfl⟩, h3, h4⟩
  have a1 : fifth - 1/2^10 = ((13421773 - 2 ^ 16 : Int) : ℚ) * pow2 (-26) := by decide +kernel
  have a2 : (3/32 : ℚ) = ((3 : Int) : ℚ) * pow2 (-5) := by decide +kernel
  have a3 : 4 * fifth + 1/2^28 = ((13421773 * 16 + 1 : Int) : ℚ) * pow2 (-28) := by decide +kernel
  have a4 : 3/32 + 3 * fifth + 1/2^10 + 1/2^27
      = ((3 * 2 ^ 22 + 3 * 13421773 * 2 + 2 ^ 17 + 1 : Int) : ℚ) * pow2 (-27) := by decide +kernel
  have b1 := key (13421773 - 2 ^ 16) (-26) (by decide) (by decide) (by decide +kernel) (by decide +kernel)
  have b2 := key 3 (-5) (by decide) (by decide) (by decide +kernel) (by decide +kernel)
  have b3 := key (13421773 * 16 + 1) (-28) (by decide) (by decide) (by decide +kernel) (by decide +kernel)
  have b4 := key (3 * 2 ^ 22 + 3 * 13421773 * 2 + 2 ^ 17 + 1) (-27) (by decide) (by decide) (by decide +kernel)
    (by decide +kernel)
  rw [← a1] at b1
  rw [← a2] at b2
  rw [← a3] at b3
  rw [← a4] at b4
  intro p hp
  simp only [earlyXyz, List.mem_cons, List.not_mem_nil, or_false] at hp
  rcases hp with rfl | rfl | rfl
  · exact ⟨b1, b2, b2⟩
  · exact ⟨b3, b2, b2⟩
  · exact ⟨b1, b4, b2⟩

/-- C76: on the CPU the search is not exact up to the rounding of `double`: the nearest neighbour returned for the
first of three points is the third, although the second is closer by more than `2^-29` and the arithmetic of
`double` tells the two distances apart.  The product `gl * r` of the exit test is a `float` and was rounded up. -/
theorem C76_early_exit : (∀ p ∈ earlyXyz, DoubleUnit p) ∧ (∃ (S : Sorted Dbl) (res : List (Int × WithTop ℚ)),
      xyzSort 4 5 (earlyXyz.map toDbl) = .ok S ∧
      S.xyz = earlyXyz.map toDbl ∧
      knnCompute S.xyz S.id S.offset 0 1 5 [((0 : Int), (⊤ : WithTop ℚ))] = .ok res ∧ res.map (·.1) = [2]) ∧
    (∀ a b c, earlyXyz = [a, b, c] → sqDist b a + 1 / 2 ^ 29 < sqDist c a) :=
  ⟨earlyXyz_unit, earlyRun_spec earlyRun_dbl, by
    rintro a b c h
    have h : _ = _ := h
    unfold earlyXyz at h
    simp only [List.cons.injEq, and_true] at h
    obtain ⟨rfl, rfl, rfl⟩ := h
    decide +kernel⟩

/-- C76: with all operations in `double`, as on the GPU (src/knn.ipp:251), the second point is found. -/
theorem C76_no_early_exit : ∃ (S : Sorted F64) (res : List (Int × WithTop ℚ)),
    xyzSort 4 5 (earlyXyz.map toF64) = .ok S ∧ S.xyz = earlyXyz.map toF64 ∧
    knnCompute S.xyz S.id S.offset 0 1 5 [((0 : Int), (⊤ : WithTop ℚ))] = .ok res ∧ res.map (·.1) = [1] :=
  earlyRun_spec earlyRun_f64

/-- the hypotheses are met: the largest double below 1 in a grid of 5 cells, and a point at `1 - 2^-23` in a grid
of 25 cells -/
example : ∃ out, tesellateCpu 4 4 ⟨1, 5, 32, 32, 0, 0, false, false⟩
    ([⟨1/2, 1/2, 1 - 1 / 2 ^ 53⟩, ⟨1/4, 1/4, 0⟩].map toDbl) = .ok out := by
  have e1 : IsFl b64 (1/2) := ⟨1, -1, by decide, by decide, by decide +kernel⟩
  have e2 : IsFl b64 (1/4) := ⟨1, -2, by decide, by decide, by decide +kernel⟩
  have e3 : IsFl b64 (1 - 1 / 2 ^ 53) := ⟨2 ^ 53 - 1, -53, by decide, by decide, by decide +kernel⟩
  obtain ⟨S, out, -, -, h, -⟩ := C76_call (hw := 4) (prm := ⟨1, 5, 32, 32, 0, 0, false, false⟩)
    (xyz := [⟨1/2, 1/2, 1 - 1 / 2 ^ 53⟩, ⟨1/4, 1/4, 0⟩])
    ⟨by decide, by decide, by decide, by decide, by decide⟩
    (Or.inr ⟨glUp_small (by decide) (by decide), fun p hp => by
      simp only [List.mem_cons, List.not_mem_nil, or_false] at hp
      rcases hp with rfl | rfl
      · exact ⟨⟨e1, by norm_num, by norm_num⟩, ⟨e1, by norm_num, by norm_num⟩, ⟨e3, by norm_num, by norm_num⟩⟩
      · exact ⟨⟨e2, by norm_num, by norm_num⟩, ⟨e2, by norm_num, by norm_num⟩, ⟨IsFl.zero _, by norm_num, by norm_num⟩⟩⟩) rfl
  exact ⟨out, h⟩

example : ∃ c, cellId 25 (toDbl ⟨1 - 1 / 2 ^ 23, 1/3, 0⟩) = .ok c ∧ 0 ≤ c ∧ c < 25 * 25 * 25 :=
  C76_cell (by decide) (by decide) ⟨by norm_num, by norm_num, by norm_num⟩

end Votess
