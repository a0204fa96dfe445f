import Verif.Model.Exact
import Verif.Model.XyzSet
import Verif.Proofs.Basic
import Mathlib.Tactic.Ring
import Mathlib.Tactic.Linarith
import Mathlib.Tactic.FieldSimp
/-! Grid cells in exact arithmetic. -/
set_option linter.unusedSectionVars false
namespace Votess

variable {K : Type} [Field K] [LinearOrder K] [IsStrictOrderedRing K] [FloorRing K]

/-- exact grid coordinate -/
def gcoord (gr : Int) (x : K) : Int := ⌊x * (gr : K)⌋

theorem gridCoord_exact (gr : Int) (x : K) :
    gridCoord (FP.recip gr : K) x = .ok (gcoord gr x) := by
  unfold gridCoord gcoord
  simp only [FP.floorInt, FP.div, FP.recip]
  congr 2
  rw [one_div, div_inv_eq_mul]

theorem cellId_exact (gr : Int) (p : Pt K) :
    cellId gr p = .ok (gcoord gr p.x + gcoord gr p.y * gr + gcoord gr p.z * gr * gr) := by
  unfold cellId
  simp only [gridCoord_exact, bind_ok, pure_eq_ok]

theorem gcoord_range (gr : Int) (hgr : 1 ≤ gr) (x : K) (h0 : 0 ≤ x) (h1 : x < 1) :
    0 ≤ gcoord gr x ∧ gcoord gr x < gr := by
  have hg : (1 : K) ≤ (gr : K) := by exact_mod_cast hgr
  unfold gcoord
  constructor
  · apply Int.floor_nonneg.mpr; exact mul_nonneg h0 (by linarith)
  · apply Int.floor_lt.mpr
    calc x * (gr : K) < 1 * (gr : K) := by apply mul_lt_mul_of_pos_right h1; linarith
      _ = gr := one_mul _

theorem cell_index_range (gr x y z : Int) (hx : 0 ≤ x ∧ x < gr) (hy : 0 ≤ y ∧ y < gr)
    (hz : 0 ≤ z ∧ z < gr) :
    0 ≤ x + y * gr + z * gr * gr ∧ x + y * gr + z * gr * gr < gr * gr * gr := by
  have hg : 0 ≤ gr := by omega
  have a1 : 0 ≤ y * gr := mul_nonneg hy.1 hg
  have a2 : 0 ≤ z * gr * gr := mul_nonneg (mul_nonneg hz.1 hg) hg
  have b1 : (y + 1) * gr ≤ gr * gr := mul_le_mul_of_nonneg_right (by omega) hg
  have b2 : (z + 1) * (gr * gr) ≤ gr * (gr * gr) := mul_le_mul_of_nonneg_right (by omega) (mul_nonneg hg hg)
  constructor
  · linarith [hx.1]
  · nlinarith [hx.2]

/-- point with all coordinates in `[0,1)` -/
def InBox (p : Pt K) : Prop := (0 ≤ p.x ∧ p.x < 1) ∧ (0 ≤ p.y ∧ p.y < 1) ∧ (0 ≤ p.z ∧ p.z < 1)

theorem cellId_range (gr : Int) (hgr : 1 ≤ gr) (p : Pt K) (hp : InBox p) :
    ∃ c, cellId gr p = .ok c ∧ 0 ≤ c ∧ c < gr * gr * gr := by
  refine ⟨_, cellId_exact gr p, ?_⟩
  obtain ⟨hx, hy, hz⟩ := hp
  exact cell_index_range gr _ _ _ (gcoord_range gr hgr _ hx.1 hx.2)
    (gcoord_range gr hgr _ hy.1 hy.2) (gcoord_range gr hgr _ hz.1 hz.2)

end Votess
