import Verif.Proofs.IeeeKnn
import Verif.Props.IeeeGrid
/-!
# C66 — the neighbour search in single precision
-/
namespace Votess

theorem safe_gridPt {gr : Int} (h1 : 1 ≤ gr) (h2 : gr ≤ 1290) {xyz : List (Pt F32)}
    (hs : SafePoints gr xyz) : ∀ p ∈ xyz, ∃ v, p = toF32 v ∧ GridPt gr v := by
  have h3 : gr ≤ 2 ^ 24 := by omega
  intro p hp
  rcases hs with hs | ⟨hg, hs⟩
  · obtain ⟨x, y, z, rfl, hx, hy, hz⟩ := hs p hp
    have hb : (1 : ℚ) - 1 / 2 ^ 23 ≤ 1 := by norm_num
    exact ⟨⟨x, y, z⟩, rfl, ⟨hx.1, hx.2.trans hb⟩, ⟨hy.1, hy.2.trans hb⟩, ⟨hz.1, hz.2.trans hb⟩,
      gcoord32_lt h1 h3 hx.1 hx.2, gcoord32_lt h1 h3 hy.1 hy.2, gcoord32_lt h1 h3 hz.1 hz.2⟩
  · obtain ⟨x, y, z, rfl, ⟨fx, fy, fz⟩, hx, hy, hz⟩ := hs p hp
    obtain ⟨i, hi, hlt⟩ := (topSafe_iff gr).mp ((topSafe_iff_table h1 h2).mpr hg)
    rw [gridCoord32 h1 h3 (by norm_num) (by norm_num)] at hi
    cases hi
    have key : ∀ t : ℚ, IsFl b32 t → t < 1 → gcoord32 gr t < gr := fun t ft ht =>
      lt_of_le_of_lt (gcoord32_mono h1 h3 (float_lt_one ft ht)) hlt
    exact ⟨⟨x, y, z⟩, rfl, ⟨hx.1, hx.2.le⟩, ⟨hy.1, hy.2.le⟩, ⟨hz.1, hz.2.le⟩, key x fx hx.2,
      key y fy hy.2, key z fz hz.2⟩

/-- C66: with single precision arithmetic the search returns `k` pairs ordered by computed distance;
those with a finite distance are different other points, with their computed distances; and no point
that is left out is closer than one that is returned by more than `2^-19`. -/
theorem C66_knn {gr : Int} (h1 : 1 ≤ gr) (h2 : gr ≤ 1290) {xyz : List (Pt F32)}
    (hs : SafePoints gr xyz) {S : Sorted F32} (hS : xyzSort 4 gr xyz = .ok S) {index : Nat} {q : Pt ℚ}
    (hq : S.xyz[index]? = some (toF32 q)) {k : Nat} (hk : 1 ≤ k) :
    ∃ res, knnCompute S.xyz S.id S.offset index k gr (List.replicate k ((0 : Int), (⊤ : WithTop ℚ)))
        = .ok res ∧ res.length = k ∧ res.Pairwise (fun a b => a.2 ≤ b.2) ∧
      ((res.filter fun e => decide (e.2 ≠ ⊤)).map (·.1)).Nodup ∧
      (∀ e ∈ res, e.2 ≠ ⊤ → ∃ j v, IsEntry S.xyz index q e j v) ∧
      ∀ (j : Nat) (v : Pt ℚ), S.xyz[j]? = some (toF32 v) → j ≠ index →
        (∀ e ∈ res, e.2 ≠ ⊤ → e.1 ≠ j) →
        ∀ e ∈ res, ∃ i w, IsEntry S.xyz index q e i w ∧
          DistLe (1 / 2 ^ 19) (sqDist w q) (sqDist v q) := by
  have hperm := C01_sort_permutes 4 gr xyz S hS
  have hgp := safe_gridPt h1 h2 hs
  have hsz : FloatSizes 4 ⟨1, gr, 6, 8, 1, 0, false, false⟩ :=
    ⟨⟨h1, h2⟩, by simp, by simp, by simp, by simp⟩
  have hj := safe_job hsz hs
  exact knn32 h1 (by omega) S.xyz S.id S.offset (fun p hp => hgp p (hperm.mem_iff.mp hp))
    (hj.grid hS) (C02_ids_right 4 gr xyz S hS).2 index q hq k hk

/-- C66: when there are at least `k` other points all `k` pairs are points. -/
theorem C66_no_padding {gr : Int} (h1 : 1 ≤ gr) (h2 : gr ≤ 1290) {xyz : List (Pt F32)}
    (hs : SafePoints gr xyz) {S : Sorted F32} (hS : xyzSort 4 gr xyz = .ok S) {index : Nat} {q : Pt ℚ}
    (hq : S.xyz[index]? = some (toF32 q)) {k : Nat} (hk : 1 ≤ k) (hn : k < xyz.length)
    {res : List (Int × WithTop ℚ)}
    (hres : knnCompute S.xyz S.id S.offset index k gr (List.replicate k ((0 : Int), (⊤ : WithTop ℚ)))
      = .ok res) : ∀ e ∈ res, e.2 ≠ ⊤ := by
  obtain ⟨res', e, hl, -, hnd, -, hmiss⟩ := C66_knn h1 h2 hs hS hq hk
  rw [hres] at e; cases e
  have hperm := C01_sort_permutes 4 gr xyz S hS
  have hgp := safe_gridPt h1 h2 hs
  have hlen := hperm.length_eq
  have hi := (List.getElem?_eq_some_iff.mp hq).1
  intro x hx htop
  -- every other point is in the list
  have hall : ∀ j : Nat, j < S.xyz.length → j ≠ index →
      (j : Int) ∈ (res.filter fun e => decide (e.2 ≠ ⊤)).map (·.1) := by
    intro j hj hji
    by_contra hc
    obtain ⟨v, hv, -⟩ := hgp _ (hperm.mem_iff.mp (List.getElem_mem hj))
    obtain ⟨i, w, hw, -⟩ := hmiss j v (by rw [List.getElem?_eq_getElem hj, hv]) hji (by
      intro e he hfin heq
      exact hc (List.mem_map.mpr ⟨e, List.mem_filter.mpr ⟨he, by simpa using hfin⟩, heq⟩)) x hx
    obtain ⟨w1, w2, w3, w4⟩ := hw
    obtain ⟨vq, hvq, gq⟩ := hgp _ (hperm.mem_iff.mp (List.mem_of_getElem? hq))
    obtain ⟨vw, hvw, gw⟩ := hgp _ (hperm.mem_iff.mp (List.mem_of_getElem? w3))
    obtain ⟨D, hD, -⟩ := gw.dist gq
    rw [hvq, hvw, hD] at w4
    rw [w4] at htop
    exact WithTop.coe_ne_top htop
  have hsub : (((List.range S.xyz.length).erase index).map (fun j : Nat => (j : Int))).length
      ≤ ((res.filter fun e => decide (e.2 ≠ ⊤)).map (·.1)).length := by
    apply List.Subperm.length_le
    apply List.Nodup.subperm
    · rw [List.nodup_map_iff (fun a b h => by exact_mod_cast h)]
      exact List.nodup_range.erase _
    · intro a ha
      obtain ⟨j, hj, rfl⟩ := List.mem_map.mp ha
      rw [List.nodup_range.mem_erase_iff] at hj
      exact hall j (List.mem_range.mp hj.2) hj.1
  rw [List.length_map, List.length_map, List.length_erase_of_mem (List.mem_range.mpr hi),
    List.length_range] at hsub
  have hlt : (res.filter fun e => decide (e.2 ≠ ⊤)).length < res.length := by
    apply List.length_filter_lt_length_iff_exists.mpr
    exact ⟨x, hx, by simpa using htop⟩
  omega

/-- three points; the third is closer to the first than the second is -/
def tieXyz : List (Pt ℚ) :=
  [⟨1/4, 1/4, 1/4⟩, ⟨3/4, 1/4 + 1/2^13, 1/4⟩, ⟨3/4, 1/4, 1/4⟩]

/-- C66: some tolerance is needed: the search for the nearest neighbour returns a point although
another one is strictly closer, because both distances round to the same value. -/
theorem C66_not_exact : ∃ S res, xyzSort 4 1 (tieXyz.map toF32) = .ok S ∧
    S.xyz = tieXyz.map toF32 ∧
    knnCompute S.xyz S.id S.offset 0 1 1 [((0 : Int), (⊤ : WithTop ℚ))] = .ok res ∧
    res.map (·.1) = [1] ∧ sqDist ⟨3/4, 1/4, 1/4⟩ ⟨1/4, 1/4, 1/4⟩ < sqDist ⟨3/4, 1/4 + 1/2^13, 1/4⟩ (⟨1/4, 1/4, 1/4⟩ : Pt ℚ) := by
  refine ⟨⟨tieXyz.map toF32, [0, 0, 0], [0, 3]⟩, [(1, ((1/4 : ℚ) : WithTop ℚ))], ?_, rfl, ?_, rfl, ?_⟩
  · rw [xyzSort_eq]; decide +kernel
  · decide +kernel
  · decide +kernel

/-- the hypotheses are met by these points -/
example : SafePoints 1 (tieXyz.map toF32) := by
  left
  intro p hp
  simp only [tieXyz, List.map_cons, List.map_nil, List.mem_cons, List.not_mem_nil, or_false] at hp
  rcases hp with rfl | rfl | rfl
  · exact ⟨_, _, _, rfl, by norm_num, by norm_num, by norm_num⟩
  · exact ⟨_, _, _, rfl, by norm_num, by norm_num, by norm_num⟩
  · exact ⟨_, _, _, rfl, by norm_num, by norm_num, by norm_num⟩

/-- what the tolerance means: distances `1/2` and `1/2 + 2^-20` may be exchanged, `1/2` and
`1/2 + 2^-18` may not -/
example : DistLe (1 / 2 ^ 19) ((1/2 + 1/2^20) ^ 2) ((1/2) ^ 2) ∧
    ¬ DistLe (1 / 2 ^ 19) ((1/2 + 1/2^18) ^ 2) ((1/2) ^ 2) := by
  constructor
  · intro d d0 hd
    have : (1 : ℚ) / 2 ≤ d := by nlinarith
    norm_num at *
    nlinarith
  · intro h
    have := h (1/2) (by norm_num) (le_refl _)
    norm_num at this

end Votess
