import Verif.Proofs.Knn
import Verif.Proofs.Exact
import Verif.Props.Heap
import Verif.Props.Planes
import Verif.Props.XyzSet
import Verif.Spec.Knn
/-! The neighbour search in exact arithmetic. -/
set_option linter.unusedSectionVars false
namespace Votess

theorem gridOK_of_sort {F D : Type} [FP F D] [Inhabited F] (nb : Nat) (gr : Int)
    (xyz : List (Pt F)) (out : Sorted F) (hgr : 1 ≤ gr) (h : xyzSort nb gr xyz = .ok out)
    (hid : ∀ p ∈ xyz, ∀ c, cellId gr p = .ok c → 0 ≤ c ∧ c < gr * gr * gr ∧ c < 256 ^ nb) :
    GridOK gr out.xyz.length out.id out.offset := by
  obtain ⟨c1, c2, c3, c4, c5⟩ := C03_offset_table nb gr xyz out hgr h hid
  obtain ⟨d1, d2⟩ := C02_ids_right nb gr xyz out h
  have hperm := C01_sort_permutes nb gr xyz out h
  have hidr : ∀ c ∈ out.id, 0 ≤ c ∧ c < gr * gr * gr := by
    intro c hc
    obtain ⟨i, hi, rfl⟩ := List.getElem_of_mem hc
    obtain ⟨c', hc', hcell⟩ := d2 i _ (List.getElem?_eq_getElem (by omega))
    rw [List.getElem?_eq_getElem hi] at hc'; cases hc'
    have := hid _ (hperm.mem_iff.mp (List.getElem_mem _)) _ hcell
    exact ⟨this.1, this.2.1⟩
  refine ⟨hgr, d1, c1, hidr, ?_⟩
  intro c hc
  have hl1 : c < out.offset.length := by omega
  have hl2 : c + 1 < out.offset.length := by omega
  have hmono := List.pairwise_iff_getElem.mp c4
  refine ⟨_, _, List.getElem?_eq_getElem hl1, List.getElem?_eq_getElem hl2, ?_, ?_, ?_⟩
  · have h0 : out.offset[0]'(by omega) = 0 := by
      rw [List.getElem?_eq_getElem (by omega)] at c2; simpa using c2
    rcases Nat.eq_zero_or_pos c with rfl | hpos
    · omega
    · have := hmono 0 c (by omega) hl1 hpos; omega
  · have hn : out.offset[(gr * gr * gr).toNat]'(by omega) = xyz.length := by
      rw [List.getElem?_eq_getElem (by omega)] at c3; simpa using c3
    have hlen := hperm.length_eq
    rcases Nat.lt_or_ge (c + 1) (gr * gr * gr).toNat with hlt | hge
    · have := hmono (c + 1) (gr * gr * gr).toNat hl2 (by omega) hlt; omega
    · have : c + 1 = (gr * gr * gr).toNat := by omega
      simp only [this]; omega
  · intro i hi
    have hp := List.getElem?_eq_getElem hi
    have := c5 c i _ _ _ (List.getElem?_eq_getElem hl1) (List.getElem?_eq_getElem hl2) hp
    rw [← this]
    obtain ⟨c', hc', hcell⟩ := d2 i _ hp
    rw [hc', hcell]; simp

variable {K : Type} [Field K] [LinearOrder K] [IsStrictOrderedRing K] [FloorRing K]

theorem topLt_false (a b : WithTop K) : topLt a b = false ↔ b ≤ a := by
  rw [← not_lt, ← topLt_iff]; simp

/-- offset inside the cell -/
theorem gcoord_bounds (gr : Int) (hgr : 1 ≤ gr) (x : K) :
    (gcoord gr x : K) * (1 / gr) ≤ x ∧ x < ((gcoord gr x : K) + 1) * (1 / gr) := by
  have hg : (0 : K) < (gr : K) := by exact_mod_cast (by omega : 0 < gr)
  unfold gcoord
  have h1 := Int.floor_le (x * (gr : K))
  have h2 := Int.lt_floor_add_one (x * (gr : K))
  constructor
  · rw [mul_one_div, div_le_iff₀ hg]; exact h1
  · rw [mul_one_div, lt_div_iff₀ hg]; exact h2

theorem wallDist_exact (gr : Int) (hgr : 1 ≤ gr) (x : K) (h0 : 0 ≤ x) :
    0 ≤ wallDist (FP.recip gr : K) x ∧
    wallDist (FP.recip gr : K) x ≤ x - (gcoord gr x : K) * (1 / gr) ∧
    wallDist (FP.recip gr : K) x ≤ ((gcoord gr x : K) + 1) * (1 / gr) - x := by
  have hg : (0 : K) < (gr : K) := by exact_mod_cast (by omega : 0 < gr)
  obtain ⟨b1, b2⟩ := gcoord_bounds gr hgr x
  have hdiv : x / (1 / (gr : K)) = x * gr := by rw [one_div, div_inv_eq_mul]
  have hf : FP.fmod x (FP.recip gr : K) = x - (gcoord gr x : K) * (1 / gr) := by
    simp only [FP.fmod, FP.recip, truncK, hdiv, gcoord]
    rw [if_pos (mul_nonneg h0 hg.le)]
  unfold wallDist
  simp only [hf]
  simp only [FP.recip, FP.div, FP.ofInt, FP.add, FP.mul, FP.sub, FP.le, FP.lt, FP.ofBool]
  push_cast
  generalize (1 / (gr : K)) = gl at *
  generalize (gcoord gr x : K) = c at *
  by_cases h : x - c * gl ≤ gl / 2
  · simp only [h, decide_true, not_lt.mpr h, decide_false, if_true, Bool.false_eq_true, if_false]
    refine ⟨by linarith, by linarith, by linarith⟩
  · have h' := not_le.mp h
    simp only [h, h', decide_true, decide_false, if_true, Bool.false_eq_true, if_false]
    refine ⟨by linarith, by linarith, by linarith⟩

theorem far_axis (gr : Int) (hgr : 1 ≤ gr) (a b mn : K) (r : Nat) (ha : 0 ≤ a)
    (h : (r : Int) + 1 ≤ |gcoord gr b - gcoord gr a|) (hmn : 0 ≤ mn)
    (hle : mn ≤ wallDist (FP.recip gr : K) a) :
    (1 / (gr : K) * r + mn) * (1 / (gr : K) * r + mn) ≤ (b - a) ^ 2 := by
  have hg : (0 : K) < 1 / (gr : K) := by
    apply one_div_pos.mpr; exact_mod_cast (by omega : 0 < gr)
  obtain ⟨-, w1, w2⟩ := wallDist_exact gr hgr a ha
  obtain ⟨b1, b2⟩ := gcoord_bounds gr hgr b
  generalize gcoord gr a = i at *
  generalize gcoord gr b = j at *
  generalize 1 / (gr : K) = gl at *
  have hr : (0 : K) ≤ r := Nat.cast_nonneg r
  have hnn : 0 ≤ gl * r + mn := by positivity
  suffices gl * r + mn ≤ |b - a| by
    rw [← sq_abs (b - a)]; nlinarith [abs_nonneg (b - a)]
  rcases le_abs.mp h with h | h
  · have hj : (i : K) + r + 1 ≤ j := by exact_mod_cast (by omega : i + r + 1 ≤ j)
    refine le_trans ?_ (le_abs_self _)
    nlinarith
  · have hj : (j : K) + r + 1 ≤ i := by exact_mod_cast (by omega : j + r + 1 ≤ i)
    refine le_trans ?_ (neg_le_abs _)
    nlinarith

theorem coords_of_cell (gr : Int) (hgr : 1 ≤ gr) (p : Pt K) (hp : InBox p) (c : Int)
    (h : cellId gr p = .ok c) : coords gr c = (gcoord gr p.x, gcoord gr p.y, gcoord gr p.z) := by
  rw [cellId_exact] at h
  cases h
  obtain ⟨hx, hy, hz⟩ := hp
  have hin : InGrid gr (gcoord gr p.x, gcoord gr p.y, gcoord gr p.z) :=
    ⟨gcoord_range gr hgr _ hx.1 hx.2, gcoord_range gr hgr _ hy.1 hy.2, gcoord_range gr hgr _ hz.1 hz.2⟩
  rw [← coords_cellOf hin]
  congr 1
  unfold cellOf; simp only; ring

/-- a point in a cell outside the shells searched is at least as far as the exit bound -/
theorem far_point (gr : Int) (hgr : 1 ≤ gr) (q p : Pt K) (hq : InBox q) (hp : InBox p) (cq cp : Int)
    (h1 : cellId gr q = .ok cq) (h2 : cellId gr p = .ok cp) (r : Nat)
    (hr : ((r + 1 : Nat) : Int) ≤ cheb (coords gr cp) (coords gr cq)) :
    square (FP.add (FP.mul (FP.recip gr) (FP.ofInt (r : Int)))
      (min3 (wallDist (FP.recip gr) q.x) (wallDist (FP.recip gr) q.y)
        (wallDist (FP.recip gr) q.z)) : K) ≤ sqDist p q := by
  rw [coords_of_cell gr hgr p hp cp h2, coords_of_cell gr hgr q hq cq h1] at hr
  obtain ⟨⟨qx, -⟩, ⟨qy, -⟩, ⟨qz, -⟩⟩ := hq
  rw [min3_eq]
  obtain ⟨wx, -, -⟩ := wallDist_exact gr hgr q.x qx
  obtain ⟨wy, -, -⟩ := wallDist_exact gr hgr q.y qy
  obtain ⟨wz, -, -⟩ := wallDist_exact gr hgr q.z qz
  have hmn := le_min (le_min wx wy) wz
  have l1 := (min_le_left (min (wallDist (FP.recip gr : K) q.x) (wallDist (FP.recip gr : K) q.y))
    (wallDist (FP.recip gr : K) q.z)).trans (min_le_left _ _)
  have l2 := (min_le_left (min (wallDist (FP.recip gr : K) q.x) (wallDist (FP.recip gr : K) q.y))
    (wallDist (FP.recip gr : K) q.z)).trans (min_le_right _ _)
  have l3 := min_le_right (min (wallDist (FP.recip gr : K) q.x) (wallDist (FP.recip gr : K) q.y))
    (wallDist (FP.recip gr : K) q.z)
  generalize min (min (wallDist (FP.recip gr : K) q.x) (wallDist (FP.recip gr : K) q.y))
    (wallDist (FP.recip gr : K) q.z) = mn at *
  simp only [square, FP.add, FP.mul, FP.ofInt]
  simp only [cheb, le_max_iff] at hr
  have e : (FP.recip gr : K) = 1 / gr := rfl
  have ex : (((r : Int)) : K) = (r : K) := by push_cast; rfl
  rw [ex, e]
  unfold sqDist
  have s1 := sq_nonneg (p.x - q.x)
  have s2 := sq_nonneg (p.y - q.y)
  have s3 := sq_nonneg (p.z - q.z)
  rcases hr with hr | hr | hr
  · have := far_axis gr hgr q.x p.x mn r qx (by push_cast at hr ⊢; exact hr) hmn l1
    linarith
  · have := far_axis gr hgr q.y p.y mn r qy (by push_cast at hr ⊢; exact hr) hmn l2
    linarith
  · have := far_axis gr hgr q.z p.z mn r qz (by push_cast at hr ⊢; exact hr) hmn l3
    linarith

theorem mem_otherPoints (xyz : List (Pt K)) (index : Nat) (q : Pt K) (e : Int × WithTop K) :
    e ∈ otherPoints xyz index q ↔ ∃ (j : Nat) (pt : Pt K), xyz[j]? = some pt ∧ j ≠ index ∧
      e = ((j : Int), ((sqDist pt q : K) : WithTop K)) := by
  unfold otherPoints
  simp only [List.mem_map, List.mem_filter, decide_eq_true_eq, List.mem_zipIdx_iff_getElem?,
    Prod.exists]
  constructor
  · rintro ⟨pt, j, ⟨h1, h2⟩, rfl⟩; exact ⟨j, pt, h1, h2, rfl⟩
  · rintro ⟨j, pt, h1, h2, rfl⟩; exact ⟨pt, j, ⟨h1, h2⟩, rfl⟩

theorem zipIdx_map_snd {α : Type} (l : List α) : l.zipIdx.map (·.2) = List.range l.length := by
  rw [List.zipIdx_map_snd, List.range_eq_range']

theorem otherPoints_nodup (xyz : List (Pt K)) (index : Nat) (q : Pt K) :
    ((otherPoints xyz index q).map (·.1)).Nodup := by
  unfold otherPoints
  rw [List.map_map]
  have h1 : (xyz.zipIdx.map (·.2)).Nodup := by rw [zipIdx_map_snd]; exact List.nodup_range
  unfold List.Nodup at h1 ⊢
  rw [List.pairwise_map] at h1 ⊢
  refine (h1.filter _).imp ?_
  intro a b h h'
  simp at h'; exact h h'

theorem nodup_of_map {α β : Type} {f : α → β} {l : List α} (h : (l.map f).Nodup) : l.Nodup := by
  unfold List.Nodup at h ⊢
  rw [List.pairwise_map] at h
  exact h.imp (fun h e => h (by rw [e]))

theorem otherPoints_length (xyz : List (Pt K)) (index : Nat) (q : Pt K) (hi : index < xyz.length) :
    (otherPoints xyz index q).length = xyz.length - 1 := by
  unfold otherPoints
  rw [List.length_map]
  have e : (xyz.zipIdx.filter fun e => decide (e.2 ≠ index)).length
      = ((xyz.zipIdx.map (·.2)).filter fun i => decide (i ≠ index)).length := by
    rw [List.filter_map, List.length_map]; rfl
  rw [e, zipIdx_map_snd]
  have := List.length_eq_length_filter_add (l := List.range xyz.length) (fun i => decide (i ≠ index))
  have e2 : ((List.range xyz.length).filter fun i => !decide (i ≠ index)).length = 1 := by
    rw [← List.countP_eq_length_filter]
    have : (List.range xyz.length).countP (fun i => !decide (i ≠ index))
        = (List.range xyz.length).count index := by
      unfold List.count
      apply List.countP_congr
      intro x _; simp
    rw [this, List.nodup_range.count, if_pos (List.mem_range.mpr hi)]
  rw [List.length_range] at this
  omega

/-- exactness of the search -/
theorem knn_exact (gr : Int) (xyz : List (Pt K)) (id offset : List Int)
    (hbox : ∀ p ∈ xyz, InBox p) (hg : GridOK gr xyz.length id offset)
    (hids : ∀ (i : Nat) p, xyz[i]? = some p → ∃ c, id[i]? = some c ∧ cellId gr p = .ok c)
    (index : Nat) (hi : index < xyz.length) (k : Nat) (hk : 1 ≤ k) :
    ∃ res, knnCompute xyz id offset index k gr (List.replicate k ((0 : Int), (⊤ : WithTop K)))
        = .ok res ∧ KnnSpec xyz index (xyz[index]) k res := by
  obtain ⟨res, h, q, c, m, e, hperm, hq, hc, hsort, ⟨hlen, V, d, hV, hcand, hp, hord⟩, hm, hexit⟩ :=
    knnCompute_inv xyz index k hk hg (List.replicate k ((0 : Int), (⊤ : WithTop K))) (by simp) hi
  have hqe : q = xyz[index] := by rw [List.getElem?_eq_getElem hi] at hq; simpa using hq.symm
  subst hqe
  generalize hqq : xyz[index] = q at *
  have w := topLt_weakOrd (K := K)
  have hheap0 : HeapEx (topLt (K := K)) (List.replicate k ((0 : Int), (⊤ : WithTop K)))
      (List.replicate k ((0 : Int), (⊤ : WithTop K))).length 0 none := by
    intro p c _ _ _ _ x y hx hy
    have hx' := List.eq_of_mem_replicate (List.mem_of_getElem? hx)
    have hy' := List.eq_of_mem_replicate (List.mem_of_getElem? hy)
    rw [hx', hy']; rfl
  obtain ⟨hheap, hdisc⟩ := hord w hheap0
  refine ⟨res, e, ?_, ?_, ?_⟩
  · rw [hperm.length_eq, hlen]
  · refine (hsort w).imp ?_
    intro a b hab
    exact (topLt_false _ _).mp hab
  · -- the points not visited
    let U := (otherPoints xyz index q).filter
      (fun e => decide (e.1 ∉ visited gr offset index (coords gr c) m))
    have hVnd : V.Nodup := by
      apply nodup_of_map (f := (·.1)); rw [hV]; exact visited_nodup hg _ _ _
    have hVmem : ∀ e, e ∈ V ↔ e ∈ otherPoints xyz index q ∧
        e.1 ∈ visited gr offset index (coords gr c) m := by
      intro e
      constructor
      · intro he
        have hvis : e.1 ∈ visited gr offset index (coords gr c) m := by
          rw [← hV]; exact List.mem_map_of_mem he
        refine ⟨?_, hvis⟩
        rw [mem_otherPoints]
        obtain ⟨pt, h1, h2, h3⟩ := hcand e he
        have hne := ((mem_visited hg _ _ _ _).mp hvis).1
        refine ⟨e.1.toNat, pt, h2, by omega, ?_⟩
        rw [getDistance_eq] at h3
        ext1
        · simp; omega
        · exact h3
      · rintro ⟨he, hvis⟩
        rw [← hV, List.mem_map] at hvis
        obtain ⟨e', he', heq⟩ := hvis
        obtain ⟨j, pt, h1, h2, rfl⟩ := (mem_otherPoints _ _ _ _).mp he
        obtain ⟨pt', g1, g2, g3⟩ := hcand e' he'
        rw [heq] at g2
        simp only [Int.toNat_natCast] at g2
        rw [h1] at g2; cases g2
        rw [getDistance_eq] at g3
        have : e' = ((j : Int), ((sqDist pt q : K) : WithTop K)) := by
          ext1
          · exact heq
          · exact g3
        rw [← this]; exact he'
    have hVU : (V ++ U).Perm (otherPoints xyz index q) := by
      rw [List.perm_ext_iff_of_nodup]
      · intro e
        simp only [List.mem_append, hVmem, U, List.mem_filter, decide_eq_true_eq]
        constructor
        · rintro (h | h)
          · exact h.1
          · exact h.1
        · intro h
          by_cases hv : e.1 ∈ visited gr offset index (coords gr c) m
          · exact Or.inl ⟨h, hv⟩
          · exact Or.inr ⟨h, hv⟩
      · rw [List.nodup_append]
        refine ⟨hVnd, (nodup_of_map (otherPoints_nodup xyz index q)).filter _, ?_⟩
        intro a ha b hb hab
        subst hab
        have h1 := (hVmem a).mp ha
        simp only [U, List.mem_filter, decide_eq_true_eq] at hb
        exact hb.2 h1.2
      · exact nodup_of_map (otherPoints_nodup xyz index q)
    refine ⟨d ++ U, ?_, ?_⟩
    · have a1 : (res ++ (d ++ U)).Perm (h ++ (d ++ U)) := hperm.append_right _
      have a2 : (h ++ (d ++ U)).Perm ((V ++ List.replicate k ((0 : Int), (⊤ : WithTop K))) ++ U) := by
        rw [← List.append_assoc]; exact hp.append_right _
      have a3 : ((V ++ List.replicate k ((0 : Int), (⊤ : WithTop K))) ++ U).Perm
          ((V ++ U) ++ List.replicate k ((0 : Int), (⊤ : WithTop K))) := by
        rw [List.append_assoc, List.append_assoc]
        exact List.Perm.append_left _ List.perm_append_comm
      exact ((a1.trans a2).trans a3).trans (hVU.append_right _)
    · intro x hx y hy
      have hx' := hperm.mem_iff.mp hx
      rcases List.mem_append.mp hy with hy | hy
      · exact (topLt_false _ _).mp (hdisc y hy x hx')
      · simp only [U, List.mem_filter, decide_eq_true_eq] at hy
        obtain ⟨hyO, hyv⟩ := hy
        obtain ⟨j, pt, h1, h2, rfl⟩ := (mem_otherPoints _ _ _ _).mp hyO
        obtain ⟨cj, hcj, hcell⟩ := hids j pt h1
        have hcr := hg.id_range _ (List.mem_of_getElem? hcj)
        have hccr := hg.id_range _ (List.mem_of_getElem? hc)
        have hnv : ¬ cheb (coords gr cj) (coords gr c) < m := by
          intro hlt
          apply hyv
          rw [mem_visited hg]
          exact ⟨by simpa using h2, cj, by simp, by simpa using hcj, hlt⟩
        rcases hexit with rfl | ⟨r, top, rfl, htop, hx2⟩
        · -- all shells were searched
          exfalso
          apply hnv
          have i1 := coords_inGrid hg.gr_pos hcr
          have i2 := coords_inGrid hg.gr_pos hccr
          obtain ⟨⟨x0, x1⟩, ⟨y0, y1⟩, ⟨z0, z1⟩⟩ := i1
          obtain ⟨⟨u0, u1⟩, ⟨v0, v1⟩, ⟨w0, w1⟩⟩ := i2
          unfold cheb
          have := hg.gr_pos
          rw [Int.toNat_of_nonneg (by omega)]
          simp only [max_lt_iff, abs_lt]
          omega
        · have hqc : cellId gr q = .ok c := by
            obtain ⟨c', e1, e2⟩ := hids index q (by rw [List.getElem?_eq_getElem hi, hqq])
            rw [hc] at e1; cases e1; exact e2
          have hfar := far_point gr hg.gr_pos q pt
            (hbox q (by rw [← hqq]; exact List.getElem_mem _)) (hbox pt (List.mem_of_getElem? h1))
            c cj hqc hcell r (by omega)
          have hxt : x.2 ≤ top.2 := by
            have hl : HeapEx (topLt (K := K)) h h.length 0 none := by rw [hlen]; exact hheap
            exact (topLt_false _ _).mp (root_max_mem w hl htop x hx')
          have hlt := (topLt_iff _ _).mp hx2
          exact hxt.trans (hlt.le.trans (WithTop.coe_le_coe.mpr hfar))

end Votess
