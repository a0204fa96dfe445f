import Verif.Proofs.KnnExact
import Mathlib.Data.List.Sort
/-!
# C08–C12 — grid search for the k nearest neighbours
-/
set_option linter.unusedSectionVars false
namespace Votess

/-! ### C08 -/

/-- C08: the shells `r = 0 … gr-1` around any home cell enumerate every cell of the grid
exactly once and nothing else. -/
theorem C08_shells (gr : Int) (p : Int × Int × Int) (hp : InGrid gr p) :
    ((List.range gr.toNat).flatMap fun r : Nat => shellCells gr p.1 p.2.1 p.2.2 (r : Int)).Nodup ∧
    ∀ c, c ∈ ((List.range gr.toNat).flatMap fun r : Nat => shellCells gr p.1 p.2.1 p.2.2 (r : Int))
      ↔ InGrid gr c := by
  constructor
  · apply nodup_flatMap List.nodup_range
    · intro r _; exact shellCells_nodup _ _ _ _ _
    · intro r _ s _ hrs x hx hx'
      rw [mem_shellCells (by omega)] at hx hx'
      apply hrs
      have := hx.2.symm.trans hx'.2
      exact_mod_cast this
  · intro c
    simp only [List.mem_flatMap, List.mem_range]
    constructor
    · rintro ⟨r, -, hr⟩
      rw [mem_shellCells (by omega)] at hr
      exact hr.1
    · intro hc
      have hnn : 0 ≤ cheb c p := le_trans (abs_nonneg _) (le_max_left _ _)
      refine ⟨(cheb c p).toNat, ?_, ?_⟩
      · obtain ⟨⟨x0, x1⟩, ⟨y0, y1⟩, ⟨z0, z1⟩⟩ := hc
        obtain ⟨⟨u0, u1⟩, ⟨v0, v1⟩, ⟨w0, w1⟩⟩ := hp
        have : cheb c p < gr := by
          unfold cheb
          simp only [max_lt_iff, abs_lt]
          omega
        omega
      · rw [mem_shellCells (by omega)]; exact ⟨hc, by omega⟩

/-- C08: cell numbers and grid coordinates correspond one to one, so no cell number is
visited twice either. -/
theorem C08_cell_numbers (gr : Int) (hgr : 1 ≤ gr) :
    (∀ c, InGrid gr c → 0 ≤ cellOf gr c ∧ cellOf gr c < gr * gr * gr ∧ coords gr (cellOf gr c) = c) ∧
    (∀ n, 0 ≤ n ∧ n < gr * gr * gr → InGrid gr (coords gr n) ∧ cellOf gr (coords gr n) = n) :=
  ⟨fun _ hc => ⟨(cellOf_range hc).1, (cellOf_range hc).2, coords_cellOf hc⟩,
   fun _ hn => ⟨coords_inGrid hgr hn, cellOf_coords hgr⟩⟩

example : InGrid 3 (2, 0, 1) := by unfold InGrid; decide
example : shellCells 3 2 0 1 1 =
    [(1, 0, 0), (2, 0, 0), (1, 1, 0), (2, 1, 0), (1, 0, 1), (1, 1, 1), (2, 1, 1),
     (1, 0, 2), (2, 0, 2), (1, 1, 2), (2, 1, 2)] := by decide

/-! ### any arithmetic -/

section anyArith
variable {F D : Type} [FP F D] [Inhabited F]

/-- C11, any arithmetic (rounding, NaN, any comparison): after a sort in which every cell id
was in range, the search neither leaves its buffers nor runs forever; it returns `k` pairs,
each an initial pair or a pair of a different point, with no point twice. -/
theorem C11_any_arithmetic (nb : Nat) (gr : Int) (xyz : List (Pt F)) (out : Sorted F)
    (hgr : 1 ≤ gr) (hs : xyzSort nb gr xyz = .ok out)
    (hid : ∀ p ∈ xyz, ∀ c, cellId gr p = .ok c → 0 ≤ c ∧ c < gr * gr * gr ∧ c < 256 ^ nb)
    (index : Nat) (hi : index < xyz.length) (k : Nat) (hk : 1 ≤ k) (h0 : List (Int × D))
    (hh0 : h0.length = k) :
    ∃ (res V d : List (Int × D)), knnCompute out.xyz out.id out.offset index k gr h0 = .ok res ∧ res.length = k ∧
      (V.map (·.1)).Nodup ∧ (∀ e ∈ V, 0 ≤ e.1 ∧ e.1 < xyz.length ∧ e.1 ≠ index) ∧
      (res ++ d).Perm (V ++ h0) := by
  have hg := gridOK_of_sort nb gr xyz out hgr hs hid
  have hlen := (C01_sort_permutes nb gr xyz out hs).length_eq
  obtain ⟨res, h, q, c, m, e, hperm, -, -, -, ⟨hl, V, d, hV, hcand, hp, -⟩, -, -⟩ :=
    knnCompute_inv out.xyz index k hk hg h0 hh0 (by omega)
  refine ⟨res, V, d, e, by rw [hperm.length_eq, hl], ?_, ?_, (hperm.append_right _).trans hp⟩
  · rw [hV]; exact visited_nodup hg _ _ _
  · intro v hv
    obtain ⟨pt, h1, h2, -⟩ := hcand v hv
    have hvis : v.1 ∈ visited gr out.offset index (coords gr c) m := by
      rw [← hV]; exact List.mem_map_of_mem hv
    have := (List.getElem?_eq_some_iff.mp h2).1
    exact ⟨h1, by omega, ((mem_visited hg _ _ _ _).mp hvis).1⟩

end anyArith

/-! ### exact arithmetic -/

variable {K : Type} [Field K] [LinearOrder K] [IsStrictOrderedRing K] [FloorRing K] [Inhabited K]

/-- points of a sorted set in the unit box satisfy the requirements of the search -/
theorem sorted_facts (nb : Nat) (gr : Int) (xyz : List (Pt K)) (out : Sorted K) (hgr : 1 ≤ gr)
    (hnb : gr * gr * gr ≤ 256 ^ nb) (hbox : ∀ p ∈ xyz, InBox p)
    (hs : xyzSort nb gr xyz = .ok out) :
    (∀ p ∈ out.xyz, InBox p) ∧ GridOK gr out.xyz.length out.id out.offset ∧
    (∀ (i : Nat) p, out.xyz[i]? = some p → ∃ c, out.id[i]? = some c ∧ cellId gr p = .ok c) ∧
    out.xyz.length = xyz.length := by
  have hperm := C01_sort_permutes nb gr xyz out hs
  refine ⟨fun p hp => hbox p (hperm.mem_iff.mp hp), ?_, (C02_ids_right nb gr xyz out hs).2,
    hperm.length_eq⟩
  apply gridOK_of_sort nb gr xyz out hgr hs
  intro p hp c hc
  obtain ⟨c', h1, h2, h3⟩ := cellId_range gr hgr p (hbox p hp)
  rw [hc] at h1; cases h1
  exact ⟨h2, h3, lt_of_lt_of_le h3 hnb⟩

/-- the search returns the `k` smallest pairs (of the other points and the padding), sorted -/
theorem knn_spec (nb : Nat) (gr : Int) (xyz : List (Pt K)) (out : Sorted K) (hgr : 1 ≤ gr)
    (hnb : gr * gr * gr ≤ 256 ^ nb) (hbox : ∀ p ∈ xyz, InBox p)
    (hs : xyzSort nb gr xyz = .ok out) (index : Nat) (q : Pt K) (hq : out.xyz[index]? = some q)
    (k : Nat) (hk : 1 ≤ k) :
    ∃ res, knnCompute out.xyz out.id out.offset index k gr
        (List.replicate k ((0 : Int), (⊤ : WithTop K))) = .ok res ∧
      KnnSpec out.xyz index q k res := by
  obtain ⟨h1, h2, h3, h4⟩ := sorted_facts nb gr xyz out hgr hnb hbox hs
  obtain ⟨hi, rfl⟩ := List.getElem?_eq_some_iff.mp hq
  exact knn_exact gr out.xyz out.id out.offset h1 h2 h3 index hi k hk

/-- C09: the search returns `k` pairs in ascending order of distance; every pair with a finite
distance is another point with its squared distance; and no point that is not in the list is
closer than any entry. -/
theorem C09_knn_exact (nb : Nat) (gr : Int) (xyz : List (Pt K)) (out : Sorted K) (hgr : 1 ≤ gr)
    (hnb : gr * gr * gr ≤ 256 ^ nb) (hbox : ∀ p ∈ xyz, InBox p)
    (hs : xyzSort nb gr xyz = .ok out) (index : Nat) (q : Pt K) (hq : out.xyz[index]? = some q)
    (k : Nat) (hk : 1 ≤ k) :
    ∃ res, knnCompute out.xyz out.id out.offset index k gr
        (List.replicate k ((0 : Int), (⊤ : WithTop K))) = .ok res ∧
      res.length = k ∧ res.Pairwise (fun a b => a.2 ≤ b.2) ∧
      (∀ e ∈ res, e.2 ≠ ⊤ → ∃ (j : Nat) (pt : Pt K), e.1 = j ∧ j ≠ index ∧
        out.xyz[j]? = some pt ∧ e.2 = (sqDist pt q : K)) ∧
      ∀ (j : Nat) (pt : Pt K), out.xyz[j]? = some pt → j ≠ index →
        ((j : Int), ((sqDist pt q : K) : WithTop K)) ∉ res →
        ∀ e ∈ res, e.2 ≤ ((sqDist pt q : K) : WithTop K) := by
  obtain ⟨res, h1, h2, h3, rest, hp, hle⟩ := knn_spec nb gr xyz out hgr hnb hbox hs index q hq k hk
  refine ⟨res, h1, h2, h3, ?_, ?_⟩
  · intro e he hfin
    have : e ∈ otherPoints out.xyz index q ++ List.replicate k ((0 : Int), (⊤ : WithTop K)) :=
      hp.mem_iff.mp (List.mem_append_left _ he)
    rcases List.mem_append.mp this with h | h
    · obtain ⟨j, pt, a, b, rfl⟩ := (mem_otherPoints _ _ _ _).mp h
      exact ⟨j, pt, rfl, b, a, rfl⟩
    · rw [List.eq_of_mem_replicate h] at hfin; exact absurd rfl hfin
  · intro j pt hj hji hnot e he
    have hmem : ((j : Int), ((sqDist pt q : K) : WithTop K)) ∈ otherPoints out.xyz index q :=
      (mem_otherPoints _ _ _ _).mpr ⟨j, pt, hj, hji, rfl⟩
    have := hp.symm.mem_iff.mp (List.mem_append_left _ hmem)
    rcases List.mem_append.mp this with h | h
    · exact absurd h hnot
    · exact hle e he _ h

theorem smallest_unique (A A' B B' : List (WithTop K)) (hl : A.length = B.length)
    (hA : A.Pairwise (· ≤ ·)) (hB : B.Pairwise (· ≤ ·)) (hp : (A ++ A').Perm (B ++ B'))
    (hAA : ∀ x ∈ A, ∀ y ∈ A', x ≤ y) (hBB : ∀ x ∈ B, ∀ y ∈ B', x ≤ y) : A = B := by
  have key : ∀ (A A' : List (WithTop K)), A.Pairwise (· ≤ ·) → (∀ x ∈ A, ∀ y ∈ A', x ≤ y) →
      (A ++ A'.insertionSort (· ≤ ·)).Pairwise (· ≤ ·) := by
    intro A A' hA hAA
    rw [List.pairwise_append]
    refine ⟨hA, List.pairwise_insertionSort _ _, ?_⟩
    intro x hx y hy
    exact hAA x hx y ((List.perm_insertionSort _ _).mem_iff.mp hy)
  have hp' : (A ++ A'.insertionSort (· ≤ ·)).Perm (B ++ B'.insertionSort (· ≤ ·)) :=
    ((List.perm_insertionSort _ _).append_left _).trans
      (hp.trans ((List.perm_insertionSort _ _).append_left _).symm)
  have := hp'.eq_of_pairwise' (key A A' hA hAA) (key B B' hB hBB)
  exact (List.append_inj this hl).1

theorem otherPoints_dists (xyz : List (Pt K)) (index : Nat) (q : Pt K) (hq : xyz[index]? = some q) :
    (((sqDist q q : K) : WithTop K) :: (otherPoints xyz index q).map (·.2)).Perm
      (xyz.map fun p => ((sqDist p q : K) : WithTop K)) := by
  unfold otherPoints
  rw [List.map_map]
  have e1 : xyz.map (fun p => ((sqDist p q : K) : WithTop K))
      = xyz.zipIdx.map (fun e => ((sqDist e.1 q : K) : WithTop K)) := by
    conv_lhs => rw [← List.zipIdx_map_fst 0 xyz, List.map_map]
    rfl
  rw [e1]
  have e2 := (List.filter_append_perm (fun e : Pt K × Nat => decide (e.2 ≠ index)) xyz.zipIdx).symm
  have e3 : xyz.zipIdx.filter (fun e => !decide (e.2 ≠ index)) = [(q, index)] := by
    have hnd : (xyz.zipIdx.filter (fun e => !decide (e.2 ≠ index))).Nodup := by
      apply List.Nodup.filter
      apply nodup_of_map (f := (·.2)); rw [zipIdx_map_snd]; exact List.nodup_range
    have hmem : ∀ e, e ∈ xyz.zipIdx.filter (fun e => !decide (e.2 ≠ index)) ↔ e = (q, index) := by
      intro e
      simp only [List.mem_filter, List.mem_zipIdx_iff_getElem?, decide_not, Bool.not_not,
        decide_eq_true_eq]
      constructor
      · rintro ⟨a, b⟩
        rw [b, hq] at a
        ext1
        · simpa using a.symm
        · exact b
      · rintro rfl; exact ⟨hq, rfl⟩
    have := (List.perm_ext_iff_of_nodup hnd (List.nodup_singleton (q, index))).mpr
      (fun e => by rw [hmem]; simp)
    exact List.perm_singleton.mp this
  rw [e3] at e2
  have := (e2.map (fun e : Pt K × Nat => ((sqDist e.1 q : K) : WithTop K))).symm
  rw [List.map_append] at this
  refine List.Perm.trans ?_ this
  exact (List.perm_append_comm (l₂ := [((sqDist q q : K) : WithTop K)])).symm

/-- C10: the sorted distances returned for the same query point do not depend on the grid
resolution (nor on the position the point was sorted to, nor on the integer width). -/
theorem C10_grid_independent (nb nb' : Nat) (gr gr' : Int) (xyz : List (Pt K)) (out out' : Sorted K)
    (hgr : 1 ≤ gr) (hgr' : 1 ≤ gr') (hnb : gr * gr * gr ≤ 256 ^ nb)
    (hnb' : gr' * gr' * gr' ≤ 256 ^ nb') (hbox : ∀ p ∈ xyz, InBox p)
    (hs : xyzSort nb gr xyz = .ok out) (hs' : xyzSort nb' gr' xyz = .ok out')
    (index index' : Nat) (q : Pt K) (hq : out.xyz[index]? = some q)
    (hq' : out'.xyz[index']? = some q) (k : Nat) (hk : 1 ≤ k) :
    ∃ res res', knnCompute out.xyz out.id out.offset index k gr
        (List.replicate k ((0 : Int), (⊤ : WithTop K))) = .ok res ∧
      knnCompute out'.xyz out'.id out'.offset index' k gr'
        (List.replicate k ((0 : Int), (⊤ : WithTop K))) = .ok res' ∧
      res.map (·.2) = res'.map (·.2) := by
  obtain ⟨res, h1, h2, h3, rest, hp, hle⟩ := knn_spec nb gr xyz out hgr hnb hbox hs index q hq k hk
  obtain ⟨res', h1', h2', h3', rest', hp', hle'⟩ :=
    knn_spec nb' gr' xyz out' hgr' hnb' hbox hs' index' q hq' k hk
  refine ⟨res, res', h1, h1', ?_⟩
  apply smallest_unique _ (rest.map (·.2)) _ (rest'.map (·.2)) (by simp [h2, h2'])
  · rw [List.pairwise_map]; exact h3
  · rw [List.pairwise_map]; exact h3'
  · rw [← List.map_append, ← List.map_append]
    have a := hp.map (·.2)
    have a' := hp'.map (·.2)
    refine a.trans (List.Perm.trans ?_ a'.symm)
    rw [List.map_append, List.map_append]
    apply List.Perm.append_right
    have b := otherPoints_dists out.xyz index q hq
    have b' := otherPoints_dists out'.xyz index' q hq'
    have c : (out.xyz.map fun p => ((sqDist p q : K) : WithTop K)).Perm
        (out'.xyz.map fun p => ((sqDist p q : K) : WithTop K)) :=
      ((C01_sort_permutes nb gr xyz out hs).trans (C01_sort_permutes nb' gr' xyz out' hs').symm).map _
    exact List.Perm.cons_inv ((b.trans c).trans b'.symm)
  · intro x hx y hy
    obtain ⟨x', hx', rfl⟩ := List.mem_map.mp hx
    obtain ⟨y', hy', rfl⟩ := List.mem_map.mp hy
    exact hle x' hx' y' hy'
  · intro x hx y hy
    obtain ⟨x', hx', rfl⟩ := List.mem_map.mp hx
    obtain ⟨y', hy', rfl⟩ := List.mem_map.mp hy
    exact hle' x' hx' y' hy'

/-- finite distance -/
def fin (e : Int × WithTop K) : Bool := decide (e.2 ≠ ⊤)

theorem fin_of_le {x y : Int × WithTop K} (h : x.2 ≤ y.2) (hy : fin y = true) : fin x = true := by
  unfold fin at *; simp only [decide_eq_true_eq] at *; exact ne_top_of_le_ne_top hy h

theorem fin_other (xyz : List (Pt K)) (index : Nat) (q : Pt K) :
    ∀ e ∈ otherPoints xyz index q, fin e = true := by
  intro e he
  obtain ⟨j, pt, -, -, rfl⟩ := (mem_otherPoints _ _ _ _).mp he
  simp [fin]

theorem filter_fin_spec {xyz : List (Pt K)} {index : Nat} {q : Pt K} {k : Nat}
    {res rest : List (Int × WithTop K)}
    (hp : (res ++ rest).Perm (otherPoints xyz index q ++ List.replicate k (0, ⊤))) :
    (res.filter fin ++ rest.filter fin).Perm (otherPoints xyz index q) := by
  have := hp.filter fin
  rw [List.filter_append, List.filter_append, List.filter_eq_self.mpr (fin_other xyz index q)] at this
  have e : (List.replicate k ((0 : Int), (⊤ : WithTop K))).filter fin = [] := by
    rw [List.filter_eq_nil_iff]
    intro e he; rw [List.eq_of_mem_replicate he]; simp [fin]
  rwa [e, List.append_nil] at this

/-- C11: if `k ≤ n - 1`, the `k` entries are pairwise distinct positions in `[0, n)`, none of
them the query point. -/
theorem C11_distinct (nb : Nat) (gr : Int) (xyz : List (Pt K)) (out : Sorted K) (hgr : 1 ≤ gr)
    (hnb : gr * gr * gr ≤ 256 ^ nb) (hbox : ∀ p ∈ xyz, InBox p)
    (hs : xyzSort nb gr xyz = .ok out) (index : Nat) (hi : index < xyz.length)
    (k : Nat) (hk : 1 ≤ k) (hkn : k ≤ xyz.length - 1) :
    ∃ res, knnCompute out.xyz out.id out.offset index k gr
        (List.replicate k ((0 : Int), (⊤ : WithTop K))) = .ok res ∧ res.length = k ∧
      (res.map (·.1)).Nodup ∧ ∀ e ∈ res, 0 ≤ e.1 ∧ e.1 < xyz.length ∧ e.1 ≠ index ∧ e.2 ≠ ⊤ := by
  have hlen := (C01_sort_permutes nb gr xyz out hs).length_eq
  have hi' : index < out.xyz.length := by omega
  obtain ⟨res, h1, h2, h3, rest, hp, hle⟩ := knn_spec nb gr xyz out hgr hnb hbox hs index _
    (List.getElem?_eq_getElem hi') k hk
  have hfp := filter_fin_spec hp
  have hcount := hfp.length_eq
  rw [List.length_append, otherPoints_length _ _ _ hi'] at hcount
  have hallfin : ∀ e ∈ res, fin e = true := by
    by_contra hcon
    simp only [not_forall] at hcon
    obtain ⟨e, he, hne⟩ := hcon
    have hrest : rest.filter fin = [] := by
      rw [List.filter_eq_nil_iff]
      intro y hy hfy
      exact hne (fin_of_le (hle e he y hy) hfy)
    rw [hrest] at hcount
    have : (res.filter fin).length < res.length := by
      rw [List.length_filter_lt_length_iff_exists]
      exact ⟨e, he, by simpa using hne⟩
    simp only [List.length_nil] at hcount
    omega
  have hsub : ∀ e ∈ res, e ∈ otherPoints out.xyz index (out.xyz[index]) := by
    intro e he
    have : e ∈ res.filter fin ++ rest.filter fin :=
      List.mem_append_left _ (List.mem_filter.mpr ⟨he, hallfin e he⟩)
    exact hfp.mem_iff.mp this
  refine ⟨res, h1, h2, ?_, ?_⟩
  · have hnd := (hfp.map (·.1)).nodup_iff.mpr (otherPoints_nodup _ _ _)
    rw [List.map_append, List.nodup_append, List.filter_eq_self.mpr hallfin] at hnd
    exact hnd.1
  · intro e he
    obtain ⟨j, pt, g1, g2, rfl⟩ := (mem_otherPoints _ _ _ _).mp (hsub e he)
    have := (List.getElem?_eq_some_iff.mp g1).1
    refine ⟨by simp, by simp; omega, by simpa using g2, by simp⟩

/-- C12 (search): if `k > n - 1`, the list is all `n - 1` other points in distance order
followed by padding pairs `(0, ∞)`. -/
theorem C12_padding (nb : Nat) (gr : Int) (xyz : List (Pt K)) (out : Sorted K) (hgr : 1 ≤ gr)
    (hnb : gr * gr * gr ≤ 256 ^ nb) (hbox : ∀ p ∈ xyz, InBox p)
    (hs : xyzSort nb gr xyz = .ok out) (index : Nat) (q : Pt K) (hq : out.xyz[index]? = some q)
    (k : Nat) (hkn : xyz.length - 1 < k) :
    ∃ s, knnCompute out.xyz out.id out.offset index k gr
        (List.replicate k ((0 : Int), (⊤ : WithTop K)))
          = .ok (s ++ List.replicate (k - (xyz.length - 1)) (0, ⊤)) ∧
      s.Perm (otherPoints out.xyz index q) ∧ s.Pairwise (fun a b => a.2 ≤ b.2) := by
  have hlen := (C01_sort_permutes nb gr xyz out hs).length_eq
  have hi' : index < out.xyz.length := (List.getElem?_eq_some_iff.mp hq).1
  obtain ⟨res, h1, h2, h3, rest, hp, hle⟩ := knn_spec nb gr xyz out hgr hnb hbox hs index _
    hq k (by omega)
  have hfp := filter_fin_spec hp
  have hcount := hfp.length_eq
  rw [List.length_append, otherPoints_length _ _ _ hi'] at hcount
  have hrest : rest.filter fin = [] := by
    rw [List.filter_eq_nil_iff]
    intro y hy hfy
    have hall : res.filter fin = res := by
      rw [List.filter_eq_self]
      intro x hx
      exact fin_of_le (hle x hx y hy) hfy
    rw [hall] at hcount; omega
  rw [hrest, List.append_nil] at hfp
  have hsplit : res = res.filter fin ++ res.filter (fun e => !fin e) := by
    clear hfp hp hle hcount h1 h2
    induction res with
    | nil => rfl
    | cons a t ih =>
      rw [List.pairwise_cons] at h3
      have iht := ih h3.2
      by_cases ha : fin a = true
      · rw [List.filter_cons_of_pos ha, List.filter_cons_of_neg (by simpa using ha)]
        simp only [List.cons_append]; rw [← iht]
      · have hnone : t.filter fin = [] := by
          rw [List.filter_eq_nil_iff]
          intro y hy hfy
          exact ha (fin_of_le (h3.1 y hy) hfy)
        rw [hnone, List.nil_append] at iht
        rw [List.filter_cons_of_neg ha, List.filter_cons_of_pos (by simpa using ha), hnone,
          List.nil_append, ← iht]
  have hpad : res.filter (fun e => !fin e)
      = List.replicate (k - (xyz.length - 1)) ((0 : Int), (⊤ : WithTop K)) := by
    rw [List.eq_replicate_iff]
    constructor
    · have := congrArg List.length hsplit
      rw [List.length_append, h2, hfp.length_eq, otherPoints_length _ _ _ hi'] at this
      omega
    · intro b hb
      rw [List.mem_filter] at hb
      have : b ∈ otherPoints out.xyz index q ++ List.replicate k ((0 : Int), (⊤ : WithTop K)) :=
        hp.mem_iff.mp (List.mem_append_left _ hb.1)
      rcases List.mem_append.mp this with h | h
      · have := fin_other _ _ _ b h
        rw [this] at hb; simp at hb
      · exact List.eq_of_mem_replicate h
  refine ⟨res.filter fin, ?_, hfp, h3.filter _⟩
  rw [h1, ← hpad, ← hsplit]

/-- four points used as examples -/
def pts4 : List (Pt ℚ) :=
  [⟨3/4, 1/4, 1/4⟩, ⟨1/4, 1/4, 1/4⟩, ⟨3/5, 1/4, 1/4⟩, ⟨1/4, 3/4, 1/4⟩]

def pts4Sorted : Sorted ℚ :=
  ⟨[⟨1/4, 1/4, 1/4⟩, ⟨3/4, 1/4, 1/4⟩, ⟨3/5, 1/4, 1/4⟩, ⟨1/4, 3/4, 1/4⟩], [0, 1, 1, 2],
    [0, 1, 3, 4, 4, 4, 4, 4, 4]⟩

example : xyzSort 4 2 pts4 = .ok pts4Sorted := by rw [xyzSort_eq]; decide +kernel
example : ∀ p ∈ pts4, InBox p := by
  intro p hp
  simp only [pts4, List.mem_cons, List.not_mem_nil, or_false] at hp
  rcases hp with rfl | rfl | rfl | rfl <;> (unfold InBox; norm_num)
example : knnCompute pts4Sorted.xyz pts4Sorted.id pts4Sorted.offset 0 2 2
    [(0, (none : WithTop ℚ)), (0, none)] = .ok [(2, some (49/400)), (1, some (1/4))] := by
  decide +kernel
example : knnCompute pts4Sorted.xyz pts4Sorted.id pts4Sorted.offset 1 5 2
    (List.replicate 5 (0, (none : WithTop ℚ)))
      = .ok [(2, some (9/400)), (0, some (1/4)), (3, some (1/2)), (0, none), (0, none)] := by
  decide +kernel

end Votess
