import Verif.Model.Knn
import Verif.Proofs.Heap
import Mathlib.Tactic.Ring
import Mathlib.Tactic.Linarith
/-! Lemmas on the neighbour search, for any arithmetic. -/
namespace Votess

variable {F D : Type} [FP F D]

/-- an `(id, distance)` pair of the point `id` -/
def IsCand (xyz : List (Pt F)) (q : Pt F) (e : Int × D) : Prop :=
  ∃ pt, 0 ≤ e.1 ∧ xyz[e.1.toNat]? = some pt ∧ e.2 = FP.toD (getDistance pt q)

/-- `h` is what remains of the initial heap `h0` after the points `ids` were offered, in
this order; with an order on distances the discarded pairs `d` are not smaller than any kept -/
def KInv (xyz : List (Pt F)) (q : Pt F) (k : Nat) (h0 : List (Int × D)) (ids : List Int)
    (h : List (Int × D)) : Prop :=
  h.length = k ∧ ∃ V d, V.map (·.1) = ids ∧ (∀ e ∈ V, IsCand xyz q e) ∧
    (h ++ d).Perm (V ++ h0) ∧
    (WeakOrd (FP.dlt F (D := D)) → HeapEx (FP.dlt F) h0 h0.length 0 none →
      HeapEx (FP.dlt F) h k 0 none ∧ ∀ y ∈ d, ∀ x ∈ h, FP.dlt F y.2 x.2 = false)

theorem KInv.init (xyz : List (Pt F)) (q : Pt F) (h0 : List (Int × D)) :
    KInv xyz q h0.length h0 [] h0 :=
  ⟨rfl, [], [], rfl, by simp, by simp, fun _ hh => ⟨hh, by simp⟩⟩

theorem root_max_mem {lt : D → D → Bool} (w : WeakOrd lt) {h : List (Int × D)}
    (hx : HeapEx lt h h.length 0 none) {r : Int × D} (hr : h[0]? = some r) :
    ∀ x ∈ h, lt r.2 x.2 = false := by
  intro x hxm
  obtain ⟨i, hi, e⟩ := List.getElem_of_mem hxm
  exact heap_root_max w (Nat.le_refl _) hx i hi x r (by rw [List.getElem?_eq_getElem hi, e]) hr

theorem knnPoint_inv (xyz : List (Pt F)) (index : Int) (q : Pt F) (k : Nat) (hk : 1 ≤ k)
    (h0 : List (Int × D)) (ids : List Int) (p : Int) (hp : 0 ≤ p ∧ p < xyz.length)
    (h : List (Int × D)) (hI : KInv xyz q k h0 ids h) :
    ∃ h', knnPoint xyz index q k p h = .ok h' ∧
      KInv xyz q k h0 (ids ++ [p].filter (fun p => decide (p ≠ index))) h' := by
  obtain ⟨hlen, V, d, hV, hc, hperm, hord⟩ := hI
  unfold knnPoint
  by_cases hpi : p = index
  · rw [if_pos hpi]
    refine ⟨h, rfl, hlen, V, d, ?_, hc, hperm, hord⟩
    simp [hpi, hV]
  · rw [if_neg hpi]
    have hpl : p.toNat < xyz.length := by omega
    rw [rdI_eq_ok.mpr ⟨hp.1, List.getElem?_eq_getElem hpl⟩]
    simp only [bind_ok]
    have h0l : 0 < h.length := by omega
    rw [rd_ok h0l]
    simp only [bind_ok]
    have hcand : IsCand xyz q (p, FP.toD (getDistance xyz[p.toNat] q)) :=
      ⟨_, hp.1, List.getElem?_eq_getElem hpl, rfl⟩
    have hV' : (V ++ [(p, FP.toD (getDistance xyz[p.toNat] q))]).map (·.1)
        = ids ++ [p].filter (fun p => decide (p ≠ index)) := by
      simp [hV, hpi]
    have hc' : ∀ e ∈ V ++ [(p, FP.toD (getDistance xyz[p.toNat] q))], IsCand xyz q e := by
      intro e he
      rcases List.mem_append.mp he with he | he
      · exact hc e he
      · rw [List.mem_singleton.mp he]; exact hcand
    generalize hdist : FP.toD (getDistance xyz[p.toNat] q) = dist at *
    obtain ⟨r, t, hrt⟩ : ∃ r t, h = r :: t := by
      cases h with
      | nil => simp at h0l
      | cons r t => exact ⟨r, t, rfl⟩
    subst hrt
    simp only [List.getElem_cons_zero]
    by_cases hlt : FP.dlt F dist r.2 = true
    · rw [if_pos hlt, wr_ok (by simp)]
      simp only [bind_ok, List.set_cons_zero]
      obtain ⟨h', e1, s1, o1⟩ := maxheapify_spec (FP.dlt F) ((p, dist) :: t) k 0
        (by simp at hlen ⊢; omega)
      refine ⟨h', e1, by rw [s1.len]; simpa using hlen, _, r :: d, hV', hc', ?_, ?_⟩
      · -- h' ++ r :: d ~ V ++ e :: h0
        have hp1 : (r :: t ++ d).Perm (V ++ h0) := hperm
        have a1 : (h' ++ r :: d).Perm ((p, dist) :: t ++ r :: d) := s1.perm.append_right _
        have a2 : ((p, dist) :: t ++ r :: d).Perm ((p, dist) :: (r :: t ++ d)) := by
          simp only [List.cons_append]
          exact List.Perm.cons _ List.perm_middle
        have a3 : ((p, dist) :: (r :: t ++ d)).Perm ((p, dist) :: (V ++ h0)) := hp1.cons _
        have a4 : ((p, dist) :: (V ++ h0)).Perm (V ++ [(p, dist)] ++ h0) := by
          rw [List.append_assoc]; exact List.perm_middle.symm
        exact ((a1.trans a2).trans a3).trans a4
      · intro w hh
        obtain ⟨hx, hd⟩ := hord w hh
        have hroot := root_max_mem w (h := r :: t) (by rw [hlen]; exact hx) (r := r) rfl
        refine ⟨o1 w ?_, ?_⟩
        · intro p' c hp' hc' hpc _ x y hx' hy'
          have e1 : ∀ m, 0 < m → ((p, dist) :: t)[m]? = (r :: t)[m]? := by
            intro m hm; cases m with
            | zero => omega
            | succ m => rfl
          rw [e1 _ (by omega)] at hx' hy'
          exact hx p' c (by omega) hc' hpc (by simp) x y hx' hy'
        · intro y hy x hxm
          have hxm' := s1.perm.mem_iff.mp hxm
          have hxr : FP.dlt F r.2 x.2 = false := by
            rcases List.mem_cons.mp hxm' with rfl | hxt
            · exact w.asymm _ _ hlt
            · exact hroot x (List.mem_cons_of_mem _ hxt)
          rcases List.mem_cons.mp hy with rfl | hyd
          · exact hxr
          · exact w.trans _ _ _ hxr (hd y hyd r (by simp))
    · rw [if_neg hlt]
      refine ⟨_, rfl, hlen, _, (p, dist) :: d, hV', hc', ?_, ?_⟩
      · have a1 : (r :: t ++ (p, dist) :: d).Perm ((p, dist) :: (r :: t ++ d)) := List.perm_middle
        have a4 : ((p, dist) :: (V ++ h0)).Perm (V ++ [(p, dist)] ++ h0) := by
          rw [List.append_assoc]; exact List.perm_middle.symm
        exact (a1.trans (hperm.cons _)).trans a4
      · intro w hh
        obtain ⟨hx, hd⟩ := hord w hh
        have hroot := root_max_mem w (h := r :: t) (by rw [hlen]; exact hx) (r := r) rfl
        refine ⟨hx, ?_⟩
        intro y hy x hxm
        rcases List.mem_cons.mp hy with rfl | hyd
        · exact w.trans _ _ _ (hroot x hxm) (by simpa using hlt)
        · exact hd y hyd x hxm

/-- a fold whose steps offer known lists of points -/
theorem foldlM_KInv {β : Type} (xyz : List (Pt F)) (q : Pt F) (k : Nat)
    (h0 : List (Int × D)) (l : List β) (f : List (Int × D) → β → M (List (Int × D)))
    (g : β → List Int)
    (hstep : ∀ b ∈ l, ∀ ids h, KInv xyz q k h0 ids h →
      ∃ h', f h b = .ok h' ∧ KInv xyz q k h0 (ids ++ g b) h')
    (ids : List Int) (h : List (Int × D)) (hI : KInv xyz q k h0 ids h) :
    ∃ h', l.foldlM f h = .ok h' ∧ KInv xyz q k h0 (ids ++ l.flatMap g) h' := by
  induction l generalizing ids h with
  | nil => exact ⟨h, rfl, by simpa using hI⟩
  | cons b l ih =>
    obtain ⟨h1, e1, i1⟩ := hstep b (by simp) ids h hI
    obtain ⟨h2, e2, i2⟩ := ih (fun b hb => hstep b (List.mem_cons_of_mem _ hb)) _ _ i1
    exact ⟨h2, by simp [List.foldlM_cons, e1, e2], by simpa [List.append_assoc] using i2⟩

/-- grid tables describing `n` points: what `xyzset::sort` establishes (C02, C03) -/
structure GridOK (gr : Int) (n : Nat) (id offset : List Int) : Prop where
  gr_pos : 1 ≤ gr
  id_len : id.length = n
  off_len : offset.length = (gr * gr * gr).toNat + 1
  id_range : ∀ c ∈ id, 0 ≤ c ∧ c < gr * gr * gr
  cell : ∀ c : Nat, (c : Int) < gr * gr * gr → ∃ lo hi : Int, offset[c]? = some lo ∧
    offset[c + 1]? = some hi ∧ 0 ≤ lo ∧ hi ≤ n ∧
    ∀ i : Nat, i < n → (id[i]? = some (c : Int) ↔ lo ≤ i ∧ (i : Int) < hi)

/-- points of a cell without the query point, as addressed by the offset table -/
def cellPts (offset : List Int) (index : Int) (cid : Int) : List Int :=
  (irange (offset.getD cid.toNat 0) (offset.getD (cid + 1).toNat 0)).filter
    (fun p => decide (p ≠ index))

theorem flatMap_filter_singleton (l : List Int) (P : Int → Bool) :
    l.flatMap (fun p => [p].filter P) = l.filter P := by
  induction l with
  | nil => rfl
  | cons a l ih =>
    rw [List.flatMap_cons, ih, List.filter_cons, List.filter_cons]
    split <;> simp

theorem knnCell_inv {gr : Int} {id offset : List Int} (xyz : List (Pt F)) (index : Int) (q : Pt F)
    (k : Nat) (hk : 1 ≤ k) (hg : GridOK gr xyz.length id offset) (h0 : List (Int × D))
    (cid : Int) (hcid : 0 ≤ cid ∧ cid < gr * gr * gr) (ids : List Int)
    (h : List (Int × D)) (hI : KInv xyz q k h0 ids h) :
    ∃ h', knnCell xyz offset index q k cid h = .ok h' ∧
      KInv xyz q k h0 (ids ++ cellPts offset index cid) h' := by
  obtain ⟨c, rfl⟩ : ∃ c : Nat, cid = c := ⟨cid.toNat, by omega⟩
  obtain ⟨lo, hi, h1, h2, h3, h4, -⟩ := hg.cell c hcid.2
  unfold knnCell
  rw [rdI_natCast, rd_eq_ok.mpr h1]
  simp only [bind_ok]
  rw [show (c : Int) + 1 = ((c + 1 : Nat) : Int) by push_cast; rfl, rdI_natCast, rd_eq_ok.mpr h2]
  simp only [bind_ok]
  unfold forI
  obtain ⟨h', e, i⟩ := foldlM_KInv xyz q k h0 (irange lo hi)
    (fun s i => knnPoint xyz index q k i s) (fun p => [p].filter (fun p => decide (p ≠ index)))
    (by
      intro b hb ids h hI
      rw [mem_irange] at hb
      exact knnPoint_inv xyz index q k hk h0 ids b ⟨by omega, by omega⟩ h hI)
    ids h hI
  refine ⟨h', e, ?_⟩
  rw [flatMap_filter_singleton] at i
  unfold cellPts
  rw [Int.toNat_natCast, show ((c : Int) + 1).toNat = c + 1 by omega]
  rw [List.getD_eq_getElem?_getD, List.getD_eq_getElem?_getD, h1, h2]
  exact i

/-- cell number of grid coordinates -/
def cellOf (gr : Int) (c : Int × Int × Int) : Int := gr * gr * c.2.2 + gr * c.2.1 + c.1

/-- grid coordinates inside the grid -/
def InGrid (gr : Int) (c : Int × Int × Int) : Prop :=
  (0 ≤ c.1 ∧ c.1 < gr) ∧ (0 ≤ c.2.1 ∧ c.2.1 < gr) ∧ (0 ≤ c.2.2 ∧ c.2.2 < gr)

theorem cellOf_range {gr : Int} {c : Int × Int × Int} (h : InGrid gr c) :
    0 ≤ cellOf gr c ∧ cellOf gr c < gr * gr * gr := by
  obtain ⟨⟨x0, x1⟩, ⟨y0, y1⟩, ⟨z0, z1⟩⟩ := h
  have hg : 0 ≤ gr := by omega
  unfold cellOf
  have a1 : 0 ≤ gr * c.2.1 := mul_nonneg hg y0
  have a2 : 0 ≤ gr * gr * c.2.2 := mul_nonneg (mul_nonneg hg hg) z0
  have b1 : gr * (c.2.1 + 1) ≤ gr * gr := mul_le_mul_of_nonneg_left (by omega) hg
  have b2 : gr * gr * (c.2.2 + 1) ≤ gr * gr * gr := mul_le_mul_of_nonneg_left (by omega) (mul_nonneg hg hg)
  constructor
  · omega
  · nlinarith

/-- grid coordinates of a cell number -/
def coords (gr c : Int) : Int × Int × Int := (c % gr, c / gr % gr, c / (gr * gr))

theorem coords_inGrid {gr c : Int} (hgr : 1 ≤ gr) (h : 0 ≤ c ∧ c < gr * gr * gr) :
    InGrid gr (coords gr c) := by
  unfold InGrid coords
  refine ⟨⟨Int.emod_nonneg _ (by omega), Int.emod_lt_of_pos _ (by omega)⟩,
    ⟨Int.emod_nonneg _ (by omega), Int.emod_lt_of_pos _ (by omega)⟩,
    ⟨Int.ediv_nonneg h.1 (by positivity), ?_⟩⟩
  apply Int.ediv_lt_of_lt_mul (by positivity)
  linarith [h.2, mul_assoc gr gr gr]

theorem cellOf_coords {gr c : Int} (hgr : 1 ≤ gr) : cellOf gr (coords gr c) = c := by
  unfold cellOf coords
  simp only
  rw [← Int.ediv_ediv_of_nonneg (by omega : (0 : Int) ≤ gr)]
  have h1 := Int.emod_add_mul_ediv c gr
  have h2 := Int.emod_add_mul_ediv (c / gr) gr
  calc gr * gr * (c / gr / gr) + gr * (c / gr % gr) + c % gr
      = c % gr + gr * (c / gr % gr + gr * (c / gr / gr)) := by ring
    _ = c % gr + gr * (c / gr) := by rw [h2]
    _ = c := h1

theorem coords_cellOf {gr : Int} {c : Int × Int × Int} (h : InGrid gr c) :
    coords gr (cellOf gr c) = c := by
  obtain ⟨⟨x0, x1⟩, ⟨y0, y1⟩, ⟨z0, z1⟩⟩ := h
  obtain ⟨x, y, z⟩ := c
  simp only at *
  have hg : 0 < gr := by omega
  unfold coords cellOf
  simp only
  have e1 : gr * gr * z + gr * y + x = x + gr * (y + gr * z) := by ring
  have d1 : (x + gr * (y + gr * z)) / gr = y + gr * z := by
    rw [Int.add_mul_ediv_left _ _ (by omega), Int.ediv_eq_zero_of_lt x0 x1, zero_add]
  have d2 : (y + gr * z) / gr = z := by
    rw [Int.add_mul_ediv_left _ _ (by omega), Int.ediv_eq_zero_of_lt y0 y1, zero_add]
  rw [e1, ← Int.ediv_ediv_of_nonneg hg.le, d1, d2, Int.add_mul_emod_self_left,
    Int.add_mul_emod_self_left, Int.emod_eq_of_lt x0 x1, Int.emod_eq_of_lt y0 y1]

/-- Chebyshev distance of two cells -/
def cheb (c p : Int × Int × Int) : Int :=
  max |c.1 - p.1| (max |c.2.1 - p.2.1| |c.2.2 - p.2.2|)

theorem mem_shellCells {gr : Int} {p c : Int × Int × Int} {r : Int} (hr : 0 ≤ r) :
    c ∈ shellCells gr p.1 p.2.1 p.2.2 r ↔ InGrid gr c ∧ cheb c p = r := by
  obtain ⟨x, y, z⟩ := c
  obtain ⟨px, py, pz⟩ := p
  unfold shellCells
  simp only [List.mem_flatMap, List.mem_map, List.mem_filter, mem_irange, Prod.mk.injEq, InGrid,
    cheb, isInshell, Bool.not_eq_true', Bool.and_eq_false_iff, decide_eq_false_iff_not]
  constructor
  · rintro ⟨z', hz, y', hy, x', ⟨hx, hn⟩, rfl, rfl, rfl⟩
    refine ⟨⟨by omega, by omega, by omega⟩, ?_⟩
    have h1 : |x' - px| ≤ r := abs_le.mpr (by omega)
    have h2 : |y' - py| ≤ r := abs_le.mpr (by omega)
    have h3 : |z' - pz| ≤ r := abs_le.mpr (by omega)
    apply le_antisymm (by omega)
    rcases hn with (hn | hn) | hn
    · refine le_trans ?_ (le_max_left _ _)
      rw [le_abs]; omega
    · refine le_trans ?_ ((le_max_left _ _).trans (le_max_right _ _))
      rw [le_abs]; omega
    · refine le_trans ?_ ((le_max_right _ _).trans (le_max_right _ _))
      rw [le_abs]; omega
  · rintro ⟨⟨hx, hy, hz⟩, hc⟩
    have h1 : |x - px| ≤ r := by omega
    have h2 : |y - py| ≤ r := by omega
    have h3 : |z - pz| ≤ r := by omega
    have h1' := abs_le.mp h1
    have h2' := abs_le.mp h2
    have h3' := abs_le.mp h3
    refine ⟨z, by omega, y, by omega, x, ⟨by omega, ?_⟩, rfl, rfl, rfl⟩
    by_contra hcon
    simp only [not_or, not_not] at hcon
    have g1 : |x - px| < r := abs_lt.mpr (by omega)
    have g2 : |y - py| < r := abs_lt.mpr (by omega)
    have g3 : |z - pz| < r := abs_lt.mpr (by omega)
    omega

theorem nodup_flatMap {α β : Type} {l : List α} {f : α → List β} (hl : l.Nodup)
    (h1 : ∀ a ∈ l, (f a).Nodup) (h2 : ∀ a ∈ l, ∀ b ∈ l, a ≠ b → ∀ x ∈ f a, x ∉ f b) :
    (l.flatMap f).Nodup := by
  unfold List.Nodup
  rw [List.pairwise_flatMap]
  refine ⟨h1, ?_⟩
  refine List.Pairwise.imp_of_mem ?_ hl
  intro a b ha hb hab x hx y hy hxy
  subst hxy
  exact h2 a ha b hb hab x hx hy

theorem shellCells_nodup (gr px py pz r : Int) : (shellCells gr px py pz r).Nodup := by
  unfold shellCells
  simp only
  apply nodup_flatMap (irange_nodup _ _)
  · intro z _
    apply nodup_flatMap (irange_nodup _ _)
    · intro y _
      refine List.Pairwise.map _ ?_ ((irange_nodup _ _).filter _)
      intro a b hab h; exact hab (by simpa using h)
    · intro a _ b _ hab x hx hx'
      simp only [List.mem_map] at hx hx'
      obtain ⟨u, _, rfl⟩ := hx
      obtain ⟨v, _, h⟩ := hx'
      simp at h; exact hab h.2.symm
  · intro a _ b _ hab x hx hx'
    simp only [List.mem_flatMap, List.mem_map] at hx hx'
    obtain ⟨_, _, u, _, rfl⟩ := hx
    obtain ⟨_, _, v, _, h⟩ := hx'
    simp at h; exact hab h.2.2.symm

/-- positions visited in the shell of radius `r` -/
def shellPts (gr : Int) (offset : List Int) (index : Int) (p : Int × Int × Int) (r : Nat) : List Int :=
  (shellCells gr p.1 p.2.1 p.2.2 r).flatMap fun c => cellPts offset index (cellOf gr c)

/-- positions visited in the first `m` shells -/
def visited (gr : Int) (offset : List Int) (index : Int) (p : Int × Int × Int) (m : Nat) : List Int :=
  (List.range m).flatMap (shellPts gr offset index p)

theorem mem_cellPts {gr : Int} {n : Nat} {id offset : List Int} (hg : GridOK gr n id offset)
    (index : Int) {cid : Int} (hcid : 0 ≤ cid ∧ cid < gr * gr * gr) (j : Int) :
    j ∈ cellPts offset index cid ↔
      j ≠ index ∧ 0 ≤ j ∧ j < n ∧ id[j.toNat]? = some cid := by
  obtain ⟨c, rfl⟩ : ∃ c : Nat, cid = c := ⟨cid.toNat, by omega⟩
  obtain ⟨lo, hi, h1, h2, h3, h4, h5⟩ := hg.cell c hcid.2
  unfold cellPts
  rw [Int.toNat_natCast, show ((c : Int) + 1).toNat = c + 1 by omega,
    List.getD_eq_getElem?_getD, List.getD_eq_getElem?_getD, h1, h2]
  simp only [Option.getD_some, List.mem_filter, mem_irange, decide_eq_true_eq]
  constructor
  · rintro ⟨⟨a, b⟩, c⟩
    refine ⟨c, by omega, by omega, ?_⟩
    rw [h5 j.toNat (by omega)]; omega
  · rintro ⟨a, b, c, d⟩
    rw [h5 j.toNat (by omega)] at d
    exact ⟨by omega, a⟩

theorem mem_visited {gr : Int} {n : Nat} {id offset : List Int} (hg : GridOK gr n id offset)
    (index : Int) (p : Int × Int × Int) (m : Nat) (j : Int) :
    j ∈ visited gr offset index p m ↔
      j ≠ index ∧ ∃ c, 0 ≤ j ∧ id[j.toNat]? = some c ∧ cheb (coords gr c) p < m := by
  unfold visited shellPts
  simp only [List.mem_flatMap, List.mem_range]
  constructor
  · rintro ⟨r, hr, c, hc, hj⟩
    rw [mem_shellCells (by omega)] at hc
    rw [mem_cellPts hg index (cellOf_range hc.1)] at hj
    refine ⟨hj.1, _, hj.2.1, hj.2.2.2, ?_⟩
    rw [coords_cellOf hc.1, hc.2]; omega
  · rintro ⟨hj, c, h0, hid, hch⟩
    have hc := hg.id_range c (List.mem_of_getElem? hid)
    have hin := coords_inGrid hg.gr_pos hc
    have hnn : 0 ≤ cheb (coords gr c) p := le_trans (abs_nonneg _) (le_max_left _ _)
    refine ⟨(cheb (coords gr c) p).toNat, by omega, coords gr c, ?_, ?_⟩
    · rw [mem_shellCells (by omega)]; exact ⟨hin, by omega⟩
    · rw [mem_cellPts hg index (by rw [cellOf_coords hg.gr_pos]; exact hc), cellOf_coords hg.gr_pos]
      refine ⟨hj, h0, ?_, hid⟩
      have := (List.getElem?_eq_some_iff.mp hid).1
      have := hg.id_len; omega

theorem visited_nodup {gr : Int} {n : Nat} {id offset : List Int} (hg : GridOK gr n id offset)
    (index : Int) (p : Int × Int × Int) (m : Nat) : (visited gr offset index p m).Nodup := by
  unfold visited shellPts
  apply nodup_flatMap List.nodup_range
  · intro r _
    apply nodup_flatMap (shellCells_nodup _ _ _ _ _)
    · intro c _
      exact (irange_nodup _ _).filter _
    · intro a ha b hb hab x hx hx'
      rw [mem_shellCells (by omega)] at ha hb
      rw [mem_cellPts hg index (cellOf_range ha.1)] at hx
      rw [mem_cellPts hg index (cellOf_range hb.1), hx.2.2.2] at hx'
      have : cellOf gr a = cellOf gr b := by simpa using hx'.2.2.2
      apply hab
      rw [← coords_cellOf ha.1, this, coords_cellOf hb.1]
  · intro r _ s _ hrs x hx hx'
    simp only [List.mem_flatMap] at hx hx'
    obtain ⟨a, ha, hx⟩ := hx
    obtain ⟨b, hb, hx'⟩ := hx'
    rw [mem_shellCells (by omega)] at ha hb
    rw [mem_cellPts hg index (cellOf_range ha.1)] at hx
    rw [mem_cellPts hg index (cellOf_range hb.1), hx.2.2.2] at hx'
    have : cellOf gr a = cellOf gr b := by simpa using hx'.2.2.2
    have hab : a = b := by rw [← coords_cellOf ha.1, this, coords_cellOf hb.1]
    subst hab
    apply hrs
    have := ha.2.symm.trans hb.2
    exact_mod_cast this

theorem knnShell_inv {gr : Int} {id offset : List Int} (xyz : List (Pt F)) (index : Int) (q : Pt F)
    (k : Nat) (hk : 1 ≤ k) (hg : GridOK gr xyz.length id offset) (h0 : List (Int × D))
    (p : Int × Int × Int) (r : Nat) (ids : List Int)
    (h : List (Int × D)) (hI : KInv xyz q k h0 ids h) :
    ∃ h', knnShell xyz offset index q k gr p.1 p.2.1 p.2.2 r h = .ok h' ∧
      KInv xyz q k h0 (ids ++ shellPts gr offset index p r) h' := by
  unfold knnShell shellPts
  apply foldlM_KInv xyz q k h0 _ _ _ ?_ ids h hI
  intro c hc ids h hI
  rw [mem_shellCells (by omega)] at hc
  exact knnCell_inv xyz index q k hk hg h0 (cellOf gr c) (cellOf_range hc.1) ids h hI

/-- the loop over shells: `m` shells were searched, and either all or the exit test held -/
theorem knnLoop_inv {gr : Int} {id offset : List Int} (xyz : List (Pt F)) (index : Int) (q : Pt F)
    (k : Nat) (hk : 1 ≤ k) (hg : GridOK gr xyz.length id offset) (h0 : List (Int × D))
    (p : Int × Int × Int) (gl mn : F) (n : Nat) (hn : (n : Int) ≤ gr)
    (h : List (Int × D)) (hI : KInv xyz q k h0 (visited gr offset index p (gr.toNat - n)) h) :
    ∃ h' m, knnLoop xyz offset index q k gr p.1 p.2.1 p.2.2 gl mn n h = .ok h' ∧
      KInv xyz q k h0 (visited gr offset index p m) h' ∧ m ≤ gr.toNat ∧
      (m = gr.toNat ∨ ∃ (r : Nat) (top : Int × D), m = r + 1 ∧ h'[0]? = some top ∧
        FP.dlt F top.2 (FP.toD (square (FP.add (FP.mul gl (FP.ofInt (r : Int))) mn))) = true) := by
  induction n generalizing h with
  | zero => exact ⟨h, gr.toNat, rfl, by simpa using hI, Nat.le_refl _, Or.inl rfl⟩
  | succ n ih =>
    simp only [knnLoop]
    obtain ⟨r, hr⟩ : ∃ r : Nat, gr - ((n : Int) + 1) = r := ⟨(gr - (n + 1)).toNat, by omega⟩
    rw [hr]
    have hr' : gr.toNat - (n + 1) = r := by omega
    rw [hr'] at hI
    obtain ⟨h1, e1, i1⟩ := knnShell_inv xyz index q k hk hg h0 p r _ h hI
    have hv : visited gr offset index p r ++ shellPts gr offset index p r
        = visited gr offset index p (r + 1) := by
      simp [visited, List.range_succ]
    rw [hv] at i1
    rw [e1]; simp only [bind_ok]
    have hl : 0 < h1.length := by rw [i1.1]; omega
    rw [rd_ok hl]; simp only [bind_ok]
    by_cases hx : FP.dlt F h1[0].2 (FP.toD (square (FP.add (FP.mul gl (FP.ofInt (r : Int))) mn))) = true
    · rw [if_pos hx]
      exact ⟨h1, r + 1, rfl, i1, by omega, Or.inr ⟨r, h1[0], rfl, List.getElem?_eq_getElem hl, hx⟩⟩
    · rw [if_neg hx]
      exact ih (by omega) h1 (by rw [show gr.toNat - n = r + 1 by omega]; exact i1)

theorem coords_tdiv {gr c : Int} (hgr : 1 ≤ gr) (hc : 0 ≤ c) :
    (c.tmod gr, (c.tdiv gr).tmod gr, c.tdiv (gr * gr)) = coords gr c := by
  unfold coords
  rw [Int.tmod_eq_emod_of_nonneg hc, Int.tdiv_eq_ediv_of_nonneg hc, Int.tdiv_eq_ediv_of_nonneg hc,
    Int.tmod_eq_emod_of_nonneg (Int.ediv_nonneg hc (by omega))]

/-- The search is safe and terminates for any arithmetic; it returns the pairs kept from
those of the cells searched (sorted if distances are ordered). -/
theorem knnCompute_inv {gr : Int} {id offset : List Int} (xyz : List (Pt F)) (index : Nat)
    (k : Nat) (hk : 1 ≤ k) (hg : GridOK gr xyz.length id offset) (h0 : List (Int × D))
    (hh0 : h0.length = k) (hi : index < xyz.length) :
    ∃ (res h : List (Int × D)) (q : Pt F) (c : Int) (m : Nat), knnCompute xyz id offset index k gr h0 = .ok res ∧ res.Perm h ∧
      xyz[index]? = some q ∧ id[index]? = some c ∧
      (WeakOrd (FP.dlt F (D := D)) → res.Pairwise fun a b => FP.dlt F b.2 a.2 = false) ∧
      KInv xyz q k h0 (visited gr offset index (coords gr c) m) h ∧ m ≤ gr.toNat ∧
      (m = gr.toNat ∨ ∃ (r : Nat) (top : Int × D), m = r + 1 ∧ h[0]? = some top ∧
        FP.dlt F top.2 (FP.toD (square (FP.add (FP.mul (FP.recip gr) (FP.ofInt (r : Int)))
          (min3 (wallDist (FP.recip gr) q.x) (wallDist (FP.recip gr) q.y)
            (wallDist (FP.recip gr) q.z))))) = true) := by
  have hq := List.getElem?_eq_getElem hi
  have hil : index < id.length := by rw [hg.id_len]; exact hi
  have hc := List.getElem?_eq_getElem hil
  have hcr := hg.id_range _ (List.getElem_mem hil)
  have hgr := hg.gr_pos
  unfold knnCompute
  rw [rdI_natCast, rd_ok hi, rdI_natCast, rd_ok hil]
  simp only [bind_ok]
  rw [if_neg (by omega)]
  have hco := coords_tdiv hgr hcr.1
  have ex : (id[index]).tmod gr = (coords gr id[index]).1 := congrArg (·.1) hco
  have ey : ((id[index]).tdiv gr).tmod gr = (coords gr id[index]).2.1 := congrArg (·.2.1) hco
  have ez : (id[index]).tdiv (gr * gr) = (coords gr id[index]).2.2 := congrArg (·.2.2) hco
  rw [ex, ey, ez]
  obtain ⟨h, m, e1, i1, hm, hx⟩ := knnLoop_inv xyz index xyz[index] k hk hg h0 (coords gr id[index])
    (FP.recip gr) (min3 (wallDist (FP.recip gr) xyz[index].x) (wallDist (FP.recip gr) xyz[index].y)
            (wallDist (FP.recip gr) xyz[index].z)) gr.toNat (by omega) h0
    (by simp [visited]; rw [← hh0]; exact KInv.init _ _ _)
  rw [e1]; simp only [bind_ok]
  obtain ⟨res, e2, -, p2, o2⟩ := heapSort_spec (FP.dlt F) h
  rw [i1.1] at e2
  refine ⟨res, h, _, _, m, e2, p2, hq, hc, ?_, i1, hm, hx⟩
  intro w
  rw [List.pairwise_iff_getElem]
  intro i j hi hj hij
  exact o2 w i j hij _ _ (List.getElem?_eq_getElem hi) (List.getElem?_eq_getElem hj)

end Votess
