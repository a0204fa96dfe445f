import Verif.Proofs.XyzSet
import Verif.Proofs.Exact
import Verif.Model.Driver
import Mathlib.Algebra.Order.Ring.Rat
import Mathlib.Data.Rat.Floor
/-!
# C01–C05 — grid sort

`F` is any arithmetic (no laws), unless stated otherwise.
-/
set_option linter.unusedSectionVars false
namespace Votess

variable {F D : Type} [FP F D] [Inhabited F]

theorem xyzSort_eq_ok {nb : Nat} {gr : Int} {xyz : List (Pt F)} {out : Sorted F}
    (h : xyzSort nb gr xyz = .ok out) :
    ∃ ids, cellIds gr xyz = .ok ids ∧ out.xyz = (buckets nb 0 (ids.zip xyz)).map (·.2) ∧
      out.id = (buckets nb 0 (ids.zip xyz)).map (·.1) ∧ offsetTable gr out.id = .ok out.offset := by
  unfold xyzSort at h
  obtain ⟨ids, h1, h2⟩ := bind_eq_ok.mp h
  have hl := mapM_ok_length h1
  simp only at h2
  rw [radixPasses_eq _ _ _ _ (by simp [hl])] at h2
  simp only [bind_ok] at h2
  obtain ⟨off, h3, h4⟩ := bind_eq_ok.mp h2
  cases h4
  exact ⟨ids, h1, rfl, rfl, h3⟩

/-- the sort with every pass replaced by its specification -/
theorem xyzSort_eq (nb : Nat) (gr : Int) (xyz : List (Pt F)) :
    xyzSort nb gr xyz = (do
      let ids ← cellIds gr xyz
      let off ← offsetTable gr ((buckets nb 0 (ids.zip xyz)).map (·.1))
      pure { xyz := (buckets nb 0 (ids.zip xyz)).map (·.2),
             id := (buckets nb 0 (ids.zip xyz)).map (·.1), offset := off }) := by
  unfold xyzSort
  cases h : cellIds gr xyz with
  | error e => rfl
  | ok ids =>
    have hl := mapM_ok_length h
    simp only [bind_ok]
    rw [radixPasses_eq _ _ _ _ (by simp [hl])]
    rfl

/-- C01: the points are only permuted, whatever the arithmetic and whatever the ids. -/
theorem C01_sort_permutes (nb : Nat) (gr : Int) (xyz : List (Pt F)) (out : Sorted F)
    (h : xyzSort nb gr xyz = .ok out) : out.xyz.Perm xyz := by
  obtain ⟨ids, h1, h2, -, -⟩ := xyzSort_eq_ok h
  rw [h2]
  have := (buckets_perm nb 0 (ids.zip xyz)).map (·.2)
  rwa [(mapM_ok_zip h1).1] at this

/-- C02: every id belongs to the point at the same position. -/
theorem C02_ids_right (nb : Nat) (gr : Int) (xyz : List (Pt F)) (out : Sorted F)
    (h : xyzSort nb gr xyz = .ok out) :
    out.id.length = out.xyz.length ∧
      ∀ (i : Nat) p, out.xyz[i]? = some p → ∃ c, out.id[i]? = some c ∧ cellId gr p = .ok c := by
  obtain ⟨ids, h1, h2, h3, -⟩ := xyzSort_eq_ok h
  refine ⟨by simp [h2, h3], ?_⟩
  intro i p hp
  rw [h2, List.getElem?_map] at hp
  rw [h3, List.getElem?_map]
  cases hb : (buckets nb 0 (ids.zip xyz))[i]? with
  | none => rw [hb] at hp; simp at hp
  | some e =>
    rw [hb] at hp; simp at hp; subst hp
    refine ⟨e.1, by simp, ?_⟩
    exact (mapM_ok_zip h1).2.2 e ((buckets_perm _ _ _).mem_iff.mp (List.mem_of_getElem? hb))

theorem ids_of_forall {gr : Int} {xyz : List (Pt F)} {ids : List Int} {P : Int → Prop}
    (h1 : cellIds gr xyz = .ok ids) (h : ∀ p ∈ xyz, ∀ c, cellId gr p = .ok c → P c) :
    ∀ e ∈ ids.zip xyz, P e.1 := by
  intro e he
  have := (mapM_ok_zip h1).2.2 e he
  exact h e.2 (List.of_mem_zip he).2 e.1 this

theorem validateId_iff (l : List Int) : validateId l = true ↔ l.Pairwise (· ≤ ·) := by
  induction l with
  | nil => simp [validateId]
  | cons a l ih =>
    cases l with
    | nil => simp [validateId]
    | cons b l =>
      simp only [validateId]
      split
      · rename_i h
        simp only [Bool.false_eq_true, false_iff, List.pairwise_cons]
        intro ⟨h1, _⟩; have := h1 b (by simp); omega
      · rename_i h
        rw [ih, List.pairwise_cons (a := a)]
        constructor
        · intro h2
          refine ⟨?_, h2⟩
          intro x hx
          rcases List.mem_cons.mp hx with rfl | hx
          · omega
          · have := (List.pairwise_cons.mp h2).1 x hx; omega
        · intro h2; exact h2.2

/-- C02: ids are ascending after sorting (and the validation of the ids accepts them).
`256 ^ nb` is the number of values of the `nb`-byte integer type, so the upper bound holds
for every id that fits the type. -/
theorem C02_ascending (nb : Nat) (gr : Int) (xyz : List (Pt F)) (out : Sorted F)
    (h : xyzSort nb gr xyz = .ok out)
    (hid : ∀ p ∈ xyz, ∀ c, cellId gr p = .ok c → 0 ≤ c ∧ c < 256 ^ nb) :
    out.id.Pairwise (· ≤ ·) ∧ validateId out.id = true := by
  obtain ⟨ids, h1, h2, h3, -⟩ := xyzSort_eq_ok h
  have : out.id.Pairwise (· ≤ ·) := by
    rw [h3, List.pairwise_map]
    exact radix_sorted nb _ (ids_of_forall h1 hid)
  exact ⟨this, (validateId_iff _).mpr this⟩

/-- C03: the offset table addresses exactly the points of each cell. -/
theorem C03_offset_table (nb : Nat) (gr : Int) (xyz : List (Pt F)) (out : Sorted F)
    (hgr : 1 ≤ gr) (h : xyzSort nb gr xyz = .ok out)
    (hid : ∀ p ∈ xyz, ∀ c, cellId gr p = .ok c → 0 ≤ c ∧ c < gr * gr * gr ∧ c < 256 ^ nb) :
    out.offset.length = (gr * gr * gr).toNat + 1 ∧
    out.offset[0]? = some 0 ∧ out.offset[(gr * gr * gr).toNat]? = some (xyz.length : Int) ∧
    out.offset.Pairwise (· ≤ ·) ∧
    ∀ (c i : Nat) (p : Pt F) (lo hi : Int), out.offset[c]? = some lo →
      out.offset[c + 1]? = some hi → out.xyz[i]? = some p →
      (cellId gr p = .ok (c : Int) ↔ lo ≤ i ∧ (i : Int) < hi) := by
  obtain ⟨ids, h1, h2, h3, h4⟩ := xyzSort_eq_ok h
  have hasc := (C02_ascending nb gr xyz out h
    (fun p hp c hc => ⟨(hid p hp c hc).1, (hid p hp c hc).2.2⟩)).1
  have hids := ids_of_forall h1 hid
  have hmem : ∀ c ∈ out.id, 0 ≤ c ∧ c < gr * gr * gr := by
    intro c hc
    rw [h3, List.mem_map] at hc
    obtain ⟨e, he, rfl⟩ := hc
    have := hids e ((buckets_perm _ _ _).mem_iff.mp he)
    exact ⟨this.1, this.2.1⟩
  have hg3 : 0 < gr * gr * gr := by positivity
  obtain ⟨off, o1, o2, o3⟩ := offsetTable_spec gr out.id (by omega) hmem
  rw [h4] at o1; cases o1
  have hlen : out.id.length = xyz.length := by
    rw [h3, List.length_map, (buckets_perm _ _ _).length_eq]
    simp [mapM_ok_length h1]
  refine ⟨by omega, ?_, ?_, ?_, ?_⟩
  · rw [o3 0 (by omega), List.filter_eq_nil_iff.mpr]
    · rfl
    · intro c hc; have := (hmem c hc).1; simp; omega
  · rw [o3 _ (by omega), List.filter_eq_self.mpr]
    · rw [hlen]
    · intro c hc; have := (hmem c hc).2; simp; omega
  · rw [List.pairwise_iff_getElem]
    intro a b ha hb hab
    have ea := o3 a ha
    have eb := o3 b hb
    rw [List.getElem?_eq_getElem ha, Option.some.injEq] at ea
    rw [List.getElem?_eq_getElem hb, Option.some.injEq] at eb
    rw [ea, eb]
    have : (out.id.filter (fun x => decide (x < (a : Int)))).length
        ≤ (out.id.filter (fun x => decide (x < (b : Int)))).length := by
      rw [← List.countP_eq_length_filter, ← List.countP_eq_length_filter]
      apply List.countP_mono_left
      intro x _ hx; simp at hx ⊢; omega
    exact_mod_cast this
  · intro c i p lo hi hlo hhi hp
    have hc1 : c + 1 < out.offset.length := (List.getElem?_eq_some_iff.mp hhi).1
    rw [o3 c (by omega), Option.some.injEq] at hlo
    rw [o3 (c + 1) hc1, Option.some.injEq] at hhi
    obtain ⟨-, hr⟩ := C02_ids_right nb gr xyz out h
    obtain ⟨ci, hci, hcell⟩ := hr i p hp
    have k1 := sorted_count_lt out.id hasc c i ci hci
    have k2 := sorted_count_lt out.id hasc ((c + 1 : Nat) : Int) i ci hci
    rw [hcell, Except.ok.injEq]
    subst hlo hhi
    have e1 : (((out.id.filter (fun x => decide (x < (c : Int)))).length : Nat) : Int) ≤ i ↔ ¬ ci < c := by
      rw [k1]; omega
    have e2 : (i : Int) < (((out.id.filter (fun x => decide (x < ((c + 1 : Nat) : Int)))).length : Nat) : Int)
        ↔ ci < ((c + 1 : Nat) : Int) := by rw [k2]; omega
    rw [e1, e2]; push_cast; omega

/-- C04: points of one cell keep their input order. -/
theorem C04_stable (nb : Nat) (gr : Int) (xyz : List (Pt F)) (out : Sorted F)
    (h : xyzSort nb gr xyz = .ok out) (c : Int) :
    out.xyz.filter (fun p => decide (cellId gr p = .ok c))
      = xyz.filter (fun p => decide (cellId gr p = .ok c)) := by
  obtain ⟨ids, h1, h2, -, -⟩ := xyzSort_eq_ok h
  obtain ⟨z1, -, z3⟩ := mapM_ok_zip h1
  have key : ∀ l : List (Int × Pt F), (∀ e ∈ l, cellId gr e.2 = .ok e.1) →
      (l.map (·.2)).filter (fun p => decide (cellId gr p = .ok c))
        = (l.filter (fun e => e.1 == c)).map (·.2) := by
    intro l hl
    rw [List.filter_map]
    congr 1
    apply List.filter_congr
    intro e he
    simp only [Function.comp, hl e he, Except.ok.injEq]
    by_cases hc : e.1 = c
    · simp [hc]
    · simp [hc]
  calc out.xyz.filter (fun p => decide (cellId gr p = .ok c))
      = ((buckets nb 0 (ids.zip xyz)).filter (fun e => e.1 == c)).map (·.2) := by
        rw [h2]; exact key _ (fun e he => z3 e ((buckets_perm _ _ _).mem_iff.mp he))
    _ = ((ids.zip xyz).filter (fun e => e.1 == c)).map (·.2) := by rw [buckets_stable]
    _ = ((ids.zip xyz).map (·.2)).filter (fun p => decide (cellId gr p = .ok c)) := (key _ z3).symm
    _ = _ := by rw [z1]

/-- C04: sorting a sorted point set changes nothing (points, ids and offsets). -/
theorem C04_idempotent (nb : Nat) (gr : Int) (xyz : List (Pt F)) (out : Sorted F)
    (h : xyzSort nb gr xyz = .ok out)
    (hid : ∀ p ∈ xyz, ∀ c, cellId gr p = .ok c → 0 ≤ c ∧ c < 256 ^ nb) :
    xyzSort nb gr out.xyz = .ok out := by
  obtain ⟨ids, h1, h2, h3, h4⟩ := xyzSort_eq_ok h
  have hmap : out.id.zip out.xyz = buckets nb 0 (ids.zip xyz) := by
    rw [h2, h3, List.zip_map', List.map_id'']
    intro e; rfl
  have hids : cellIds gr out.xyz = .ok out.id := by
    apply mapM_unique (by simp [h2, h3])
    intro e he
    rw [hmap] at he
    exact (mapM_ok_zip h1).2.2 e ((buckets_perm _ _ _).mem_iff.mp he)
  have hfix : buckets nb 0 (out.id.zip out.xyz) = out.id.zip out.xyz := by
    rw [hmap]
    have hr := ids_of_forall h1 hid
    apply sorted_unique
    · apply radix_sorted
      intro e he; exact hr e ((buckets_perm _ _ _).mem_iff.mp he)
    · exact radix_sorted nb _ hr
    · intro c; exact buckets_stable _ _ _ _
  unfold xyzSort
  rw [hids]
  simp only [bind_ok]
  rw [radixPasses_eq _ _ _ _ (by simp [h2, h3])]
  simp only [bind_ok, hfix]
  rw [hmap, ← h2, ← h3, h4]
  rfl

/-- C05: the sort stays inside its buffers exactly if every id is computed and lies in
`[-1, gr³)`.  (An id of `-1` increments `offset[0]`: no memory error, but the offset table
is then wrong.) -/
theorem C05_sort_safe_iff (nb : Nat) (gr : Int) (xyz : List (Pt F)) (hgr : 1 ≤ gr) :
    (∃ out, xyzSort nb gr xyz = .ok out) ↔
      ∀ p ∈ xyz, ∃ c, cellId gr p = .ok c ∧ -1 ≤ c ∧ c < gr * gr * gr := by
  have hg3 : 0 < gr * gr * gr := by positivity
  constructor
  · rintro ⟨out, h⟩ p hp
    obtain ⟨ids, h1, h2, h3, h4⟩ := xyzSort_eq_ok h
    obtain ⟨i, hi, rfl⟩ := List.getElem_of_mem hp
    obtain ⟨c, hc, hc'⟩ := mapM_ok_get h1 i _ (List.getElem?_eq_getElem hi)
    refine ⟨c, hc', ?_⟩
    by_contra hbad
    have hmem : c ∈ out.id := by
      rw [h3, ((buckets_perm nb 0 (ids.zip xyz)).map (·.1)).mem_iff, (mapM_ok_zip h1).2.1]
      exact List.mem_of_getElem? hc
    have := offsetCount_oob gr out.id (by omega) ⟨c, hmem, hbad⟩
    unfold offsetTable at h4
    rw [this] at h4; simp at h4
  · intro h
    obtain ⟨ids, hids⟩ := mapM_ok_of_forall (f := cellId gr) (xs := xyz)
      (fun p hp => by obtain ⟨c, hc, _⟩ := h p hp; exact ⟨c, hc⟩)
    have hr : ∀ c ∈ (buckets nb 0 (ids.zip xyz)).map (·.1), -1 ≤ c ∧ c < gr * gr * gr := by
      intro c hc
      rw [((buckets_perm nb 0 (ids.zip xyz)).map (·.1)).mem_iff, (mapM_ok_zip hids).2.1] at hc
      obtain ⟨p, hp, hpc⟩ := mapM_ok_mem hids c hc
      obtain ⟨c', hc', hb⟩ := h p hp
      rw [hpc] at hc'; cases hc'; exact hb
    obtain ⟨off, o1, o2, -⟩ := offsetCount_spec gr _ hr
    unfold xyzSort
    rw [show cellIds gr xyz = .ok ids from hids]
    simp only [bind_ok]
    rw [radixPasses_eq _ _ _ _ (by simp [mapM_ok_length hids])]
    simp only [bind_ok]
    unfold offsetTable
    rw [o1]
    simp only [bind_ok]
    rw [wr_ok (by rw [offsetScan_length]; omega)]
    exact ⟨_, rfl⟩

section exact
variable {K : Type} [Field K] [LinearOrder K] [IsStrictOrderedRing K] [FloorRing K] [Inhabited K]

/-- C05: in exact arithmetic all points with coordinates in `[0,1)` are sorted safely, and
every cell id lies in `[0, gr³)`. -/
theorem C05_unit_box_safe (nb : Nat) (gr : Int) (xyz : List (Pt K)) (hgr : 1 ≤ gr)
    (hbox : ∀ p ∈ xyz, InBox p) :
    (∀ p ∈ xyz, ∃ c, cellId gr p = .ok c ∧ 0 ≤ c ∧ c < gr * gr * gr) ∧
    ∃ out, xyzSort nb gr xyz = .ok out := by
  have h := fun p hp => cellId_range gr hgr p (hbox p hp)
  refine ⟨h, (C05_sort_safe_iff nb gr xyz hgr).mpr ?_⟩
  intro p hp
  obtain ⟨c, h1, h2, h3⟩ := h p hp
  exact ⟨c, h1, by omega, h3⟩

/-- C05: a point outside the box can be rejected by the validation and nevertheless make the
sort, which runs first, access memory outside its buffers: the whole call then ends in
undefined behaviour before any message is printed. -/
theorem C05_validation_too_late : ∃ (prm : Params) (xyz : List (Pt ℚ)),
    validateXyzset xyz = false ∧ tesellateCpu 4 4 prm xyz = .error .oob :=
  ⟨⟨1, 2, 32, 32, 0, 0, false, false⟩, [⟨3/2, 3/2, 3/2⟩, ⟨1/4, 1/4, 1/4⟩],
    by decide +kernel, by unfold tesellateCpu; rw [xyzSort_eq]; decide +kernel⟩

/-- C02: the hypothesis of non-negative ids is needed: one point slightly outside the box is
sorted without a memory error, but the ids are then not ascending. -/
theorem C02_negative_id : ∃ (xyz : List (Pt ℚ)) (out : Sorted ℚ),
    xyzSort 4 2 xyz = .ok out ∧ validateId out.id = false :=
  ⟨[⟨-1/4, 1/4, 1/4⟩, ⟨1/4, 1/4, 1/4⟩],
    ⟨[⟨1/4, 1/4, 1/4⟩, ⟨-1/4, 1/4, 1/4⟩], [0, -1], [1, 2, 2, 2, 2, 2, 2, 2, 2]⟩,
    by rw [xyzSort_eq]; decide +kernel, by decide +kernel⟩
end exact

example : xyzSort 4 2 ([⟨3/4, 1/4, 1/4⟩, ⟨1/4, 1/4, 1/4⟩, ⟨3/5, 1/4, 1/4⟩] : List (Pt ℚ))
    = .ok ⟨[⟨1/4, 1/4, 1/4⟩, ⟨3/4, 1/4, 1/4⟩, ⟨3/5, 1/4, 1/4⟩], [0, 1, 1],
        [0, 1, 3, 3, 3, 3, 3, 3, 3]⟩ := by rw [xyzSort_eq]; decide +kernel
example : ∀ p ∈ ([⟨3/4, 1/4, 1/4⟩, ⟨1/4, 1/4, 1/4⟩] : List (Pt ℚ)),
    ∀ c, cellId 2 p = .ok c → 0 ≤ c ∧ c < 2 * 2 * 2 ∧ c < 256 ^ 4 := by
  intro p hp c hc
  simp only [List.mem_cons, List.not_mem_nil, or_false] at hp
  have e1 : cellId 2 (⟨3/4, 1/4, 1/4⟩ : Pt ℚ) = .ok 1 := by decide +kernel
  have e2 : cellId 2 (⟨1/4, 1/4, 1/4⟩ : Pt ℚ) = .ok 0 := by decide +kernel
  rcases hp with rfl | rfl
  · rw [e1] at hc; cases hc; decide
  · rw [e2] at hc; cases hc; decide

end Votess
