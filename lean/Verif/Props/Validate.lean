import Verif.Model.Validate
import Verif.Props.Driver
import Verif.Props.XyzSet
/-!
# C55 — what the validation messages mean (exact arithmetic)
-/
set_option linter.unusedSectionVars false
namespace Votess

variable {K : Type} [Field K] [LinearOrder K] [IsStrictOrderedRing K] [FloorRing K] [Inhabited K]

/-- all coordinates strictly between 0 and 1 -/
def StrictlyInside (p : Pt K) : Prop :=
  (0 < p.x ∧ p.x < 1) ∧ (0 < p.y ∧ p.y < 1) ∧ (0 < p.z ∧ p.z < 1)

/-- C55: `validate_xyzset` accepts exactly the point sets strictly inside the box. -/
theorem C55_validate_xyzset (xyz : List (Pt K)) :
    validateXyzset xyz = true ↔ ∀ p ∈ xyz, StrictlyInside p := by
  unfold validateXyzset
  rw [List.all_eq_true]
  constructor
  · intro h p hp
    have := h p hp
    simp only [FP.le, FP.ofInt, Int.cast_one, Int.cast_zero, Bool.and_eq_true, Bool.not_eq_true',
      Bool.or_eq_false_iff, decide_eq_false_iff_not, not_le] at this
    obtain ⟨⟨⟨a, b⟩, c, d⟩, e, f⟩ := this
    exact ⟨⟨b, a⟩, ⟨d, c⟩, f, e⟩
  · intro h p hp
    obtain ⟨⟨a, b⟩, ⟨c, d⟩, e, f⟩ := h p hp
    simp only [FP.le, FP.ofInt, Int.cast_one, Int.cast_zero, Bool.and_eq_true, Bool.not_eq_true',
      Bool.or_eq_false_iff, decide_eq_false_iff_not, not_le]
    exact ⟨⟨⟨b, a⟩, d, c⟩, f, e⟩

theorem scaledCoord_exact (gr : Int) (x : K) (n : Nat) :
    scaledCoord (FP.recip gr) x gr n = .ok (gcoord gr x * gr ^ n) := by
  unfold scaledCoord
  rw [gridCoord_exact]
  simp only [bind_ok]
  have : (List.replicate n (FP.ofInt gr : K)).foldl FP.mul (FP.ofInt (gcoord gr x))
      = ((gcoord gr x * gr ^ n : Int) : K) := by
    generalize gcoord gr x = c
    induction n generalizing c with
    | zero => simp [FP.ofInt]
    | succ n ih =>
      rw [List.replicate_succ, List.foldl_cons]
      have : FP.mul (FP.ofInt c) (FP.ofInt gr) = (FP.ofInt (c * gr) : K) := by
        simp [FP.mul, FP.ofInt]
      rw [this, ih (c * gr)]
      congr 1; ring
  rw [this]
  simp only [FP.floorInt, Int.floor_intCast]

theorem validateSortFrom_spec (gr : Int) (id : List Int) : ∀ (xyz : List (Pt K)) (i : Nat),
    (∀ j p, xyz[j]? = some p → ∃ c, id[i + j]? = some c) →
    ∃ b, validateSortFrom gr id i xyz = .ok b ∧
      (b = true ↔ ∀ j p, xyz[j]? = some p → ∃ c, id[i + j]? = some c ∧ cellId gr p = .ok c)
  | [], i, _ => ⟨true, rfl, by simp⟩
  | p :: l, i, h => by
    obtain ⟨c, hc⟩ := h 0 p rfl
    have hc' : rd id i = .ok c := rd_eq_ok.mpr (by simpa using hc)
    have e : gcoord gr p.x * gr ^ 0 + gcoord gr p.y * gr ^ 1 + gcoord gr p.z * gr ^ 2
        = gcoord gr p.x + gcoord gr p.y * gr + gcoord gr p.z * gr * gr := by ring
    unfold validateSortFrom
    simp only [scaledCoord_exact, bind_ok, hc']
    by_cases hne : gcoord gr p.x * gr ^ 0 + gcoord gr p.y * gr ^ 1 + gcoord gr p.z * gr ^ 2 ≠ c
    · rw [if_pos hne]
      refine ⟨false, rfl, ?_⟩
      simp only [Bool.false_eq_true, false_iff]
      intro hall
      obtain ⟨c', h1, h2⟩ := hall 0 p rfl
      rw [Nat.add_zero] at h1 hc
      rw [hc] at h1; cases h1
      rw [cellId_exact, ← e] at h2
      injection h2 with h2
      exact hne h2
    · rw [if_neg hne]
      obtain ⟨b, b1, b2⟩ := validateSortFrom_spec gr id l (i + 1) (by
        intro j q hq
        obtain ⟨c, hc⟩ := h (j + 1) q (by simpa using hq)
        exact ⟨c, by rw [← hc]; congr 1; omega⟩)
      refine ⟨b, b1, ?_⟩
      rw [b2]
      constructor
      · intro hall j q hq
        cases j with
        | zero =>
          simp only [List.getElem?_cons_zero, Option.some.injEq] at hq
          subst hq
          refine ⟨c, hc, ?_⟩
          rw [cellId_exact, ← e]
          simp only [ne_eq, not_not] at hne
          rw [hne]
        | succ j =>
          obtain ⟨c, h1, h2⟩ := hall j q (by simpa using hq)
          exact ⟨c, by rw [← h1]; congr 1; omega, h2⟩
      · intro hall j q hq
        obtain ⟨c, h1, h2⟩ := hall (j + 1) q (by simpa using hq)
        exact ⟨c, by rw [← h1]; congr 1; omega, h2⟩

/-- C55: `validate_sort` accepts exactly when every id is the grid cell of its point. -/
theorem C55_validate_sort_iff (gr : Int) (xyz : List (Pt K)) (id : List Int)
    (hl : id.length = xyz.length) : ∃ b, validateSort gr xyz id = .ok b ∧
      (b = true ↔ ∀ (i : Nat) p, xyz[i]? = some p → ∃ c, id[i]? = some c ∧ cellId gr p = .ok c) := by
  obtain ⟨b, h1, h2⟩ := validateSortFrom_spec gr id xyz 0 (by
    intro j p hp
    have := (List.getElem?_eq_some_iff.mp hp).1
    exact ⟨_, List.getElem?_eq_getElem (by omega)⟩)
  refine ⟨b, h1, ?_⟩
  rw [h2]
  simp only [Nat.zero_add]

/-- C55: and it always accepts the result of the sort, for every point set that can be sorted. -/
theorem C55_validate_sort (nb : Nat) (gr : Int) (xyz : List (Pt K)) (out : Sorted K)
    (h : xyzSort nb gr xyz = .ok out) : validateSort gr out.xyz out.id = .ok true := by
  obtain ⟨h1, h2⟩ := C02_ids_right nb gr xyz out h
  obtain ⟨b, e1, e2⟩ := C55_validate_sort_iff gr out.xyz out.id h1
  rw [e1, e2.mpr h2]

/-- C55: when `tesellate` returns, it printed `oops1` exactly if some input point is not strictly
inside the box (so also for a harmless coordinate 0), and for in-range grid cells it did not print
`oops2`. -/
theorem C55_warnings (nb hw : Nat) (prm : Params) (xyz : List (Pt K)) (out : TessOut K)
    (h : tesellateCpu nb hw prm xyz = .ok out) :
    (out.warnXyz = true ↔ ∃ p ∈ xyz, ¬ StrictlyInside p) ∧
    ((∀ p ∈ xyz, ∀ c, cellId prm.gr p = .ok c → 0 ≤ c ∧ c < 256 ^ nb) → out.warnId = false) := by
  unfold tesellateCpu at h
  rw [bind_eq_ok] at h
  obtain ⟨S, hs, h⟩ := h
  rw [bind_eq_ok] at h
  obtain ⟨⟨t, s⟩, -, h⟩ := h
  obtain ⟨t', s', rfl⟩ : ∃ t' s', out = mkOut S t' s' := by
    simp only at h
    split at h
    · rw [bind_eq_ok] at h
      obtain ⟨⟨t', s'⟩, -, h⟩ := h
      cases h; exact ⟨t', s', rfl⟩
    · cases h; exact ⟨t, s, rfl⟩
  simp only [mkOut]
  have hperm := C01_sort_permutes nb prm.gr xyz S hs
  refine ⟨?_, ?_⟩
  · simp only [Bool.not_eq_true']
    rw [← Bool.not_eq_true, C55_validate_xyzset]
    push Not
    simp only [hperm.mem_iff]
  · intro hid
    simp only [Bool.not_eq_false']
    exact (C02_ascending nb prm.gr xyz S hs hid).2

/-- accepted, and a coordinate 0 is not -/
example : validateXyzset ([⟨1/4, 1/2, 3/4⟩] : List (Pt ℚ)) = true ∧
    validateXyzset ([⟨1/4, 1/2, 0⟩] : List (Pt ℚ)) = false := by decide +kernel

example : validateSort 2 ([⟨1/4, 1/2, 3/4⟩] : List (Pt ℚ)) [6] = .ok true ∧
    validateSort 2 ([⟨1/4, 1/2, 3/4⟩] : List (Pt ℚ)) [5] = .ok false := by decide +kernel

end Votess
