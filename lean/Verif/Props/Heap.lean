import Verif.Proofs.Heap
import Verif.Model.Exact
import Mathlib.Algebra.Order.Ring.Rat
import Mathlib.Data.Rat.Floor
/-!
# C06, C07 — candidate heap

Comparisons are any strict weak order; `topLt` (exact distances with `+infinity`) is one.
-/
namespace Votess

variable {D : Type}

/-- specification of a max-heap: every entry but the first is at most its parent -/
def IsMaxHeap (lt : D → D → Bool) (h : List (Int × D)) : Prop :=
  ∀ i x y, 0 < i → h[i]? = some x → h[(i - 1) / 2]? = some y → lt y.2 x.2 = false

theorem isMaxHeap_iff (lt : D → D → Bool) (h : List (Int × D)) :
    IsMaxHeap lt h ↔ HeapEx lt h h.length 0 none := by
  constructor
  · intro hh p c _ hc hpc _ x y hx hy
    exact hh c x y (by omega) hx (by rw [show (c - 1) / 2 = p by omega]; exact hy)
  · intro hh i x y hi hx hy
    have hl : i < h.length := (List.getElem?_eq_some_iff.mp hx).1
    exact hh ((i - 1) / 2) i (by omega) hl (by omega) (by simp) x y hx hy

/-- C06: replacing the root of a heap and sifting down keeps every other pair, adds the new
one, and restores the heap. -/
theorem C06_heap_update (lt : D → D → Bool) (w : WeakOrd lt) (h : List (Int × D)) (e : Int × D)
    (hk : 1 ≤ h.length) (hh : IsMaxHeap lt h) :
    ∃ h1 h', wr h 0 e = .ok h1 ∧ maxheapify lt h1 h.length 0 = .ok h' ∧
      h'.Perm (e :: h.tail) ∧ IsMaxHeap lt h' := by
  obtain ⟨h', e1, s1, o1⟩ := maxheapify_spec lt (h.set 0 e) h.length 0 (by simp)
  refine ⟨_, h', wr_ok (by omega) e, e1, ?_, ?_⟩
  · cases h with
    | nil => simp at hk
    | cons a t => exact s1.perm
  · rw [isMaxHeap_iff, s1.len, List.length_set]
    apply o1 w
    intro p c hp hc hpc _ x y hx hy
    rw [List.getElem?_set_ne (by omega)] at hx hy
    exact (isMaxHeap_iff lt h).mp hh p c (by omega) hc hpc (by simp) x y hx hy

/-- C06: memory safety and termination of the sift-down need no assumption on the comparison
(NaN distances included) nor on the heap order. -/
theorem C06_heap_safe (lt : D → D → Bool) (h : List (Int × D)) (s i : Nat) (hs : s ≤ h.length) :
    ∃ h', maxheapify lt h s i = .ok h' ∧ h'.Perm h ∧ ∀ m, s ≤ m → h'[m]? = h[m]? := by
  obtain ⟨h', e1, s1, -⟩ := maxheapify_spec lt h s i hs
  exact ⟨h', e1, s1.perm, s1.frame⟩

/-- C06: the root of a max-heap is a largest entry. -/
theorem C06_root_max (lt : D → D → Bool) (w : WeakOrd lt) (h : List (Int × D))
    (hh : IsMaxHeap lt h) (r : Int × D) (hr : h[0]? = some r) : ∀ x ∈ h, lt r.2 x.2 = false := by
  intro x hx
  obtain ⟨i, hi, e⟩ := List.getElem_of_mem hx
  exact heap_root_max w (Nat.le_refl _) ((isMaxHeap_iff lt h).mp hh) i hi x r
    (by rw [List.getElem?_eq_getElem hi, e]) hr

/-- C07: `heap::sort` sorts any array: same pairs, non-decreasing priorities. -/
theorem C07_heap_sort (lt : D → D → Bool) (w : WeakOrd lt) (h : List (Int × D)) :
    ∃ h', heapSort lt h h.length = .ok h' ∧ h'.Perm h ∧
      h'.Pairwise (fun a b => lt b.2 a.2 = false) := by
  obtain ⟨h', e, -, p, o⟩ := heapSort_spec lt h
  refine ⟨h', e, p, ?_⟩
  rw [List.pairwise_iff_getElem]
  intro i j hi hj hij
  exact o w i j hij _ _ (List.getElem?_eq_getElem hi) (List.getElem?_eq_getElem hj)

/-- C07: `heap::sort` is safe, terminates and permutes for any comparison. -/
theorem C07_heap_sort_safe (lt : D → D → Bool) (h : List (Int × D)) :
    ∃ h', heapSort lt h h.length = .ok h' ∧ h'.Perm h := by
  obtain ⟨h', e, -, p, -⟩ := heapSort_spec lt h
  exact ⟨h', e, p⟩

section
variable {K : Type} [Field K] [LinearOrder K] [IsStrictOrderedRing K] [FloorRing K]

omit [Field K] [IsStrictOrderedRing K] [FloorRing K] in
theorem topLt_iff (a b : WithTop K) : topLt a b = true ↔ a < b := by
  cases a <;> cases b <;> simp [topLt]

omit [Field K] [IsStrictOrderedRing K] [FloorRing K] in
theorem topLt_weakOrd : WeakOrd (topLt (K := K)) := by
  have hf : ∀ a b : WithTop K, topLt a b = false ↔ b ≤ a := by
    intro a b; rw [← not_lt, ← topLt_iff]; simp
  refine ⟨?_, ?_⟩
  · intro a b h; rw [topLt_iff] at h; rw [hf]; exact h.le
  · intro a b c h1 h2; rw [hf] at *; exact h1.trans h2
end

example : WeakOrd (topLt (K := ℚ)) := topLt_weakOrd
example : IsMaxHeap (topLt (K := ℚ)) [(0, none), (1, some 3), (2, none), (3, some 2)] := by
  rw [isMaxHeap_iff]
  intro p c _ hc hpc _ x y hx hy
  have : c = 1 ∧ p = 0 ∨ c = 2 ∧ p = 0 ∨ c = 3 ∧ p = 1 := by
    simp only [List.length_cons, List.length_nil] at hc; omega
  rcases this with ⟨rfl, rfl⟩ | ⟨rfl, rfl⟩ | ⟨rfl, rfl⟩ <;> simp at hx hy <;> subst hx hy <;> decide
example : heapSort (topLt (K := ℚ)) [(0, none), (1, some 3), (2, some 5), (3, some 2)] 4
    = .ok [(3, some 2), (1, some 3), (2, some 5), (0, none)] := by decide +kernel

end Votess
