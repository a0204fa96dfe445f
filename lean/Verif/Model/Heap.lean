import Verif.Model.Basic
/-!
# Max-heap of candidate neighbours — `src/heap.ipp` (CPU variant, lines 11-66)

The two parallel vectors `heap_id`, `heap_pq` of one row (starting at `h0`) are
zipped into one list of `(id, priority)` pairs; `heap::swap` always exchanges
both.  `lt` is the comparison `<` on priorities (`heap_pq[x] > heap_pq[y]` is
`lt heap_pq[y] heap_pq[x]`).
-/
namespace Votess

variable {D : Type}

/-- choice of `largest` in one iteration of `heap::maxheapify`; src/heap.ipp:32-40 -/
def heapLargest (lt : D → D → Bool) (h : List (Int × D)) (s i : Nat) : M Nat := do
  let left := 2 * i + 1
  let right := 2 * i + 2
  let largest ←
    if left < s then do
      let a ← rd h left
      let b ← rd h i
      pure (if lt b.2 a.2 then left else i)
    else pure i
  if right < s then do
    let a ← rd h right
    let b ← rd h largest
    pure (if lt b.2 a.2 then right else largest)
  else pure largest

/-- the `while (true)` loop of `heap::maxheapify`; src/heap.ipp:31-47 -/
def maxheapifyLoop (lt : D → D → Bool) (s : Nat) :
    Nat → List (Int × D) → Nat → M (List (Int × D))
  | 0, _, _ => .error .diverge
  | fuel + 1, h, i => do
    let largest ← heapLargest lt h s i
    if i ≠ largest then do
      let h ← swp h i largest
      maxheapifyLoop lt s fuel h largest
    else pure h

/-- `heap::maxheapify(heap_id, heap_pq, h0, s, i)`; src/heap.ipp:24-48.
The index grows in every iteration and a swap needs `largest < s`, so `s + 1`
iterations are enough (theorem `maxheapify_ok`). -/
def maxheapify (lt : D → D → Bool) (h : List (Int × D)) (s i : Nat) : M (List (Int × D)) :=
  maxheapifyLoop lt s (s + 1) h i

/-- first loop of `heap::sort`: `for (i = n-1; i >= 0; i--) maxheapify(k, i)`;
src/heap.ipp:59-61 (`n = k / 2`) -/
def heapBuild (lt : D → D → Bool) (k : Nat) : Nat → List (Int × D) → M (List (Int × D))
  | 0, h => pure h
  | n + 1, h => do
    let h ← maxheapify lt h k n
    heapBuild lt k n h

/-- second loop of `heap::sort`: `for (i = n-1; i >= 0; i--) { swap(0,i); maxheapify(i, 0); }`;
src/heap.ipp:62-65 (`n = k`) -/
def heapDrain (lt : D → D → Bool) : Nat → List (Int × D) → M (List (Int × D))
  | 0, h => pure h
  | n + 1, h => do
    let h ← swp h 0 n
    let h ← maxheapify lt h n 0
    heapDrain lt n h

/-- `heap::sort`; src/heap.ipp:52-66 -/
def heapSort (lt : D → D → Bool) (h : List (Int × D)) (k : Nat) : M (List (Int × D)) := do
  let h ← heapBuild lt k (k / 2) h
  heapDrain lt k h

end Votess
