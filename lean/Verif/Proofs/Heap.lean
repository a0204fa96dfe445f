import Verif.Model.Heap
import Verif.Proofs.Basic
/-! Lemmas on the candidate heap. -/
namespace Votess

variable {α D : Type}

theorem swp_spec {a : List α} {i j : Nat} (hi : i < a.length) (hj : j < a.length) :
    ∃ b, swp a i j = .ok b ∧ b.length = a.length ∧ b.Perm a ∧ b[i]? = a[j]? ∧ b[j]? = a[i]? ∧
      ∀ m, m ≠ i → m ≠ j → b[m]? = a[m]? := by
  refine ⟨_, swp_ok hi hj, by simp, List.set_set_perm hi hj, ?_, ?_, ?_⟩
  · by_cases h : j = i
    · subst h; simp [hj]
    · rw [List.getElem?_set_ne h, List.getElem?_set_self (by simpa using hi)]
      simp [hj]
  · rw [List.getElem?_set_self (by simpa using hj)]; simp [hi]
  · intro m h1 h2
    rw [List.getElem?_set_ne (Ne.symm h2), List.getElem?_set_ne (Ne.symm h1)]

/-- `h'` is a rearrangement of the first `s` entries of `h` -/
structure Sift (s : Nat) (h h' : List α) : Prop where
  len : h'.length = h.length
  perm : h'.Perm h
  frame : ∀ m, s ≤ m → h'[m]? = h[m]?
  src : ∀ m, m < s → ∃ m', m' < s ∧ h'[m]? = h[m']?

theorem Sift.refl (s : Nat) (h : List α) : Sift s h h :=
  ⟨rfl, .refl _, fun _ _ => rfl, fun m hm => ⟨m, hm, rfl⟩⟩

theorem Sift.trans {s : Nat} {h h' h'' : List α} (p : Sift s h h') (q : Sift s h' h'') :
    Sift s h h'' := by
  refine ⟨q.len.trans p.len, q.perm.trans p.perm, fun m hm => (q.frame m hm).trans (p.frame m hm), ?_⟩
  intro m hm
  obtain ⟨m1, h1, e1⟩ := q.src m hm
  obtain ⟨m2, h2, e2⟩ := p.src m1 h1
  exact ⟨m2, h2, e1.trans e2⟩

theorem Sift.mono {s t : Nat} {h h' : List α} (p : Sift s h h') (hst : s ≤ t) : Sift t h h' := by
  refine ⟨p.len, p.perm, fun m hm => p.frame m (by omega), ?_⟩
  intro m hm
  by_cases h : m < s
  · obtain ⟨m', h1, e⟩ := p.src m h; exact ⟨m', by omega, e⟩
  · exact ⟨m, hm, p.frame m (by omega)⟩

theorem Sift.of_swp {s : Nat} {a b : List α} {i j : Nat} (hi : i < s) (hj : j < s)
    (hs : s ≤ a.length) (h : swp a i j = .ok b) : Sift s a b := by
  obtain ⟨b', h1, h2, h3, h4, h5, h6⟩ := swp_spec (a := a) (i := i) (j := j) (by omega) (by omega)
  rw [h] at h1; cases h1
  refine ⟨h2, h3, fun m hm => h6 m (by omega) (by omega), ?_⟩
  intro m hm
  by_cases e1 : m = i
  · subst e1; exact ⟨j, hj, h4⟩
  · by_cases e2 : m = j
    · subst e2; exact ⟨i, hi, h5⟩
    · exact ⟨m, hm, h6 m e1 e2⟩

/-- `h[m]` is at most `h[p]` in priority (true if one does not exist) -/
def Le (lt : D → D → Bool) (h : List (Int × D)) (m p : Nat) : Prop :=
  ∀ x y, h[m]? = some x → h[p]? = some y → lt y.2 x.2 = false

/-- strict weak order given as a Boolean -/
structure WeakOrd (lt : D → D → Bool) : Prop where
  asymm : ∀ a b, lt a b = true → lt b a = false
  trans : ∀ a b c, lt b a = false → lt c b = false → lt c a = false

theorem WeakOrd.irrefl {lt : D → D → Bool} (w : WeakOrd lt) (a : D) : lt a a = false := by
  cases h : lt a a with
  | false => rfl
  | true => rw [w.asymm a a h] at h; cases h

/-- parents from `lo` on dominate their children, `s` entries, except at `ex` -/
def HeapEx (lt : D → D → Bool) (h : List (Int × D)) (s lo : Nat) (ex : Option Nat) : Prop :=
  ∀ p c, lo ≤ p → c < s → (c = 2 * p + 1 ∨ c = 2 * p + 2) → ex ≠ some p → Le lt h c p

theorem heapLargest_spec (lt : D → D → Bool) (h : List (Int × D)) (s i : Nat)
    (hs : s ≤ h.length) :
    ∃ l, heapLargest lt h s i = .ok l ∧
      (l = i ∨ (l < s ∧ (l = 2 * i + 1 ∨ l = 2 * i + 2))) ∧
      (WeakOrd lt → Le lt h i l ∧
        ∀ c, c < s → (c = 2 * i + 1 ∨ c = 2 * i + 2) → Le lt h c l) := by
  unfold heapLargest
  have key : ∀ j l, (hj : j < s) → (hl : l < s) → ∃ l',
      (if lt (h[l]'(by omega)).2 (h[j]'(by omega)).2 = true then j else l) = l' ∧
      (l' = j ∨ l' = l) ∧ (WeakOrd lt → Le lt h j l' ∧ Le lt h l l') := by
    intro j l hj hl
    refine ⟨_, rfl, ?_, ?_⟩
    · split <;> simp
    · intro w
      split
      · rename_i hc
        refine ⟨?_, ?_⟩
        · intro x y hx hy; rw [hx] at hy; cases hy; exact w.irrefl _
        · intro x y hx hy
          have : x = h[l] := by rw [List.getElem?_eq_getElem (by omega)] at hx; simpa using hx.symm
          have : y = h[j] := by rw [List.getElem?_eq_getElem (by omega)] at hy; simpa using hy.symm
          subst_vars; exact w.asymm _ _ hc
      · rename_i hc
        refine ⟨?_, ?_⟩
        · intro x y hx hy
          have : x = h[j] := by rw [List.getElem?_eq_getElem (by omega)] at hx; simpa using hx.symm
          have : y = h[l] := by rw [List.getElem?_eq_getElem (by omega)] at hy; simpa using hy.symm
          subst_vars; simpa using hc
        · intro x y hx hy; rw [hx] at hy; cases hy; exact w.irrefl _
  have lerefl : WeakOrd lt → ∀ m, Le lt h m m := by
    intro w m x y hx hy; rw [hx] at hy; cases hy; exact w.irrefl _
  have letrans : WeakOrd lt → ∀ a b c, b < h.length → Le lt h a b → Le lt h b c → Le lt h a c := by
    intro w a b c hb h1 h2 x y hx hy
    have hz := List.getElem?_eq_getElem hb
    exact w.trans _ _ _ (h1 _ _ hx hz) (h2 _ _ hz hy)
  simp only
  by_cases hl : 2 * i + 1 < s
  · obtain ⟨l1, e1, m1, o1⟩ := key (2 * i + 1) i hl (by omega)
    rw [if_pos hl, rd_ok (a := h) (i := 2 * i + 1) (by omega), rd_ok (a := h) (i := i) (by omega)]
    simp only [bind_ok, pure_eq_ok, e1]
    by_cases hr : 2 * i + 2 < s
    · obtain ⟨l2, e2, m2, o2⟩ := key (2 * i + 2) l1 hr (by omega)
      rw [if_pos hr, rd_ok (a := h) (i := 2 * i + 2) (by omega),
        rd_ok (a := h) (i := l1) (by omega)]
      simp only [bind_ok, e2]
      refine ⟨l2, rfl, by omega, ?_⟩
      intro w
      obtain ⟨o11, o12⟩ := o1 w
      obtain ⟨o21, o22⟩ := o2 w
      refine ⟨letrans w _ l1 _ (by omega) o12 o22, ?_⟩
      rintro c hc (rfl | rfl)
      · exact letrans w _ l1 _ (by omega) o11 o22
      · exact o21
    · rw [if_neg hr]
      refine ⟨l1, rfl, by omega, ?_⟩
      intro w
      obtain ⟨o11, o12⟩ := o1 w
      refine ⟨o12, ?_⟩
      rintro c hc (rfl | rfl)
      · exact o11
      · omega
  · rw [if_neg hl]
    simp only [pure_eq_ok, bind_ok]
    rw [if_neg (by omega)]
    refine ⟨i, rfl, by omega, fun w => ⟨lerefl w _, ?_⟩⟩
    rintro c hc (rfl | rfl) <;> omega

/-- sift-down: safe and terminating for any comparison, heap restored for an order -/
theorem maxheapifyLoop_spec (lt : D → D → Bool) (s : Nat) (fuel : Nat) (h : List (Int × D))
    (i : Nat) (hs : s ≤ h.length) (hf : 1 ≤ fuel ∧ s < fuel + i) :
    ∃ h', maxheapifyLoop lt s fuel h i = .ok h' ∧ Sift s h h' ∧
      (WeakOrd lt → ∀ lo, lo ≤ i → HeapEx lt h s lo (some i) →
        (∀ p c, lo ≤ p → (i = 2 * p + 1 ∨ i = 2 * p + 2) → c < s → (c = 2 * i + 1 ∨ c = 2 * i + 2) →
          Le lt h c p) → HeapEx lt h' s lo none) := by
  induction fuel generalizing h i with
  | zero =>
    obtain ⟨l, e, hl, -⟩ := heapLargest_spec lt h s i hs
    omega
  | succ fuel ih =>
    obtain ⟨l, e, hl, ho⟩ := heapLargest_spec lt h s i hs
    simp only [maxheapifyLoop, e, bind_ok]
    by_cases hil : i = l
    · subst hil
      rw [if_neg (by simp)]
      refine ⟨h, rfl, Sift.refl _ _, ?_⟩
      intro w lo hlo hex _ p c hp hc hpc _
      by_cases hpi : p = i
      · subst hpi; exact (ho w).2 c hc hpc
      · exact hex p c hp hc hpc (by simpa using fun h => hpi h.symm)
    · rw [if_pos hil]
      have hl' : l < s ∧ (l = 2 * i + 1 ∨ l = 2 * i + 2) := by
        rcases hl with h1 | h1
        · exact absurd h1.symm hil
        · exact h1
      obtain ⟨h1, e1, len1, -, si, sl, so⟩ :=
        swp_spec (a := h) (i := i) (j := l) (by omega) (by omega)
      have sift1 : Sift s h h1 := Sift.of_swp (by omega) hl'.1 hs e1
      rw [e1]; simp only [bind_ok]
      obtain ⟨h2, e2, sift2, ho2⟩ := ih h1 l (by omega) (by omega)
      refine ⟨h2, e2, sift1.trans sift2, ?_⟩
      intro w lo hlo hex hgp
      obtain ⟨oi, oc⟩ := ho w
      apply ho2 w lo (by omega)
      · -- heap except at l
        intro p c hp hc hpc hpl
        have hpl' : p ≠ l := by rintro rfl; exact hpl rfl
        by_cases hpi : p = i
        · subst hpi
          -- children of i: new value at i is the old h[l]
          intro x y hx hy
          rw [si] at hy
          by_cases hcl : c = l
          · subst hcl; rw [sl] at hx; exact oi x y hx hy
          · rw [so c (by omega) hcl] at hx; exact oc c hc hpc x y hx hy
        · by_cases hci : c = i
          · subst hci
            -- p is the parent of i
            intro x y hx hy
            rw [si] at hx
            rw [so p hpi hpl'] at hy
            exact hgp p l hp hpc hl'.1 hl'.2 x y hx hy
          · intro x y hx hy
            rw [so p hpi hpl'] at hy
            rw [so c hci (by omega)] at hx
            exact hex p c hp hc hpc (by simpa using fun h => hpi h.symm) x y hx hy
      · -- grandchildren
        intro p c hp hpl hc hcl
        have : p = i := by omega
        subst this
        intro x y hx hy
        rw [si] at hy
        rw [so c (by omega) (by omega)] at hx
        exact hex l c (by omega) hc hcl (by simpa using hil) x y hx hy

theorem maxheapify_spec (lt : D → D → Bool) (h : List (Int × D)) (s i : Nat)
    (hs : s ≤ h.length) :
    ∃ h', maxheapify lt h s i = .ok h' ∧ Sift s h h' ∧
      (WeakOrd lt → HeapEx lt h s (i + 1) none → HeapEx lt h' s i none) := by
  obtain ⟨h', e, sf, hh⟩ := maxheapifyLoop_spec lt s (s + 1) h i hs (by omega)
  refine ⟨h', e, sf, ?_⟩
  intro w hx
  apply hh w i (Nat.le_refl _)
  · intro p c hp hc hpc hpi
    exact hx p c (by rcases Nat.lt_or_eq_of_le hp with h | h; exact h; subst h; simp at hpi) hc hpc (by simp)
  · intro p c hp hi; omega

theorem heapBuild_spec (lt : D → D → Bool) (k n : Nat) (h : List (Int × D)) (hk : k ≤ h.length) :
    ∃ h', heapBuild lt k n h = .ok h' ∧ Sift k h h' ∧
      (WeakOrd lt → HeapEx lt h k n none → HeapEx lt h' k 0 none) := by
  induction n generalizing h with
  | zero => exact ⟨h, rfl, Sift.refl _ _, fun _ hx => hx⟩
  | succ n ih =>
    obtain ⟨h1, e1, s1, o1⟩ := maxheapify_spec lt h k n hk
    obtain ⟨h2, e2, s2, o2⟩ := ih h1 (by rw [s1.len]; exact hk)
    exact ⟨h2, by simp [heapBuild, e1, e2], s1.trans s2, fun w hx => o2 w (o1 w hx)⟩

theorem Le.trans {lt : D → D → Bool} (w : WeakOrd lt) {h : List (Int × D)} {a b c : Nat}
    (hb : b < h.length) (h1 : Le lt h a b) (h2 : Le lt h b c) : Le lt h a c := by
  intro x y hx hy
  have hz := List.getElem?_eq_getElem hb
  exact w.trans _ _ _ (h1 _ _ hx hz) (h2 _ _ hz hy)

theorem heap_root_max {lt : D → D → Bool} (w : WeakOrd lt) {h : List (Int × D)} {s : Nat}
    (hs : s ≤ h.length) (hx : HeapEx lt h s 0 none) : ∀ i, i < s → Le lt h i 0 := by
  intro i
  induction i using Nat.strongRecOn with
  | _ i ih =>
    intro hi
    by_cases h0 : i = 0
    · subst h0; intro x y hx hy; rw [hx] at hy; cases hy; exact w.irrefl _
    · have hp := hx ((i - 1) / 2) i (by omega) hi (by omega) (by simp)
      exact Le.trans w (by omega) hp (ih _ (by omega) (by omega))

theorem heapDrain_spec (lt : D → D → Bool) (n : Nat) (h : List (Int × D)) (hn : n ≤ h.length) :
    ∃ h', heapDrain lt n h = .ok h' ∧ Sift n h h' ∧
      (WeakOrd lt → HeapEx lt h n 0 none → (∀ i j, i < j → n ≤ j → Le lt h i j) →
        ∀ i j, i < j → Le lt h' i j) := by
  induction n generalizing h with
  | zero => exact ⟨h, rfl, Sift.refl _ _, fun _ _ hx i j hij => hx i j hij (Nat.zero_le _)⟩
  | succ n ih =>
    obtain ⟨h1, e1, len1, -, s0, sn, so⟩ :=
      swp_spec (a := h) (i := 0) (j := n) (by omega) (by omega)
    have sift1 : Sift (n + 1) h h1 := Sift.of_swp (by omega) (by omega) hn e1
    obtain ⟨h2, e2, s2, o2⟩ := maxheapify_spec lt h1 n 0 (by omega)
    obtain ⟨h3, e3, s3, o3⟩ := ih h2 (by rw [s2.len]; omega)
    refine ⟨h3, by simp [heapDrain, e1, e2, e3],
      sift1.trans ((s2.mono (by omega)).trans (s3.mono (by omega))), ?_⟩
    intro w hx hsuf
    apply o3 w
    · apply o2 w
      intro p c hp hc hpc _ x y hx' hy'
      rw [so p (by omega) (by omega)] at hy'
      rw [so c (by omega) (by omega)] at hx'
      exact hx p c (by omega) (by omega) hpc (by simp) x y hx' hy'
    · -- after the swap: everything before j ≥ n is at most h1[j]
      have h1suf : ∀ i j, i < j → n ≤ j → Le lt h1 i j := by
        intro i j hij hj x y hx' hy'
        have hi' : ∃ i', i' < n + 1 ∧ h1[i]? = h[i']? ∨ n + 1 ≤ i' ∧ i' = i ∧ h1[i]? = h[i']? := by
          by_cases hi : i < n + 1
          · obtain ⟨i', a, b⟩ := sift1.src i hi; exact ⟨i', Or.inl ⟨a, b⟩⟩
          · exact ⟨i, Or.inr ⟨by omega, rfl, sift1.frame i (by omega)⟩⟩
        obtain ⟨i', hi'⟩ := hi'
        by_cases hjn : j = n
        · subst hjn
          rw [sn] at hy'
          rcases hi' with ⟨a, b⟩ | ⟨a, b, c⟩
          · rw [b] at hx'; exact heap_root_max w hn hx i' a x y hx' hy'
          · omega
        · rw [so j (by omega) hjn] at hy'
          rcases hi' with ⟨a, b⟩ | ⟨a, b, c⟩
          · rw [b] at hx'; exact hsuf i' j (by omega) (by omega) x y hx' hy'
          · rw [c] at hx'; exact hsuf i' j (by omega) (by omega) x y hx' hy'
      intro i j hij hj x y hx' hy'
      rw [s2.frame j hj] at hy'
      by_cases hi : i < n
      · obtain ⟨i', a, b⟩ := s2.src i hi
        rw [b] at hx'; exact h1suf i' j (by omega) hj x y hx' hy'
      · rw [s2.frame i (by omega)] at hx'
        exact h1suf i j hij hj x y hx' hy'

theorem heapSort_spec (lt : D → D → Bool) (h : List (Int × D)) :
    ∃ h', heapSort lt h h.length = .ok h' ∧ h'.length = h.length ∧ h'.Perm h ∧
      (WeakOrd lt → ∀ i j, i < j → Le lt h' i j) := by
  obtain ⟨h1, e1, s1, o1⟩ := heapBuild_spec lt h.length (h.length / 2) h (Nat.le_refl _)
  obtain ⟨h2, e2, s2, o2⟩ := heapDrain_spec lt h.length h1 (by rw [s1.len]; omega)
  refine ⟨h2, by simp [heapSort, e1, e2], by rw [s2.len, s1.len], s2.perm.trans s1.perm, ?_⟩
  intro w
  apply o2 w (o1 w ?_)
  · intro i j hij hj x y hx hy
    rw [List.getElem?_eq_none (by rw [s1.len]; omega)] at hy; cases hy
  · intro p c hp hc hpc _; omega

end Votess
