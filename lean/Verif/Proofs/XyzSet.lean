import Verif.Model.XyzSet
import Verif.Proofs.Basic
import Mathlib.Tactic.Ring
import Mathlib.Tactic.Linarith
/-! Lemmas on the radix sort and the offset table. -/
namespace Votess

variable {α β γ : Type}

/-! ### mapM -/

theorem mapM_nil_ok (f : α → M β) : ([] : List α).mapM f = .ok [] := rfl

theorem mapM_cons_eq (f : α → M β) (x : α) (xs : List α) :
    (x :: xs).mapM f = (do let y ← f x; let ys ← xs.mapM f; pure (y :: ys)) := by
  simp [List.mapM_cons]

theorem mapM_ok_length {f : α → M β} {xs : List α} {ys : List β} (h : xs.mapM f = .ok ys) :
    ys.length = xs.length := by
  induction xs generalizing ys with
  | nil => cases h; rfl
  | cons x xs ih =>
    rw [mapM_cons_eq] at h
    obtain ⟨y, h1, h2⟩ := bind_eq_ok.mp h
    obtain ⟨ys', h3, h4⟩ := bind_eq_ok.mp h2
    cases h4; simp [ih h3]

theorem mapM_ok_get {f : α → M β} {xs : List α} {ys : List β} (h : xs.mapM f = .ok ys)
    (i : Nat) (x : α) (hx : xs[i]? = some x) : ∃ y, ys[i]? = some y ∧ f x = .ok y := by
  induction xs generalizing ys i with
  | nil => simp at hx
  | cons x0 xs ih =>
    rw [mapM_cons_eq] at h
    obtain ⟨y, h1, h2⟩ := bind_eq_ok.mp h
    obtain ⟨ys', h3, h4⟩ := bind_eq_ok.mp h2
    cases h4
    cases i with
    | zero => simp at hx; subst hx; exact ⟨y, by simp, h1⟩
    | succ i => simp at hx; simpa using ih h3 i hx

theorem mapM_ok_mem {f : α → M β} {xs : List α} {ys : List β} (h : xs.mapM f = .ok ys)
    (y : β) (hy : y ∈ ys) : ∃ x ∈ xs, f x = .ok y := by
  obtain ⟨i, hi, e⟩ := List.getElem_of_mem hy
  have hl := mapM_ok_length h
  obtain ⟨y', h1, h2⟩ := mapM_ok_get h i _ (List.getElem?_eq_getElem (by omega))
  rw [List.getElem?_eq_getElem hi, e] at h1; cases h1
  exact ⟨_, List.getElem_mem _, h2⟩

theorem mapM_ok_zip {f : α → M β} {xs : List α} {ys : List β} (h : xs.mapM f = .ok ys) :
    (ys.zip xs).map (·.2) = xs ∧ (ys.zip xs).map (·.1) = ys ∧ ∀ e ∈ ys.zip xs, f e.2 = .ok e.1 := by
  have hl := mapM_ok_length h
  refine ⟨?_, ?_, ?_⟩
  · exact List.map_snd_zip (by omega)
  · exact List.map_fst_zip (by omega)
  · intro e he
    obtain ⟨i, hi, rfl⟩ := List.getElem_of_mem he
    simp only [List.length_zip] at hi
    obtain ⟨y, h1, h2⟩ := mapM_ok_get h i (xs[i]'(by omega)) (List.getElem?_eq_getElem (by omega))
    rw [List.getElem?_eq_getElem (by omega)] at h1
    simp only [List.getElem_zip]
    cases h1; exact h2

theorem mapM_ok_of_forall {f : α → M β} {xs : List α} (h : ∀ x ∈ xs, ∃ y, f x = .ok y) :
    ∃ ys, xs.mapM f = .ok ys := by
  induction xs with
  | nil => exact ⟨[], rfl⟩
  | cons x xs ih =>
    obtain ⟨y, hy⟩ := h x (by simp)
    obtain ⟨ys, hys⟩ := ih (fun x hx => h x (List.mem_cons_of_mem _ hx))
    exact ⟨y :: ys, by rw [mapM_cons_eq, hy, hys]; rfl⟩

theorem mapM_unique {f : α → M β} {xs : List α} {ys : List β} (hl : ys.length = xs.length)
    (h : ∀ e ∈ ys.zip xs, f e.2 = .ok e.1) : xs.mapM f = .ok ys := by
  induction xs generalizing ys with
  | nil =>
    cases ys with
    | nil => rfl
    | cons => simp at hl
  | cons x xs ih =>
    cases ys with
    | nil => simp at hl
    | cons y ys =>
      rw [mapM_cons_eq, h (y, x) (by simp),
        ih (ys := ys) (by simpa using hl) (fun e he => h e (by simp [he]))]
      rfl

/-! ### one pass is a stable bucket distribution -/

/-- specification of a pass: buckets in ascending order, each in input order -/
def bucket (n : Nat) (d : α → Nat) (l : List α) : List α :=
  (List.range n).flatMap fun b => l.filter (fun e => d e == b)

theorem bucket_succ (n : Nat) (d : α → Nat) (l : List α) :
    bucket (n + 1) d l = bucket n d l ++ l.filter (fun e => d e == n) := by
  simp [bucket, List.range_succ]

theorem bucket_perm' (n : Nat) (d : α → Nat) (l : List α) :
    (bucket n d l).Perm (l.filter (fun e => decide (d e < n))) := by
  induction n with
  | zero => simp [bucket]
  | succ n ih =>
    rw [bucket_succ]
    refine (ih.append_right _).trans ?_
    have h1 : l.filter (fun e => decide (d e < n))
        = (l.filter (fun e => decide (d e < n + 1))).filter (fun e => decide (d e < n)) := by
      rw [List.filter_filter]; congr 1; funext e
      by_cases h : d e < n
      · simp [h]; omega
      · simp [h]
    have h2 : l.filter (fun e => d e == n)
        = (l.filter (fun e => decide (d e < n + 1))).filter (fun e => !decide (d e < n)) := by
      rw [List.filter_filter]; congr 1; funext e
      by_cases h : d e = n
      · simp [h]
      · by_cases h' : d e < n
        · simp [h, h']
        · have e1 : (d e == n) = false := by simpa using h
          have e2 : decide (d e < n + 1) = false := by simp; omega
          rw [e1, e2]; simp
    rw [h1, h2]
    exact List.filter_append_perm _ _

theorem bucket_perm (n : Nat) (d : α → Nat) (l : List α) (hd : ∀ e ∈ l, d e < n) :
    (bucket n d l).Perm l := by
  have := bucket_perm' n d l
  rwa [List.filter_eq_self.mpr (by simpa using hd)] at this

theorem bucket_get (n : Nat) (d : α → Nat) (l : List α) (b i : Nat) (hb : b < n)
    (hi : i < (l.filter (fun e => d e == b)).length) :
    (bucket n d l)[(bucket b d l).length + i]? = (l.filter (fun e => d e == b))[i]? := by
  induction n with
  | zero => omega
  | succ n ih =>
    rw [bucket_succ]
    by_cases h : b = n
    · subst h
      rw [List.getElem?_append_right (by omega)]
      congr 1; omega
    · have hlt : (bucket b d l).length + i < (bucket n d l).length := by
        have := ih (by omega)
        rw [List.getElem?_eq_getElem hi] at this
        exact (List.getElem?_eq_some_iff.mp this).1
      rw [List.getElem?_append_left hlt]
      exact ih (by omega)

theorem bucket_index (n : Nat) (d : α → Nat) (l : List α) (j : Nat) (hj : j < (bucket n d l).length) :
    ∃ b i, b < n ∧ i < (l.filter (fun e => d e == b)).length ∧ j = (bucket b d l).length + i := by
  induction n with
  | zero => simp [bucket] at hj
  | succ n ih =>
    by_cases h : j < (bucket n d l).length
    · obtain ⟨b, i, h1, h2, h3⟩ := ih h; exact ⟨b, i, by omega, h2, h3⟩
    · rw [bucket_succ, List.length_append] at hj
      exact ⟨n, j - (bucket n d l).length, by omega, by omega, by omega⟩

/-- number of entries in bucket `b` -/
def cnt (d : α → Nat) (l : List α) (b : Nat) : Nat := (l.filter (fun e => d e == b)).length

theorem cnt_append (d : α → Nat) (p q : List α) (b : Nat) :
    cnt d (p ++ q) b = cnt d p b + cnt d q b := by simp [cnt]

theorem digit_lt (shift : Nat) (id : Int) : digit shift id < 256 := by unfold digit; omega

theorem countDigits_spec (shift : Nat) (l : List (Int × α)) :
    ∃ c, countDigits shift l = .ok c ∧ c.length = 256 ∧
      ∀ b, b < 256 → c[b]? = some (cnt (fun e => digit shift e.1) l b) := by
  unfold countDigits
  obtain ⟨c, h1, h2, h3⟩ := foldlM_inv
    (fun p (c : List Nat) => c.length = 256 ∧
      ∀ b, b < 256 → c[b]? = some (cnt (fun e : Int × α => digit shift e.1) p b))
    l (fun count e => do
      let c ← rd count (digit shift e.1)
      wr count (digit shift e.1) (c + 1)) (List.replicate 256 0)
    ⟨List.length_replicate, by intro b hb; rw [List.getElem?_replicate, if_pos hb]; rfl⟩
    (by
      intro p x q c _ ⟨hl, hc⟩
      have hd := digit_lt shift x.1
      rw [rd_eq_ok.mpr (hc _ hd)]
      simp only [bind_ok]
      rw [wr_ok (by omega)]
      refine ⟨_, rfl, by simp [hl], ?_⟩
      intro b hb
      rw [cnt_append]
      by_cases h : digit shift x.1 = b
      · subst h
        rw [List.getElem?_set_self (by omega)]
        simp [cnt]
      · rw [List.getElem?_set_ne h, hc b hb]
        simp [cnt, h])
  exact ⟨c, h1, h2, h3⟩

theorem prefixSums_spec (d : α → Nat) (l : List α) (c : List Nat) (hl : c.length = 256)
    (hc : ∀ b, b < 256 → c[b]? = some (cnt d l b)) :
    ∃ c', prefixSums c = .ok c' ∧ c'.length = 256 ∧
      ∀ b, b < 256 → c'[b]? = some (bucket (b + 1) d l).length := by
  unfold prefixSums
  have := forN_inv (fun i (c' : List Nat) => c'.length = 256 ∧
      ∀ b, b < 256 → c'[b]? = some (if b ≤ i then (bucket (b + 1) d l).length else cnt d l b))
    255 (fun i count => do
      let a ← rd count (i + 1)
      let b ← rd count i
      wr count (i + 1) (a + b)) c
    ⟨hl, by
      intro b hb
      rw [hc b hb]
      by_cases h : b ≤ 0
      · rw [if_pos h]
        have : b = 0 := by omega
        subst this; rw [bucket_succ]; simp [cnt, bucket]
      · rw [if_neg h]⟩
    (by
      intro i c hi ⟨hl, hc⟩
      rw [rd_eq_ok.mpr (hc (i + 1) (by omega)), rd_eq_ok.mpr (hc i (by omega))]
      simp only [bind_ok]
      rw [wr_ok (by omega)]
      refine ⟨_, rfl, by simp [hl], ?_⟩
      intro b hb
      by_cases h : i + 1 = b
      · subst h
        rw [List.getElem?_set_self (by omega)]
        simp
        rw [bucket_succ (i + 1), List.length_append]; simp only [cnt]; omega
      · rw [List.getElem?_set_ne h, hc b hb]
        by_cases h2 : b ≤ i
        · simp [h2, show b ≤ i + 1 by omega]
        · simp [h2, show ¬ b ≤ i + 1 by omega])
  obtain ⟨c', h1, h2, h3⟩ := this
  exact ⟨c', h1, h2, fun b hb => by rw [h3 b hb, if_pos (by omega)]⟩

theorem bucket_length_mono (d : α → Nat) (l : List α) {a b : Nat} (h : a ≤ b) :
    (bucket a d l).length ≤ (bucket b d l).length := by
  induction b with
  | zero => have : a = 0 := by omega
            subst this; exact Nat.le_refl _
  | succ b ih =>
    by_cases e : a = b + 1
    · subst e; exact Nat.le_refl _
    · rw [bucket_succ, List.length_append]; have := ih (by omega); omega

theorem radixPass_eq (shift : Nat) (l tmp : List (Int × α)) (ht : tmp.length = l.length) :
    radixPass shift l tmp = .ok (bucket 256 (fun e => digit shift e.1) l) := by
  unfold radixPass
  obtain ⟨c, hc1, hc2, hc3⟩ := countDigits_spec shift l
  obtain ⟨c', hp1, hp2, hp3⟩ := prefixSums_spec (fun e : Int × α => digit shift e.1) l c hc2 hc3
  rw [hc1]; simp only [bind_ok]; rw [hp1]; simp only [bind_ok]
  generalize hd : (fun e : Int × α => digit shift e.1) = d at *
  have hdlt : ∀ e, d e < 256 := by intro e; rw [← hd]; exact digit_lt _ _
  have htot : (bucket 256 d l).length = l.length := (bucket_perm 256 d l (fun e _ => hdlt e)).length_eq
  -- invariant over the processed suffix `q.reverse`
  have key := foldlM_inv (fun (q : List (Int × α)) (st : List Nat × List (Int × α)) =>
      st.1.length = 256 ∧ st.2.length = l.length ∧
      ∀ p, l = p ++ q.reverse → ∀ b, b < 256 →
        st.1[b]? = some ((bucket b d l).length + cnt d p b) ∧
        ∀ i, i < cnt d q.reverse b → st.2[(bucket b d l).length + cnt d p b + i]?
          = (q.reverse.filter (fun e => d e == b))[i]?)
    l.reverse (fun st e => placeStep shift e st) (c', tmp)
    (by
      refine ⟨hp2, ht, ?_⟩
      intro p hp b hb
      simp at hp; subst hp
      refine ⟨?_, ?_⟩
      · rw [hp3 b hb, bucket_succ, List.length_append]; rfl
      · intro i hi; simp [cnt] at hi)
    (by
      intro q x r st hl ⟨h1, h2, h3⟩
      have hl' : l = (r.reverse ++ [x]) ++ q.reverse := by
        have := congrArg List.reverse hl; simpa using this
      have hx : digit shift x.1 = d x := by rw [← hd]
      have h3' := h3 _ hl'
      unfold placeStep
      simp only [hx]
      rw [rd_eq_ok.mpr (h3' (d x) (hdlt x)).1]
      have hcx : cnt d (r.reverse ++ [x]) (d x) = cnt d r.reverse (d x) + 1 := by
        rw [cnt_append]; simp [cnt]
      simp only [bind_ok]
      rw [if_neg (by omega), wr_ok (by rw [h1]; exact hdlt x)]
      simp only [bind_ok]
      have hle : (bucket (d x) d l).length + cnt d l (d x) ≤ l.length := by
        rw [← htot]
        calc _ = (bucket (d x + 1) d l).length := by rw [bucket_succ, List.length_append]; rfl
          _ ≤ _ := bucket_length_mono d l (hdlt x)
      have hcl : ∀ b, cnt d l b = cnt d (r.reverse ++ [x]) b + cnt d q.reverse b := by
        intro b; rw [← cnt_append, ← hl']
      have hcl' := hcl (d x)
      rw [wr_ok (by omega)]
      refine ⟨_, rfl, by simp [h1], by simp [h2], ?_⟩
      intro p hp b hb
      have hpr : p = r.reverse := by
        have e : l = r.reverse ++ ((q ++ [x]).reverse) := by rw [hl']; simp
        rw [e] at hp
        exact (List.append_cancel_right hp).symm
      subst hpr
      obtain ⟨g1, g2⟩ := h3' b hb
      by_cases hbx : d x = b
      · subst hbx
        refine ⟨?_, ?_⟩
        · rw [List.getElem?_set_self (by rw [h1]; exact hdlt x)]
          congr 1; omega
        · intro i hi
          simp only [List.reverse_append, List.reverse_cons, List.reverse_nil, List.nil_append,
            List.singleton_append, List.filter_cons, beq_self_eq_true, if_true]
          cases i with
          | zero =>
            rw [show (bucket (d x) d l).length + cnt d r.reverse (d x) + 0
              = (bucket (d x) d l).length + cnt d (r.reverse ++ [x]) (d x) - 1 by omega]
            rw [List.getElem?_set_self (by omega)]; rfl
          | succ i =>
            rw [List.getElem?_set_ne (by omega)]
            have := g2 i (by simp [cnt] at hi ⊢; omega)
            rw [hcx] at this
            rw [show (bucket (d x) d l).length + cnt d r.reverse (d x) + (i + 1)
              = (bucket (d x) d l).length + (cnt d r.reverse (d x) + 1) + i by omega, this]
            rfl
      · have hcb : cnt d (r.reverse ++ [x]) b = cnt d r.reverse b := by
          rw [cnt_append]; simp [cnt, hbx]
        refine ⟨?_, ?_⟩
        · rw [List.getElem?_set_ne hbx, g1, hcb]
        · intro i hi
          have hbx' : (d x == b) = false := by simpa using hbx
          have hf : (q ++ [x]).reverse.filter (fun e => d e == b)
              = q.reverse.filter (fun e => d e == b) := by simp [hbx']
          have hi' : i < cnt d q.reverse b := by unfold cnt at hi ⊢; rwa [hf] at hi
          rw [hf]
          have := g2 i hi'
          rw [hcb] at this
          rw [List.getElem?_set_ne]
          · exact this
          · -- different buckets do not overlap
            intro he
            have hclb := hcl b
            rw [hcb] at hclb
            have b1 : (bucket (d x) d l).length + cnt d l (d x) = (bucket (d x + 1) d l).length := by
              rw [bucket_succ, List.length_append]; rfl
            have b2 : (bucket b d l).length + cnt d l b = (bucket (b + 1) d l).length := by
              rw [bucket_succ, List.length_append]; rfl
            rcases Nat.lt_or_gt_of_ne hbx with h | h
            · have := bucket_length_mono d l (show d x + 1 ≤ b from h); omega
            · have := bucket_length_mono d l (show b + 1 ≤ d x from h); omega)
  obtain ⟨st, k1, k2, k3, k4⟩ := key
  rw [k1]; simp only [bind_ok, pure_eq_ok]
  congr 1
  have k4' := k4 [] (by simp)
  apply List.ext_getElem?
  intro j
  by_cases hj : j < (bucket 256 d l).length
  · obtain ⟨b, i, h1, h2, rfl⟩ := bucket_index 256 d l j hj
    rw [bucket_get 256 d l b i h1 h2]
    have := (k4' b h1).2 i (by simpa [cnt] using h2)
    simpa [cnt] using this
  · rw [List.getElem?_eq_none (by omega), List.getElem?_eq_none (by omega)]

/-- all passes -/
def buckets : Nat → Nat → List (Int × α) → List (Int × α)
  | 0, _, l => l
  | n + 1, shift, l => buckets n (shift + 8) (bucket 256 (fun e => digit shift e.1) l)

theorem radixPasses_eq (n shift : Nat) (l tmp : List (Int × α)) (ht : tmp.length = l.length) :
    radixPasses n shift l tmp = .ok (buckets n shift l) := by
  induction n generalizing shift l tmp with
  | zero => rfl
  | succ n ih =>
    simp only [radixPasses, radixPass_eq shift l tmp ht, bind_ok]
    exact ih _ _ _ rfl

theorem buckets_perm (n shift : Nat) (l : List (Int × α)) : (buckets n shift l).Perm l := by
  induction n generalizing shift l with
  | zero => exact .refl _
  | succ n ih => exact (ih _ _).trans (bucket_perm _ _ _ (fun _ _ => digit_lt _ _))

theorem bucket_stable (n : Nat) (d : α → Nat) (l : List α) (P : α → Bool) (b : Nat) (hb : b < n)
    (hP : ∀ e ∈ l, P e = true → d e = b) : (bucket n d l).filter P = l.filter P := by
  have h0 : ∀ m, m ≤ b → (bucket m d l).filter P = [] := by
    intro m hm
    rw [List.filter_eq_nil_iff]
    intro e he hPe
    have := (bucket_perm' m d l).mem_iff.mp he
    simp at this
    have := hP e this.1 hPe; omega
  have h1 : ∀ m, b < m → (bucket m d l).filter P = l.filter P := by
    intro m
    induction m with
    | zero => intro h; omega
    | succ m ih =>
      intro hm
      rw [bucket_succ, List.filter_append, List.filter_filter]
      by_cases e : b = m
      · subst e
        rw [h0 b (Nat.le_refl _), List.nil_append]
        apply List.filter_congr
        intro x hx
        by_cases hp : P x = true
        · simp [hP x hx hp]
        · simp [hp]
      · rw [ih (by omega)]
        suffices l.filter (fun a => P a && (d a == m)) = [] by rw [this, List.append_nil]
        rw [List.filter_eq_nil_iff]
        intro x hx hp
        simp at hp
        have := hP x hx hp.1; omega
  exact h1 n hb

theorem buckets_stable (n shift : Nat) (l : List (Int × α)) (c : Int) :
    (buckets n shift l).filter (fun e => e.1 == c) = l.filter (fun e => e.1 == c) := by
  induction n generalizing shift l with
  | zero => rfl
  | succ n ih =>
    rw [buckets, ih]
    exact bucket_stable _ _ _ _ (digit shift c) (digit_lt _ _)
      (by intro e _ he; simp at he; rw [he])

theorem key_step (id : Int) (j : Nat) :
    id % 256 ^ (j + 1) = id % 256 ^ j + 256 ^ j * (digit (8 * j) id : Int) := by
  have hsh : id >>> (8 * j) = id / 256 ^ j := by
    rw [Int.shiftRight_eq_div_pow, Nat.pow_mul]; norm_num
  unfold digit
  rw [hsh]
  have : 0 ≤ id / 256 ^ j % 256 := Int.emod_nonneg _ (by decide)
  rw [Int.toNat_of_nonneg this, pow_succ]
  rw [Int.emod_def id, Int.emod_def id, Int.emod_def (id / 256 ^ j),
    Int.ediv_ediv_of_nonneg (by positivity)]
  ring

theorem bucket_sorted (j : Nat) (l : List (Int × α))
    (h : l.Pairwise (fun a b => a.1 % 256 ^ j ≤ b.1 % 256 ^ j)) :
    (bucket 256 (fun e => digit (8 * j) e.1) l).Pairwise
      (fun a b => a.1 % 256 ^ (j + 1) ≤ b.1 % 256 ^ (j + 1)) := by
  unfold bucket
  rw [List.pairwise_flatMap]
  have hpos : (0 : Int) < 256 ^ j := by positivity
  refine ⟨?_, ?_⟩
  · intro b _
    refine (h.filter _).imp_of_mem ?_
    intro x y hx hy hxy
    simp only [List.mem_filter, beq_iff_eq] at hx hy
    rw [key_step, key_step, hx.2, hy.2]; linarith
  · refine List.pairwise_lt_range.imp ?_
    intro b b' hbb x hx y hy
    simp only [List.mem_filter, beq_iff_eq] at hx hy
    rw [key_step, key_step, hx.2, hy.2]
    have h1 := Int.emod_lt_of_pos x.1 hpos
    have h2 := Int.emod_nonneg y.1 (ne_of_gt hpos)
    have h3 : (b : Int) + 1 ≤ b' := by exact_mod_cast hbb
    nlinarith

theorem buckets_sorted (n j : Nat) (l : List (Int × α))
    (h : l.Pairwise (fun a b => a.1 % 256 ^ j ≤ b.1 % 256 ^ j)) :
    (buckets n (8 * j) l).Pairwise (fun a b => a.1 % 256 ^ (j + n) ≤ b.1 % 256 ^ (j + n)) := by
  induction n generalizing j l with
  | zero => simpa [buckets] using h
  | succ n ih =>
    rw [buckets]
    have := ih (j + 1) _ (bucket_sorted j l h)
    rw [show 8 * (j + 1) = 8 * j + 8 by ring] at this
    rw [show j + (n + 1) = j + 1 + n by ring]
    exact this

theorem radix_sorted (nb : Nat) (l : List (Int × α)) (h : ∀ e ∈ l, 0 ≤ e.1 ∧ e.1 < 256 ^ nb) :
    (buckets nb 0 l).Pairwise (fun a b => a.1 ≤ b.1) := by
  have h0 : l.Pairwise (fun a b => a.1 % 256 ^ 0 ≤ b.1 % 256 ^ 0) := by
    rw [List.pairwise_iff_getElem]; intro i j _ _ _; simp [Int.emod_one]
  have := buckets_sorted nb 0 l h0
  rw [Nat.zero_add] at this
  refine this.imp_of_mem ?_
  intro a b ha hb hab
  have ha' := h a ((buckets_perm _ _ _).mem_iff.mp ha)
  have hb' := h b ((buckets_perm _ _ _).mem_iff.mp hb)
  rwa [Int.emod_eq_of_lt ha'.1 ha'.2, Int.emod_eq_of_lt hb'.1 hb'.2] at hab

/-- a sorted list is determined by its sublists of equal keys -/
theorem sorted_unique (l1 l2 : List (Int × α)) (h1 : l1.Pairwise (fun a b => a.1 ≤ b.1))
    (h2 : l2.Pairwise (fun a b => a.1 ≤ b.1))
    (hf : ∀ c, l1.filter (fun e => e.1 == c) = l2.filter (fun e => e.1 == c)) : l1 = l2 := by
  induction l1 generalizing l2 with
  | nil =>
    cases l2 with
    | nil => rfl
    | cons b t => have := hf b.1; simp at this
  | cons a t1 ih =>
    cases l2 with
    | nil => have := hf a.1; simp at this
    | cons b t2 =>
      rw [List.pairwise_cons] at h1 h2
      have hab : a.1 ≤ b.1 := by
        have hb : b ∈ (a :: t1).filter (fun e => e.1 == b.1) := by rw [hf]; simp
        rcases List.mem_cons.mp (List.mem_filter.mp hb).1 with h | h
        · rw [h]
        · exact h1.1 _ h
      have hba : b.1 ≤ a.1 := by
        have ha : a ∈ (b :: t2).filter (fun e => e.1 == a.1) := by rw [← hf]; simp
        rcases List.mem_cons.mp (List.mem_filter.mp ha).1 with h | h
        · rw [h]
        · exact h2.1 _ h
      have hid : a.1 = b.1 := le_antisymm hab hba
      have hab' : a = b := by
        have := hf a.1
        simp only [List.filter_cons, beq_self_eq_true, if_true, hid] at this
        exact (List.cons.inj this).1
      subst hab'
      congr 1
      apply ih t2 h1.2 h2.2
      intro c
      have := hf c
      simp only [List.filter_cons] at this
      split at this
      · exact (List.cons.inj this).2
      · exact this

/-! ### offset table -/

theorem offsetCount_spec (gr : Int) (ids : List Int) (hids : ∀ c ∈ ids, -1 ≤ c ∧ c < gr * gr * gr) :
    ∃ off, offsetCount gr ids = .ok off ∧ off.length = (gr * gr * gr + 1).toNat ∧
      ∀ b : Nat, b < off.length → off[b]? = some (((ids.filter (fun c => c + 1 == (b : Int))).length : Nat) : Int) := by
  unfold offsetCount
  obtain ⟨c, h1, h2, h3⟩ := foldlM_inv
    (fun p (off : List Int) => off.length = (gr * gr * gr + 1).toNat ∧
      ∀ b : Nat, b < off.length → off[b]? = some (((p.filter (fun c => c + 1 == (b : Int))).length : Nat) : Int))
    ids (fun off id => do
      let c ← rdI off (id + 1)
      wrI off (id + 1) (c + 1)) (List.replicate (gr * gr * gr + 1).toNat 0)
    ⟨by simp, by intro b hb; simp at hb; simp [hb]⟩
    (by
      intro p x q off hl ⟨h1, h2⟩
      have hx := hids x (by simp [hl])
      obtain ⟨m, hm⟩ : ∃ m : Nat, x + 1 = m := ⟨(x + 1).toNat, by omega⟩
      have hmlt : m < off.length := by omega
      rw [hm, rdI_natCast, rd_eq_ok.mpr (h2 m hmlt)]
      simp only [bind_ok]
      rw [wrI_natCast, wr_ok hmlt]
      refine ⟨_, rfl, by simp [h1], ?_⟩
      intro b hb
      simp only [List.length_set] at hb
      by_cases e : m = b
      · subst e
        rw [List.getElem?_set_self hmlt]
        simp [hm]
      · rw [List.getElem?_set_ne e, h2 b hb]
        have : (x + 1 == (b : Int)) = false := by simp; omega
        simp [this])
  exact ⟨c, h1, h2, h3⟩

theorem offsetCount_oob (gr : Int) (ids : List Int) (hgr : 0 ≤ gr * gr * gr + 1)
    (h : ∃ c ∈ ids, ¬ (-1 ≤ c ∧ c < gr * gr * gr)) : offsetCount gr ids = .error .oob := by
  unfold offsetCount
  suffices H : ∀ off : List Int, off.length = (gr * gr * gr + 1).toNat →
      ids.foldlM (fun off id => (do
        let c ← rdI off (id + 1)
        wrI off (id + 1) (c + 1) : M (List Int))) off = .error .oob from H _ (by simp)
  induction ids with
  | nil => obtain ⟨c, hc, _⟩ := h; simp at hc
  | cons x ids ih =>
    intro off hl
    rw [List.foldlM_cons]
    by_cases hx : -1 ≤ x ∧ x < gr * gr * gr
    · obtain ⟨m, hm⟩ : ∃ m : Nat, x + 1 = m := ⟨(x + 1).toNat, by omega⟩
      have hmlt : m < off.length := by omega
      rw [hm, rdI_natCast, rd_ok hmlt]
      simp only [bind_ok]
      rw [wrI_natCast, wr_ok hmlt]
      simp only [bind_ok]
      apply ih
      · obtain ⟨c, hc, hc'⟩ := h
        rcases List.mem_cons.mp hc with rfl | hc
        · exact absurd hx hc'
        · exact ⟨c, hc, hc'⟩
      · simp [hl]
    · have : rdI off (x + 1) = .error .oob := by
        unfold rdI
        split
        · exact rd_oob (by omega)
        · rfl
      rw [this]; rfl

theorem offsetScan_length (acc : Int) (l : List Int) : (offsetScan acc l).length = l.length := by
  induction l generalizing acc with
  | nil => rfl
  | cons o l ih => simp [offsetScan, ih]

theorem offsetScan_get (acc : Int) (l : List Int) (i : Nat) (hi : i < l.length) :
    (offsetScan acc l)[i]? = some (acc + (l.take (i + 1)).sum) := by
  induction l generalizing acc i with
  | nil => simp at hi
  | cons o l ih =>
    cases i with
    | zero => simp [offsetScan]
    | succ i =>
      simp only [offsetScan, List.getElem?_cons_succ]
      rw [ih _ _ (by simpa using hi)]
      simp [add_assoc]

theorem sum_take_counts (ids : List Int) (off : List Int)
    (h : ∀ b : Nat, b < off.length →
      off[b]? = some (((ids.filter (fun c => c + 1 == (b : Int))).length : Nat) : Int))
    (hids : ∀ c ∈ ids, -1 ≤ c) (m : Nat) (hm : m ≤ off.length) :
    (off.take m).sum = (((ids.filter (fun c => decide (c + 1 < (m : Int)))).length : Nat) : Int) := by
  induction m with
  | zero =>
    rw [List.filter_eq_nil_iff.mpr]
    · simp
    · intro c hc; have := hids c hc; simp; omega
  | succ m ih =>
    rw [List.take_add_one, h m (by omega)]
    simp only [Option.toList_some, List.sum_append, List.sum_cons, List.sum_nil, add_zero]
    rw [ih (by omega), ← Nat.cast_add]
    congr 1
    clear ih h
    induction ids with
    | nil => simp
    | cons c ids ih' =>
      have := ih' (fun c hc => hids c (List.mem_cons_of_mem _ hc))
      have hc := hids c (by simp)
      simp only [List.filter_cons]
      by_cases h1 : c + 1 < (m : Int)
      · have h2 : ¬ c + 1 = (m : Int) := by omega
        have h3 : c + 1 < (m : Int) + 1 := by omega
        simp [h1, h2, h3] at this ⊢; omega
      · by_cases h2 : c + 1 = (m : Int)
        · have h3 : c + 1 < (m : Int) + 1 := by omega
          simp [h2] at this ⊢; omega
        · have h3 : ¬ c + 1 < (m : Int) + 1 := by omega
          simp [h1, h2, h3] at this ⊢; omega

/-- the table: entry `c` is the number of ids below `c` -/
theorem offsetTable_spec (gr : Int) (ids : List Int) (hgr : 0 ≤ gr * gr * gr)
    (hids : ∀ c ∈ ids, 0 ≤ c ∧ c < gr * gr * gr) :
    ∃ off, offsetTable gr ids = .ok off ∧ off.length = (gr * gr * gr + 1).toNat ∧
      ∀ c : Nat, c < off.length →
        off[c]? = some (((ids.filter (fun x => decide (x < (c : Int)))).length : Nat) : Int) := by
  obtain ⟨off, h1, h2, h3⟩ := offsetCount_spec gr ids
    (fun c hc => ⟨by have := (hids c hc).1; omega, (hids c hc).2⟩)
  unfold offsetTable
  rw [h1]; simp only [bind_ok]
  rw [wr_ok (by rw [offsetScan_length]; omega)]
  refine ⟨_, rfl, by simp [offsetScan_length, h2], ?_⟩
  intro c hc
  simp only [List.length_set, offsetScan_length] at hc
  have hval : (offsetScan 0 off)[c]?
      = some (((ids.filter (fun x => decide (x < (c : Int)))).length : Nat) : Int) := by
    rw [offsetScan_get 0 off c hc, zero_add,
      sum_take_counts ids off h3 (fun c hc => by have := (hids c hc).1; omega) (c + 1) (by omega)]
    congr 4
    funext x; simp
  by_cases e : (offsetScan 0 off).length - 1 = c
  · rw [e, List.getElem?_set_self (by rw [offsetScan_length]; omega)]
    congr 2
    rw [List.filter_eq_self.mpr]
    intro x hx
    have := (hids x hx).2
    rw [offsetScan_length] at e
    simp; omega
  · rw [List.getElem?_set_ne e, hval]

theorem sorted_count_lt (ids : List Int) (hs : ids.Pairwise (· ≤ ·)) (c : Int) (i : Nat) (x : Int)
    (hx : ids[i]? = some x) : x < c ↔ i < (ids.filter (fun x => decide (x < c))).length := by
  induction ids generalizing i with
  | nil => simp at hx
  | cons a t ih =>
    rw [List.pairwise_cons] at hs
    cases i with
    | zero =>
      simp at hx; subst hx
      by_cases h : a < c
      · simp [h]
      · rw [List.filter_cons_of_neg (by simpa using h)]
        have : t.filter (fun x => decide (x < c)) = [] := by
          rw [List.filter_eq_nil_iff]; intro y hy; have := hs.1 y hy; simp; omega
        simp [this, h]
    | succ i =>
      simp at hx
      have := ih hs.2 i hx
      by_cases h : a < c
      · rw [List.filter_cons_of_pos (by simpa using h)]; simpa using this
      · rw [List.filter_cons_of_neg (by simpa using h)]
        have hax := hs.1 x (List.mem_of_getElem? hx)
        have h0 : t.filter (fun x => decide (x < c)) = [] := by
          rw [List.filter_eq_nil_iff]; intro y hy; have := hs.1 y hy; simp; omega
        rw [h0] at this ⊢; simp at this ⊢; omega

end Votess
