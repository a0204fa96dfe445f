import Verif.Model.Basic
/-! Lemmas on checked accesses and counted loops. -/
namespace Votess

variable {α σ : Type}

theorem rd_eq_ok {a : List α} {i : Nat} {x : α} : rd a i = .ok x ↔ a[i]? = some x := by
  unfold rd; split <;> simp_all

theorem rd_ok {a : List α} {i : Nat} (h : i < a.length) : rd a i = .ok a[i] := by
  rw [rd_eq_ok]; exact List.getElem?_eq_getElem h

theorem rd_lt {a : List α} {i : Nat} {x : α} (h : rd a i = .ok x) : i < a.length := by
  rw [rd_eq_ok] at h; exact (List.getElem?_eq_some_iff.mp h).1

theorem rd_oob {a : List α} {i : Nat} (h : a.length ≤ i) : rd a i = .error .oob := by
  unfold rd; rw [List.getElem?_eq_none h]

theorem wr_ok {a : List α} {i : Nat} (h : i < a.length) (v : α) : wr a i v = .ok (a.set i v) := by
  simp [wr, h]

theorem wr_eq_ok {a b : List α} {i : Nat} {v : α} :
    wr a i v = .ok b ↔ i < a.length ∧ b = a.set i v := by
  unfold wr; split
  · simp_all [eq_comm]
  · constructor
    · intro h; cases h
    · intro h; omega

theorem rdI_eq_ok {a : List α} {i : Int} {x : α} :
    rdI a i = .ok x ↔ 0 ≤ i ∧ a[i.toNat]? = some x := by
  unfold rdI; split
  · simp [rd_eq_ok, *]
  · simp [*]

theorem rdI_natCast {a : List α} {i : Nat} : rdI a (i : Int) = rd a i := by
  unfold rdI; simp

theorem wrI_natCast {a : List α} {i : Nat} {v : α} : wrI a (i : Int) v = wr a i v := by
  unfold wrI; simp

theorem swp_ok {a : List α} {i j : Nat} (hi : i < a.length) (hj : j < a.length) :
    swp a i j = .ok ((a.set i a[j]).set j a[i]) := by
  simp [swp, rd_ok hi, rd_ok hj, wr_ok hi, bind, Except.bind]
  rw [wr_ok (by simpa using hj)]

@[simp] theorem bind_ok {β : Type} (x : α) (f : α → M β) : ((Except.ok x : M α) >>= f) = f x := rfl
@[simp] theorem bind_error {β : Type} (e : UB) (f : α → M β) :
    ((Except.error e : M α) >>= f) = .error e := rfl
@[simp] theorem pure_eq_ok (x : α) : (pure x : M α) = .ok x := rfl
@[simp] theorem map_ok {β : Type} (x : α) (f : α → β) :
    (f <$> (Except.ok x : M α)) = .ok (f x) := rfl

theorem bind_eq_ok {β : Type} {m : M α} {f : α → M β} {y : β} :
    (m >>= f) = .ok y ↔ ∃ x, m = .ok x ∧ f x = .ok y := by
  cases m with
  | error e => simp
  | ok x => simp

@[simp] theorem forN_zero (body : Nat → σ → M σ) (s : σ) : forN 0 body s = .ok s := rfl

theorem forN_succ (n : Nat) (body : Nat → σ → M σ) (s : σ) :
    forN (n + 1) body s = forN n body s >>= body n := by
  simp only [forN, List.range_succ, List.foldlM_append, List.foldlM_cons, List.foldlM_nil]
  cases List.foldlM (fun s i => body i s) s (List.range n) with
  | error e => rfl
  | ok x => simp only [bind_ok]; cases body n x <;> rfl

/-- Loop rule for counted loops: an invariant that each iteration preserves. -/
theorem forN_inv (Inv : Nat → σ → Prop) (n : Nat) (body : Nat → σ → M σ) (s : σ)
    (h0 : Inv 0 s)
    (hs : ∀ i s, i < n → Inv i s → ∃ s', body i s = .ok s' ∧ Inv (i + 1) s') :
    ∃ s', forN n body s = .ok s' ∧ Inv n s' := by
  induction n with
  | zero => exact ⟨s, rfl, h0⟩
  | succ n ih =>
    obtain ⟨s1, h1, h2⟩ := ih (fun i s hi => hs i s (by omega))
    obtain ⟨s2, h3, h4⟩ := hs n s1 (by omega) h2
    exact ⟨s2, by rw [forN_succ, h1]; simpa using h3, h4⟩

theorem foldlM_inv {β : Type} (Inv : List β → σ → Prop) (l : List β) (f : σ → β → M σ) (s : σ)
    (h0 : Inv [] s)
    (hs : ∀ p x q s, l = p ++ x :: q → Inv p s → ∃ s', f s x = .ok s' ∧ Inv (p ++ [x]) s') :
    ∃ s', l.foldlM f s = .ok s' ∧ Inv l s' := by
  suffices H : ∀ (q p : List β) (s : σ), l = p ++ q → Inv p s →
      ∃ s', q.foldlM f s = .ok s' ∧ Inv l s' from H l [] s rfl h0
  intro q
  induction q with
  | nil => intro p s h hi; exact ⟨s, rfl, by simpa [h] using hi⟩
  | cons x q ih =>
    intro p s h hi
    obtain ⟨s1, h1, h2⟩ := hs p x q s h hi
    obtain ⟨s2, h3, h4⟩ := ih (p ++ [x]) s1 (by simp [h]) h2
    exact ⟨s2, by simp [List.foldlM_cons, h1, h3], h4⟩

theorem irange_eq_nil {lo hi : Int} (h : hi ≤ lo) : irange lo hi = [] := by
  simp [irange, Int.toNat_eq_zero.mpr (by omega : hi - lo ≤ 0)]

theorem mem_irange {lo hi x : Int} : x ∈ irange lo hi ↔ lo ≤ x ∧ x < hi := by
  simp only [irange, List.mem_map, List.mem_range]
  constructor
  · rintro ⟨j, hj, rfl⟩; omega
  · rintro ⟨h1, h2⟩; exact ⟨(x - lo).toNat, by omega, by omega⟩

theorem irange_nodup (lo hi : Int) : (irange lo hi).Nodup := by
  unfold irange
  refine List.Pairwise.map _ ?_ List.nodup_range
  intro a b hab h; omega

theorem length_irange (lo hi : Int) : (irange lo hi).length = (hi - lo).toNat := by
  simp [irange]

end Votess
