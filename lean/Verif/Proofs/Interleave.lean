import Verif.Spec.Conc
/-!
# Threads with separate footprints

If every thread, run alone, only writes inside its own region and only reads where no other thread
writes, then every interleaving ends in the memory of the sequential execution.
-/
namespace Votess

variable {F E α β : Type}

/-- `p`, started alone in `m`, ends after `n` accesses with result `a` in `m'`; it reads inside `R`
and writes inside `W`, always at allocated locations -/
def Safe (R W : Loc → Prop) : Prog F E α → Mem F E → Nat → α → Mem F E → Prop
  | .ret b, m, n, a, m' => n = 0 ∧ b = a ∧ m' = m
  | .err _, _, _, _, _ => False
  | .get l k, m, n, a, m' => ∃ v n', n = n' + 1 ∧ R l ∧ m l = some v ∧ Safe R W (k v) m n' a m'
  | .put l v k, m, n, a, m' => ∃ w n', n = n' + 1 ∧ W l ∧ m l = some w ∧
      Safe R W k (m.set l v) n' a m'

theorem Safe.bind {R W : Loc → Prop} {p : Prog F E α} {f : α → Prog F E β} {m m1 m2 : Mem F E}
    {n1 n2 : Nat} {a : α} {b : β} (hp : Safe R W p m n1 a m1) (hf : Safe R W (f a) m1 n2 b m2) :
    Safe R W (p >>= f) m (n1 + n2) b m2 := by
  show Safe R W (p.bind f) m (n1 + n2) b m2
  induction p generalizing m n1 with
  | ret c =>
    obtain ⟨rfl, rfl, rfl⟩ := hp
    rw [Nat.zero_add]; exact hf
  | err e => exact hp.elim
  | get l k ih =>
    obtain ⟨v, n', rfl, hR, hm, h⟩ := hp
    exact ⟨v, n' + n2, by omega, hR, hm, ih v h⟩
  | put l v k ih =>
    obtain ⟨w, n', rfl, hW, hm, h⟩ := hp
    exact ⟨w, n' + n2, by omega, hW, hm, ih h⟩

theorem Safe.mono {R W R' W' : Loc → Prop} (hR : ∀ l, R l → R' l) (hW : ∀ l, W l → W' l)
    {p : Prog F E α} {m m' : Mem F E} {n : Nat} {a : α} (h : Safe R W p m n a m') :
    Safe R' W' p m n a m' := by
  induction p generalizing m n with
  | ret c => exact h
  | err e => exact h
  | get l k ih =>
    obtain ⟨v, n', e, h1, h2, h3⟩ := h
    exact ⟨v, n', e, hR l h1, h2, ih v h3⟩
  | put l v k ih =>
    obtain ⟨w, n', e, h1, h2, h3⟩ := h
    exact ⟨w, n', e, hW l h1, h2, ih h3⟩

/-- locations outside `W` keep their contents -/
theorem Safe.frame {R W : Loc → Prop} {p : Prog F E α} {m m' : Mem F E} {n : Nat} {a : α}
    (h : Safe R W p m n a m') {l : Loc} (hl : ¬ W l) : m' l = m l := by
  induction p generalizing m n with
  | ret c => rw [h.2.2]
  | err e => exact h.elim
  | get l k ih =>
    obtain ⟨v, n', e, h1, h2, h3⟩ := h
    exact ih v h3
  | put l' v k ih =>
    obtain ⟨w, n', e, h1, h2, h3⟩ := h
    rw [ih h3]
    unfold Mem.set
    rw [if_neg (fun e : l = l' => hl (e ▸ h1))]

/-- only the contents of `R` matter -/
theorem Safe.local {R W : Loc → Prop} (hWR : ∀ l, W l → R l) {p : Prog F E α} {m m' : Mem F E}
    {n : Nat} {a : α} (h : Safe R W p m n a m') {t : Mem F E} (ht : ∀ l, R l → t l = m l) :
    ∃ t', Safe R W p t n a t' ∧ ∀ l, R l → t' l = m' l := by
  induction p generalizing m n t with
  | ret c =>
    obtain ⟨rfl, rfl, rfl⟩ := h
    exact ⟨t, ⟨rfl, rfl, rfl⟩, ht⟩
  | err e => exact h.elim
  | get l k ih =>
    obtain ⟨v, n', e, h1, h2, h3⟩ := h
    obtain ⟨t', h4, h5⟩ := ih v h3 ht
    exact ⟨t', ⟨v, n', e, h1, by rw [ht l h1]; exact h2, h4⟩, h5⟩
  | put l v k ih =>
    obtain ⟨w, n', e, h1, h2, h3⟩ := h
    obtain ⟨t', h4, h5⟩ := ih h3 (t := t.set l v) (by
      intro l' hl'
      unfold Mem.set
      split
      · rfl
      · exact ht l' hl')
    exact ⟨t', ⟨w, n', e, h1, by rw [ht l (hWR l h1)]; exact h2, h4⟩, h5⟩

theorem sum_set_pred {ns : List Nat} {i n : Nat} (h : ns[i]? = some (n + 1)) :
    (ns.set i n).sum + 1 = ns.sum := by
  induction ns generalizing i with
  | nil => simp at h
  | cons x ns ih =>
    cases i with
    | zero => simp at h; subst h; simp; omega
    | succ i =>
      simp only [List.getElem?_cons_succ] at h
      have := ih h
      simp only [List.set_cons_succ, List.sum_cons]
      omega

/-- invariant of all interleavings; `mf` is the final memory, `ns` counts the accesses left -/
structure Inv (N : Nat) (R W : Nat → Loc → Prop) (mf : Mem F E) (s : Sys F E) (ns : List Nat) :
    Prop where
  len : s.ths.length = N
  nlen : ns.length = N
  safe : ∀ i, i < N → ∃ p n m', s.ths[i]? = some p ∧ ns[i]? = some n ∧
    Safe (R i) (W i) p s.mem n () m' ∧ ∀ l, W i l → m' l = mf l
  rest : ∀ l, (∀ i, i < N → ¬ W i l) → s.mem l = mf l

theorem Inv.update {N : Nat} {R W : Nat → Loc → Prop} {mf : Mem F E} {s : Sys F E} {ns : List Nat}
    (hWR : ∀ i l, W i l → R i l)
    (hdis : ∀ i j l, i < N → j < N → i ≠ j → W i l → ¬ R j l)
    (h : Inv N R W mf s ns) {i n : Nat} (hi : i < N) {p : Prog F E Unit} {m m' : Mem F E}
    (hm : ∀ l, ¬ W i l → m l = s.mem l)
    (hs : Safe (R i) (W i) p m n () m') (hf : ∀ l, W i l → m' l = mf l) :
    Inv N R W mf ⟨m, s.ths.set i p⟩ (ns.set i n) := by
  refine ⟨by simp [h.len], by simp [h.nlen], fun j hj => ?_, fun l hl => ?_⟩
  · by_cases hij : i = j
    · subst hij
      have := h.len; have := h.nlen
      refine ⟨p, n, m', ?_, ?_, hs, hf⟩
      · show (s.ths.set i p)[i]? = some p
        rw [List.getElem?_set_self (by omega)]
      · rw [List.getElem?_set_self (by omega)]
    · obtain ⟨q, k, m1, h1, h2, h3, h4⟩ := h.safe j hj
      obtain ⟨t', h5, h6⟩ := h3.local (hWR j) (t := m) (fun l hl =>
        hm l (fun hw => hdis i j l hi hj hij hw hl))
      refine ⟨q, k, t', ?_, ?_, h5, fun l hl => ?_⟩
      · simp [hij, h1]
      · simp [hij, h2]
      · rw [h6 l (hWR j l hl)]; exact h4 l hl
  · rw [← h.rest l hl]
    exact hm l (hl i hi)

theorem Inv.step {N : Nat} {R W : Nat → Loc → Prop} {mf : Mem F E} {s t : Sys F E} {ns : List Nat}
    (hWR : ∀ i l, W i l → R i l)
    (hdis : ∀ i j l, i < N → j < N → i ≠ j → W i l → ¬ R j l)
    (h : Inv N R W mf s ns) (hst : Step s t) :
    ∃ ns', Inv N R W mf t ns' ∧ ns'.sum + 1 = ns.sum := by
  cases hst with
  | get m ths i l k v h1 h2 =>
    have hi : i < N := by
      have h3 := (List.getElem?_eq_some_iff.mp h1).1
      have h4 : ths.length = N := h.len
      omega
    obtain ⟨p, n, m', h3, h4, h5, h6⟩ := h.safe i hi
    have e : some p = some (Prog.get l k) := h3.symm.trans h1
    cases e
    obtain ⟨w, n', rfl, h7, h8, h9⟩ := h5
    have e : some w = some v := h8.symm.trans h2
    cases e
    exact ⟨ns.set i n', h.update hWR hdis hi (fun _ _ => rfl) h9 h6, sum_set_pred h4⟩
  | put m ths i l v w k h1 h2 =>
    have hi : i < N := by
      have h3 := (List.getElem?_eq_some_iff.mp h1).1
      have h4 : ths.length = N := h.len
      omega
    obtain ⟨p, n, m', h3, h4, h5, h6⟩ := h.safe i hi
    have e : some p = some (Prog.put l v k) := h3.symm.trans h1
    cases e
    obtain ⟨w', n', rfl, h7, h8, h9⟩ := h5
    refine ⟨ns.set i n', h.update hWR hdis hi (fun l' hl' => ?_) h9 h6, sum_set_pred h4⟩
    unfold Mem.set
    rw [if_neg (fun e : l' = l => hl' (e ▸ h7))]

theorem Inv.steps {N : Nat} {R W : Nat → Loc → Prop} {mf : Mem F E} {s t : Sys F E} {ns : List Nat}
    (hWR : ∀ i l, W i l → R i l)
    (hdis : ∀ i j l, i < N → j < N → i ≠ j → W i l → ¬ R j l)
    (h : Inv N R W mf s ns) {n : Nat} (hst : Steps n s t) :
    ∃ ns', Inv N R W mf t ns' ∧ ns'.sum + n = ns.sum := by
  induction hst generalizing ns with
  | refl s => exact ⟨ns, h, rfl⟩
  | step h1 _ ih =>
    obtain ⟨ns1, h3, h4⟩ := h.step hWR hdis h1
    obtain ⟨ns2, h5, h6⟩ := ih h3
    exact ⟨ns2, h5, by omega⟩

theorem Inv.mem {N : Nat} {R W : Nat → Loc → Prop} {mf : Mem F E} {s : Sys F E} {ns : List Nat}
    (h : Inv N R W mf s ns) {p : Prog F E Unit} (hp : p ∈ s.ths) :
    ∃ i, i < N ∧ s.ths[i]? = some p := by
  obtain ⟨i, hi, e⟩ := List.getElem_of_mem hp
  have := h.len
  exact ⟨i, by omega, by rw [List.getElem?_eq_getElem hi, e]⟩

theorem Inv.noFault {N : Nat} {R W : Nat → Loc → Prop} {mf : Mem F E} {s : Sys F E} {ns : List Nat}
    (h : Inv N R W mf s ns) : ¬ s.Fault := by
  rintro ⟨p, hp, hf⟩
  obtain ⟨i, hi, e⟩ := h.mem hp
  obtain ⟨q, n, m', h1, h2, h3, h4⟩ := h.safe i hi
  rw [e] at h1; cases h1
  cases p with
  | ret a => exact hf
  | err e => exact h3
  | get l k =>
    obtain ⟨v, n', _, _, h5, _⟩ := h3
    rw [show s.mem l = none from hf] at h5; cases h5
  | put l v k =>
    obtain ⟨w, n', _, _, h5, _⟩ := h3
    rw [show s.mem l = none from hf] at h5; cases h5

theorem Safe.next {R W : Loc → Prop} (hWR : ∀ l, W l → R l) {p : Prog F E α} {m m' : Mem F E}
    {n : Nat} {a : α} (h : Safe R W p m n a m') {l : Loc} {b : Bool} (hn : p.next = some (l, b)) :
    R l ∧ (b = true → W l) := by
  cases p with
  | ret a => cases hn
  | err e => cases hn
  | get l' k =>
    cases hn
    obtain ⟨_, _, _, h1, _⟩ := h
    exact ⟨h1, fun e => by cases e⟩
  | put l' v k =>
    cases hn
    obtain ⟨_, _, _, h1, _⟩ := h
    exact ⟨hWR _ h1, fun _ => h1⟩

theorem Inv.noRace {N : Nat} {R W : Nat → Loc → Prop} {mf : Mem F E} {s : Sys F E} {ns : List Nat}
    (hWR : ∀ i l, W i l → R i l)
    (hdis : ∀ i j l, i < N → j < N → i ≠ j → W i l → ¬ R j l)
    (h : Inv N R W mf s ns) : ¬ s.Race := by
  rintro ⟨i, j, p, q, l, a, b, hij, hp, hq, hnp, hnq, hab⟩
  have hlen := h.len
  have hi : i < N := by have := (List.getElem?_eq_some_iff.mp hp).1; omega
  have hj : j < N := by have := (List.getElem?_eq_some_iff.mp hq).1; omega
  obtain ⟨p', n, m', h1, h2, h3, h4⟩ := h.safe i hi
  rw [hp] at h1; cases h1
  obtain ⟨q', n', m'', h5, h6, h7, h8⟩ := h.safe j hj
  rw [hq] at h5; cases h5
  have r1 := h3.next (hWR i) hnp
  have r2 := h7.next (hWR j) hnq
  rcases Bool.or_eq_true _ _ ▸ hab with ha | hb
  · exact hdis i j l hi hj hij (r1.2 ha) r2.1
  · exact hdis j i l hj hi (Ne.symm hij) (r2.2 hb) r1.1

theorem Inv.progress {N : Nat} {R W : Nat → Loc → Prop} {mf : Mem F E} {s : Sys F E} {ns : List Nat}
    (h : Inv N R W mf s ns) : s.Done ∨ ∃ t, Step s t := by
  by_cases hd : s.Done
  · exact .inl hd
  · right
    unfold Sys.Done at hd
    obtain ⟨p, hp⟩ := Classical.not_forall.mp hd
    obtain ⟨hp, hne⟩ := Classical.not_imp.mp hp
    obtain ⟨i, hi, e⟩ := h.mem hp
    obtain ⟨q, n, m', h1, h2, h3, h4⟩ := h.safe i hi
    rw [e] at h1; cases h1
    cases p with
    | ret a => exact absurd rfl hne
    | err e => exact h3.elim
    | get l k =>
      obtain ⟨v, n', _, _, h5, _⟩ := h3
      exact ⟨_, Step.get s.mem s.ths i l k v e h5⟩
    | put l v k =>
      obtain ⟨w, n', _, _, h5, _⟩ := h3
      exact ⟨_, Step.put s.mem s.ths i l v w k e h5⟩

theorem Inv.result {N : Nat} {R W : Nat → Loc → Prop} {mf : Mem F E} {s : Sys F E} {ns : List Nat}
    (h : Inv N R W mf s ns) (hd : s.Done) : s.mem = mf ∧ ns.sum = 0 := by
  have key : ∀ i, i < N → ns[i]? = some 0 ∧ ∀ l, W i l → s.mem l = mf l := by
    intro i hi
    obtain ⟨p, n, m', h1, h2, h3, h4⟩ := h.safe i hi
    have := hd p (List.mem_of_getElem? h1)
    subst this
    obtain ⟨rfl, _, rfl⟩ := h3
    exact ⟨h2, h4⟩
  constructor
  · funext l
    by_cases hl : ∃ i, i < N ∧ W i l
    · obtain ⟨i, hi, hw⟩ := hl
      exact (key i hi).2 l hw
    · exact h.rest l (fun i hi hw => hl ⟨i, hi, hw⟩)
  · have hz : ∀ x, x ∈ ns → x = 0 := by
      intro x hx
      obtain ⟨i, hi, e⟩ := List.getElem_of_mem hx
      have := h.nlen
      have h0 := (key i (by omega)).1
      rw [List.getElem?_eq_getElem hi, e] at h0
      exact Option.some.inj h0
    clear key
    have : ∀ l : List Nat, (∀ x, x ∈ l → x = 0) → l.sum = 0 := by
      intro l
      induction l with
      | nil => intro _; rfl
      | cons x l ih =>
        intro h
        rw [List.sum_cons, h x (by simp), ih (fun y hy => h y (by simp [hy]))]
    exact this ns hz

/-- the invariant at the start is enough -/
theorem Inv.settles {N : Nat} {R W : Nat → Loc → Prop} {mf : Mem F E} {s : Sys F E} {ns : List Nat}
    (hWR : ∀ i l, W i l → R i l)
    (hdis : ∀ i j l, i < N → j < N → i ≠ j → W i l → ¬ R j l)
    (inv : Inv N R W mf s ns) : s.Settles mf ns.sum := by
  constructor
  · intro n t h
    obtain ⟨ns', h1, _⟩ := inv.steps hWR hdis h
    exact h1.noFault
  · intro n t h
    obtain ⟨ns', h1, _⟩ := inv.steps hWR hdis h
    exact h1.noRace hWR hdis
  · intro n t h
    obtain ⟨ns', h1, h2⟩ := inv.steps hWR hdis h
    omega
  · intro n t h
    obtain ⟨ns', h1, _⟩ := inv.steps hWR hdis h
    exact h1.progress
  · intro n t h hd
    obtain ⟨ns', h1, h2⟩ := inv.steps hWR hdis h
    obtain ⟨h3, h4⟩ := h1.result hd
    exact ⟨h3, by omega⟩

/-- threads that run safely from the same memory settle under every schedule -/
theorem parallel {N : Nat} {R W : Nat → Loc → Prop} (m0 : Mem F E) (mi : Nat → Mem F E)
    (ps : Nat → Prog F E Unit) (ns : Nat → Nat) (hWR : ∀ i l, W i l → R i l)
    (hdis : ∀ i j l, i < N → j < N → i ≠ j → W i l → ¬ R j l)
    (hs : ∀ i, i < N → Safe (R i) (W i) (ps i) m0 (ns i) () (mi i)) :
    ∃ mf, Sys.Settles ⟨m0, (List.range N).map ps⟩ mf ((List.range N).map ns).sum ∧
      (∀ i l, i < N → W i l → mf l = mi i l) ∧ ∀ l, (∀ i, i < N → ¬ W i l) → mf l = m0 l := by
  classical
  let mf : Mem F E := fun l => if h : ∃ i, i < N ∧ W i l then mi h.choose l else m0 l
  have h1 : ∀ i l, i < N → W i l → mf l = mi i l := by
    intro i l hi hw
    have h : ∃ i, i < N ∧ W i l := ⟨i, hi, hw⟩
    have e : h.choose = i := by
      apply Decidable.byContradiction
      intro hne
      exact hdis i h.choose l hi h.choose_spec.1 (Ne.symm hne) hw (hWR _ l h.choose_spec.2)
    show (if h : ∃ i, i < N ∧ W i l then mi h.choose l else m0 l) = mi i l
    rw [dif_pos h, e]
  have h2 : ∀ l, (∀ i, i < N → ¬ W i l) → mf l = m0 l := by
    intro l hl
    show (if h : ∃ i, i < N ∧ W i l then mi h.choose l else m0 l) = m0 l
    rw [dif_neg (fun ⟨i, hi, hw⟩ => hl i hi hw)]
  refine ⟨mf, Inv.settles (R := R) (W := W) hWR hdis ⟨by simp, by simp, fun i hi => ?_, fun l hl => (h2 l hl).symm⟩, h1, h2⟩
  exact ⟨ps i, ns i, mi i, by simp [hi], by simp [hi], hs i hi, fun l hl => (h1 i l hi hl).symm⟩

/-- threads that run safely one after the other settle under every schedule -/
theorem interleave {N : Nat} {R W : Nat → Loc → Prop} (ms : Nat → Mem F E)
    (ps : Nat → Prog F E Unit) (ns : Nat → Nat) (hWR : ∀ i l, W i l → R i l)
    (hdis : ∀ i j l, i < N → j < N → i ≠ j → W i l → ¬ R j l)
    (hs : ∀ i, i < N → Safe (R i) (W i) (ps i) (ms i) (ns i) () (ms (i + 1))) :
    Sys.Settles ⟨ms 0, (List.range N).map ps⟩ (ms N) ((List.range N).map ns).sum := by
  have fwd : ∀ i l d, i + d ≤ N → (∀ j, i ≤ j → j < i + d → ¬ W j l) → ms (i + d) l = ms i l := by
    intro i l d
    induction d with
    | zero => intro _ _; rfl
    | succ d ih =>
      intro h1 h2
      rw [← ih (by omega) (fun j h3 h4 => h2 j h3 (by omega))]
      exact (hs (i + d) (by omega)).frame (h2 (i + d) (by omega) (by omega))
  have inv : Inv N R W (ms N) ⟨ms 0, (List.range N).map ps⟩ ((List.range N).map ns) := by
    refine ⟨by simp, by simp, fun i hi => ?_, fun l hl => ?_⟩
    · obtain ⟨t', h1, h2⟩ := (hs i hi).local (hWR i) (t := ms 0) (fun l hl => by
        have := fwd 0 l i (by omega) (fun j _ hj hw => hdis j i l (by omega) hi (by omega) hw hl)
        rw [Nat.zero_add] at this
        exact this.symm)
      refine ⟨ps i, ns i, t', by simp [hi], by simp [hi], h1, fun l hl => ?_⟩
      rw [h2 l (hWR i l hl)]
      have := fwd (i + 1) l (N - (i + 1)) (by omega) (fun j h3 h4 hw =>
        hdis j i l (by omega) hi (by omega) hw (hWR i l hl))
      rw [show i + 1 + (N - (i + 1)) = N by omega] at this
      exact this.symm
    · have := fwd 0 l N (by omega) (fun j _ hj => hl j (by omega))
      rw [Nat.zero_add] at this
      exact this.symm
  exact inv.settles hWR hdis

end Votess
