import Verif.Model.Gpu
import Verif.Model.Exact
import Verif.Proofs.ProgRow
import Verif.Proofs.KnnExact
import Mathlib.Tactic.Linarith
import Mathlib.Tactic.Ring
/-!
# The device neighbour search against the CPU one
-/
set_option linter.unusedSectionVars false

namespace Votess

open FP

section lists

variable {F D E : Type}

/-- the loop over the shells on lists, for any treatment of a candidate -/
def loopL [FP F D] (offset : List Int) (f : Int → List (Int × E) → M (List (Int × E)))
    (stop : E → F → Bool) (gr px py pz : Int) (gl min : F) :
    Nat → List (Int × E) → M (List (Int × E))
  | 0, h => pure h
  | n + 1, h => do
    let r : Int := gr - (n + 1)
    let h ← (shellCells gr px py pz r).foldlM (fun h c => do
        let offs0 ← rdI offset (gr * gr * c.2.2 + gr * c.2.1 + c.1)
        let offs1 ← rdI offset (gr * gr * c.2.2 + gr * c.2.1 + c.1 + 1)
        forI offs0 offs1 f h) h
    let top ← rd h 0
    if stop top.2 (square (add (mul gl (ofInt r)) min)) then pure h
    else loopL offset f stop gr px py pz gl min n h

variable [FP F D] {xyz : List (Pt F)} {ids offset : List Int}

theorem loopL_run {cand : Int → Prog F E Unit} {f : Int → List (Int × E) → M (List (Int × E))}
    (hp : ∀ x, OnHeapAt xyz ids offset (cand x) (f x)) (stop : E → F → Bool)
    (gr px py pz : Int) (gl min : F) (n : Nat) :
    OnHeapAt xyz ids offset (Prog.knnLoop cand stop gr px py pz gl min n)
      (loopL offset f stop gr px py pz gl min n) := by
  induction n with
  | zero => intro r _ _ _; rfl
  | succ n ih =>
    intro r h1 h2 h3
    simp only [Prog.knnLoop, loopL, rrun_bind]
    rw [knnShell_run _ _ hp gr px py pz _ r h1 h2 h3]
    rw [bind_assoc', bind_assoc']
    refine bind_congr' fun h _ => ?_
    simp only [bind_ok, rrun_hpq, bind_assoc']
    refine bind_congr' fun top _ => ?_
    split
    · rfl
    · rw [ih { r with heap := h } h1 h2 h3]

theorem loopL_cpu (index : Int) (q : Pt F) (k : Nat) (gr px py pz : Int) (gl min : F) (n : Nat)
    (h : List (Int × D)) :
    loopL offset (knnPoint xyz index q k) (fun top x => dlt F top (toD x)) gr px py pz gl min n h =
      knnLoop xyz offset index q k gr px py pz gl min n h := by
  induction n generalizing h with
  | zero => rfl
  | succ n ih =>
    simp only [loopL, knnLoop]
    show _ = knnShell xyz offset index q k gr px py pz _ h >>= _
    unfold knnShell knnCell
    refine bind_congr' fun h _ => bind_congr' fun top _ => ?_
    split
    · rfl
    · exact ih h

/-- one candidate on lists -/
def gpuPointL (xyz : List (Pt F)) (index : Int) (q : Pt F) (k : Nat) (p : Int)
    (h : List (Int × F)) : M (List (Int × F)) := do
  if p = index then pure h
  else do
    let pt ← rdI xyz p
    let pq := getDistance pt q
    let top ← rd h 0
    let cond := lt pq top.2
    let h ← wr h 0 (selI cond top.1 p, selF cond top.2 pq)
    maxheapify lt h (if cond then k else 0) 0

theorem gpuKnnPoint_run (index : Int) (q : Pt F) (k : Nat) (p : Int) :
    OnHeapAt xyz ids offset (Prog.gpuKnnPoint index q k p) (gpuPointL xyz index q k p) := by
  intro r h1 h2 h3
  unfold Prog.gpuKnnPoint gpuPointL
  by_cases hp : p = index
  · rw [if_pos hp, if_pos hp]; rfl
  · rw [if_neg hp, if_neg hp]
    subst h1 h2 h3
    simp only [rrun_bind, rrun_point, bind_assoc', bind_ok]
    refine bind_congr' fun pt _ => ?_
    rw [rrun_hpq, bind_assoc']
    refine bind_congr' fun top ht => ?_
    simp only [bind_ok]
    have h0 := rd_lt ht
    have ht' : r.heap[0] = top := by rw [rd_ok h0] at ht; cases ht; rfl
    simp only [rrun_hid, rrun_put_hid, rrun_hpq, rrun_put_hpq, rd_ok h0, bind_ok]
    rw [rd_ok (by simpa using h0)]
    simp only [bind_ok]
    rw [rd_ok (by simpa using h0)]
    simp only [bind_ok]
    rw [wr_ok h0]
    rw [maxheapify_run]
    simp [ht']

/-- the search on lists -/
def gpuKnnL (xyz : List (Pt F)) (id offset : List Int) (index : Int) (k gr : Int)
    (h : List (Int × F)) : M (List (Int × F)) := do
  let q ← rdI xyz index
  let c ← rdI id index
  if u8 gr = 0 then .error .divZero
  else do
    let h ← loopL offset (gpuPointL xyz index q (u16 k).toNat) lt (u8 gr) (u16 (c.tmod (u8 gr)))
      (u16 ((c.tdiv (u8 gr)).tmod (u8 gr))) (u16 (c.tdiv (u8 gr * u8 gr))) (recip gr)
      (bmin3 (wallDist (recip gr) q.x) (wallDist (recip gr) q.y) (wallDist (recip gr) q.z))
      (u8 gr).toNat h
    heapSort lt h (u16 k).toNat

theorem gpuKnnCompute_run (index : Int) (k gr : Int) :
    OnHeapAt xyz ids offset (Prog.gpuKnnCompute index k gr) (gpuKnnL xyz ids offset index k gr) := by
  intro r h1 h2 h3
  unfold Prog.gpuKnnCompute gpuKnnL
  subst h1 h2 h3
  simp only [rrun_bind, rrun_ref, rrun_gid, bind_assoc', bind_ok]
  refine bind_congr' fun q _ => bind_congr' fun c _ => ?_
  by_cases hgr : u8 gr = 0
  · rw [if_pos hgr, if_pos hgr]; rfl
  · rw [if_neg hgr, if_neg hgr]
    exact OnHeapAt.bind (loopL_run (gpuKnnPoint_run index q _) lt _ _ _ _ _ _ _)
      (heapSort_run lt _).at r rfl rfl rfl

end lists

/-! ## two heaps with corresponding priorities -/

section rel

variable {D E : Type}

/-- same length, same identifiers, related priorities -/
def HRel (R : D → E → Prop) (h : List (Int × D)) (h' : List (Int × E)) : Prop :=
  h.length = h'.length ∧ ∀ (i : Nat) (x : Int × D) (y : Int × E), h[i]? = some x → h'[i]? = some y → x.1 = y.1 ∧ R x.2 y.2

/-- both fail in the same way or both succeed with related results -/
def RelM {α β : Type} (R : α → β → Prop) : M α → M β → Prop
  | .ok a, .ok b => R a b
  | .error e, .error e' => e = e'
  | _, _ => False

theorem RelM.bind {α β α' β' : Type} {R : α → β → Prop} {R' : α' → β' → Prop} {m : M α} {m' : M β}
    {f : α → M α'} {f' : β → M β'} (h : RelM R m m') (hf : ∀ a b, R a b → RelM R' (f a) (f' b)) :
    RelM R' (m >>= f) (m' >>= f') := by
  cases m <;> cases m'
  · exact h
  · exact h.elim
  · exact h.elim
  · exact hf _ _ h

theorem RelM.refl {α : Type} (m : M α) : RelM (fun a b => a = b) m m := by
  cases m <;> rfl

variable {R : D → E → Prop}

theorem HRel.get {h : List (Int × D)} {h' : List (Int × E)} (hr : HRel R h h') (i : Nat) :
    RelM (fun x y => x.1 = y.1 ∧ R x.2 y.2) (rd h i) (rd h' i) := by
  by_cases hi : i < h.length
  · have hi' : i < h'.length := hr.1 ▸ hi
    rw [rd_ok hi, rd_ok hi']
    exact hr.2 i _ _ (List.getElem?_eq_getElem hi) (List.getElem?_eq_getElem hi')
  · rw [rd_oob (by omega), rd_oob (by have := hr.1; omega)]
    rfl

theorem HRel.set {h : List (Int × D)} {h' : List (Int × E)} (hr : HRel R h h') (i : Nat)
    {x : Int × D} {y : Int × E} (hxy : x.1 = y.1 ∧ R x.2 y.2) : HRel R (h.set i x) (h'.set i y) := by
  refine ⟨by simpa using hr.1, fun j u v hu hv => ?_⟩
  by_cases hij : i = j
  · subst hij
    have h1 : i < h.length := by
      have := (List.getElem?_eq_some_iff.mp hu).1; simpa using this
    rw [List.getElem?_set_self h1] at hu
    rw [List.getElem?_set_self (hr.1 ▸ h1)] at hv
    cases hu; cases hv; exact hxy
  · rw [List.getElem?_set_ne hij] at hu hv
    exact hr.2 j u v hu hv

theorem HRel.put {h : List (Int × D)} {h' : List (Int × E)} (hr : HRel R h h') (i : Nat)
    {x : Int × D} {y : Int × E} (hxy : x.1 = y.1 ∧ R x.2 y.2) :
    RelM (HRel R) (wr h i x) (wr h' i y) := by
  unfold wr
  rw [hr.1]
  split
  · exact hr.set i hxy
  · rfl

theorem HRel.exch {h : List (Int × D)} {h' : List (Int × E)} (hr : HRel R h h') (i j : Nat) :
    RelM (HRel R) (swp h i j) (swp h' i j) := by
  unfold swp
  refine (hr.get i).bind fun x y hxy => (hr.get j).bind fun u v huv => ?_
  exact (hr.put i huv).bind fun a b hab => hab.put j hxy

/-- comparisons agree on related priorities -/
def LtRel (R : D → E → Prop) (lt : D → D → Bool) (lt' : E → E → Bool) : Prop :=
  ∀ a b a' b', R a a' → R b b' → lt a b = lt' a' b'

variable {lt : D → D → Bool} {lt' : E → E → Bool}

theorem HRel.largest {h : List (Int × D)} {h' : List (Int × E)} (hl : LtRel R lt lt')
    (hr : HRel R h h') (s i : Nat) :
    RelM (fun a b => a = b) (heapLargest lt h s i) (heapLargest lt' h' s i) := by
  unfold heapLargest
  have key : ∀ n, RelM (fun a b => a = b) (if 2 * i + 2 < s then do
        let a ← rd h (2 * i + 2)
        let b ← rd h n
        Pure.pure (if lt b.2 a.2 then 2 * i + 2 else n)
      else Pure.pure n : M Nat) (if 2 * i + 2 < s then do
        let a ← rd h' (2 * i + 2)
        let b ← rd h' n
        Pure.pure (if lt' b.2 a.2 then 2 * i + 2 else n)
      else Pure.pure n : M Nat) := by
    intro n
    split
    · refine (hr.get _).bind fun x y hxy => (hr.get _).bind fun u v huv => ?_
      rw [hl _ _ _ _ huv.2 hxy.2]
      rfl
    · rfl
  by_cases hlt : 2 * i + 1 < s
  · simp only [if_pos hlt, pure_eq_ok] at key ⊢
    refine (hr.get _).bind fun x y hxy => (hr.get _).bind fun u v huv => ?_
    rw [hl _ _ _ _ huv.2 hxy.2]
    exact key _
  · simp only [if_neg hlt, pure_eq_ok] at key ⊢
    exact key _

theorem HRel.heapifyLoop (hl : LtRel R lt lt') (s fuel : Nat) {h : List (Int × D)}
    {h' : List (Int × E)} (hr : HRel R h h') (i : Nat) :
    RelM (HRel R) (maxheapifyLoop lt s fuel h i) (maxheapifyLoop lt' s fuel h' i) := by
  induction fuel generalizing h h' i with
  | zero => rfl
  | succ fuel ih =>
    simp only [maxheapifyLoop]
    refine (hr.largest hl s i).bind fun a b hab => ?_
    subst hab
    by_cases hn : i ≠ a
    · rw [if_pos hn, if_pos hn]
      exact (hr.exch i a).bind fun x y hxy => ih hxy a
    · rw [if_neg hn, if_neg hn]
      exact hr

theorem HRel.heapify (hl : LtRel R lt lt') (s : Nat) {h : List (Int × D)}
    {h' : List (Int × E)} (hr : HRel R h h') (i : Nat) :
    RelM (HRel R) (maxheapify lt h s i) (maxheapify lt' h' s i) := hr.heapifyLoop hl s (s + 1) i

theorem HRel.build (hl : LtRel R lt lt') (k n : Nat) {h : List (Int × D)}
    {h' : List (Int × E)} (hr : HRel R h h') :
    RelM (HRel R) (heapBuild lt k n h) (heapBuild lt' k n h') := by
  induction n generalizing h h' with
  | zero => exact hr
  | succ n ih => exact (hr.heapify hl k n).bind fun a b hab => ih hab

theorem HRel.drain (hl : LtRel R lt lt') (n : Nat) {h : List (Int × D)}
    {h' : List (Int × E)} (hr : HRel R h h') :
    RelM (HRel R) (heapDrain lt n h) (heapDrain lt' n h') := by
  induction n generalizing h h' with
  | zero => exact hr
  | succ n ih =>
    exact (hr.exch 0 n).bind fun a b hab => (hab.heapify hl n 0).bind fun c d hcd => ih hcd

theorem HRel.sort (hl : LtRel R lt lt') (k : Nat) {h : List (Int × D)}
    {h' : List (Int × E)} (hr : HRel R h h') :
    RelM (HRel R) (heapSort lt h k) (heapSort lt' h' k) :=
  (hr.build hl k (k / 2)).bind fun _ _ hab => hab.drain hl k

theorem RelM.foldlM {α β γ : Type} {Q : α → β → Prop} (l : List γ) {f : α → γ → M α}
    {f' : β → γ → M β} (hf : ∀ x a b, x ∈ l → Q a b → RelM Q (f a x) (f' b x)) {a : α} {b : β}
    (h : Q a b) : RelM Q (l.foldlM f a) (l.foldlM f' b) := by
  induction l generalizing a b with
  | nil => exact h
  | cons x l ih =>
    simp only [List.foldlM_cons]
    exact (hf x a b (by simp) h).bind fun u v huv =>
      ih (fun y a b hy => hf y a b (List.mem_cons_of_mem _ hy)) huv

theorem HRel.loop {F D' : Type} [FP F D'] {offset : List Int}
    {f : Int → List (Int × D) → M (List (Int × D))} {f' : Int → List (Int × E) → M (List (Int × E))}
    (hf : ∀ p h h', HRel R h h' → RelM (HRel R) (f p h) (f' p h'))
    {stop : D → F → Bool} {stop' : E → F → Bool} (gr px py pz : Int) (gl min min' : F) (n : Nat)
    (hstop : ∀ a b m, m < n → R a b →
      stop a (square (add (mul gl (ofInt (gr - (m + 1)))) min)) =
        stop' b (square (add (mul gl (ofInt (gr - (m + 1)))) min')))
    {h : List (Int × D)} {h' : List (Int × E)} (hr : HRel R h h') :
    RelM (HRel R) (loopL offset f stop gr px py pz gl min n h)
      (loopL offset f' stop' gr px py pz gl min' n h') := by
  induction n generalizing h h' with
  | zero => exact hr
  | succ n ih =>
    simp only [loopL]
    refine RelM.bind (R := HRel R) ?_ fun a b hab => ?_
    · refine RelM.foldlM _ (fun c a b _ hab => ?_) hr
      refine (RelM.refl _).bind fun o0 o0' e0 => (RelM.refl _).bind fun o1 o1' e1 => ?_
      subst e0 e1
      exact RelM.foldlM _ (fun p a b _ hab => hf p a b hab) hab
    · refine (hab.get 0).bind fun x y hxy => ?_
      rw [hstop x.2 y.2 n (by omega) hxy.2]
      split
      · exact hab
      · exact ih (fun a b m hm => hstop a b m (by omega)) hab

end rel

/-! ## any arithmetic

`R d e` says that the device priority `e` stands for the CPU priority `d`.  The two searches do the
same if `R` is compatible with the comparisons, the branch-free assignment works on such priorities,
and the squared distances and the bounds of the stopping test are such priorities. -/

section general

variable {F D : Type} [FP F D] {R : D → F → Prop}

theorem selI_eq (c : Bool) (a b : Int) : selI c a b = if c then b else a := by
  cases c <;> simp [selI]

theorem maxheapify_zero {E : Type} (lt : E → E → Bool) (h : List (Int × E)) :
    maxheapify lt h 0 0 = .ok h := rfl

/-- the branch-free assignment `c * b + !c * a` is an assignment -/
def SelOK (R : D → F → Prop) : Prop :=
  ∀ (c : Bool) (d d' : D) (a b : F), R d a → R d' b → R (if c then d' else d) (selF c a b)

theorem gpuPoint_gen (hlt : LtRel R (FP.dlt F) (FP.lt : F → F → Bool)) (hsel : SelOK R)
    {xyz : List (Pt F)} (index : Int) (q : Pt F) (k : Nat)
    (hd : ∀ (p : Int) (pt : Pt F), rdI xyz p = .ok pt → R (toD (getDistance pt q)) (getDistance pt q))
    (p : Int) (h : List (Int × D)) (h' : List (Int × F)) (hr : HRel R h h') :
    RelM (HRel R) (knnPoint xyz index q k p h) (gpuPointL xyz index q k p h') := by
  unfold knnPoint gpuPointL
  by_cases hp : p = index
  · rw [if_pos hp, if_pos hp]; exact hr
  · rw [if_neg hp, if_neg hp]
    cases hpt : rdI xyz p with
    | error e => exact rfl
    | ok pt =>
      simp only [bind_ok]
      have hpq := hd p pt hpt
      cases ht : rd h 0 with
      | error e =>
        have := hr.get 0
        rw [ht] at this
        cases ht' : rd h' 0 with
        | error e' => rw [ht'] at this; exact this
        | ok y => rw [ht'] at this; exact this.elim
      | ok x =>
        have hxy := hr.get 0
        rw [ht] at hxy
        cases ht' : rd h' 0 with
        | error e' => rw [ht'] at hxy; exact hxy.elim
        | ok y =>
          rw [ht'] at hxy
          simp only [bind_ok]
          rw [hlt _ _ _ _ hpq hxy.2]
          cases hc : (FP.lt (getDistance pt q) y.2 : Bool)
          · have hs := hsel false _ _ _ _ hxy.2 hpq
            simp only [Bool.false_eq_true, if_false, selI_eq, maxheapify_zero] at hs ⊢
            have h0 := rd_lt ht
            have e : wr h 0 x = .ok h := by
              rw [rd_ok h0] at ht; cases ht
              rw [wr_ok h0]; simp
            have := hr.put 0 (x := x) (y := (y.1, selF false y.2 (getDistance pt q))) ⟨hxy.1, hs⟩
            rw [e] at this
            cases hw : wr h' 0 (y.1, selF false y.2 (getDistance pt q)) with
            | error e' => rw [hw] at this; exact this.elim
            | ok b => rw [hw] at this; exact this
          · have hs := hsel true _ _ _ _ hxy.2 hpq
            simp only [if_true, selI_eq] at hs ⊢
            exact (hr.put 0 ⟨rfl, hs⟩).bind fun a b hab => hab.heapify hlt k 0

theorem u8_self {x : Int} (h0 : 0 ≤ x) (h : x ≤ 255) : u8 x = x := by unfold u8; omega

theorem u16_self {x : Int} (h0 : 0 ≤ x) (h : x ≤ 65535) : u16 x = x := by unfold u16; omega

/-- the two searches do the same -/
theorem gpuKnn_gen (hlt : LtRel R (FP.dlt F) (FP.lt : F → F → Bool)) (hsel : SelOK R)
    {xyz : List (Pt F)} {id offset : List Int} (index : Int) (k : Nat) (gr : Int)
    (hk : k ≤ 65535) (hgr : 1 ≤ gr) (hgr' : gr ≤ 255)
    (hd : ∀ p ∈ xyz, ∀ q ∈ xyz, R (toD (getDistance p q)) (getDistance p q))
    (hmin : ∀ q ∈ xyz, bmin3 (wallDist (recip gr) q.x) (wallDist (recip gr) q.y) (wallDist (recip gr) q.z) =
      min3 (wallDist (recip gr) q.x) (wallDist (recip gr) q.y) (wallDist (recip gr) q.z))
    (hstop : ∀ q ∈ xyz, ∀ r : Int, 0 ≤ r → r ≤ gr - 1 → ∀ b : F,
      b = square (add (mul (recip gr) (ofInt r))
        (min3 (wallDist (recip gr) q.x) (wallDist (recip gr) q.y) (wallDist (recip gr) q.z))) →
      R (toD b) b)
    (hid : ∀ c ∈ id, 0 ≤ c ∧ c < gr * gr * gr) (h : List (Int × D)) (h' : List (Int × F))
    (hr : HRel R h h') :
    RelM (HRel R) (knnCompute xyz id offset index k gr h) (gpuKnnL xyz id offset index k gr h') := by
  have hmem (i : Int) (p : Pt F) (h : rdI xyz i = .ok p) : p ∈ xyz := by
    rw [rdI_eq_ok] at h
    exact List.mem_of_getElem? h.2
  unfold knnCompute gpuKnnL
  rw [u8_self (by omega) hgr', u16_self (by omega) (by omega), Int.toNat_natCast]
  cases hq : rdI xyz index with
  | error e => exact rfl
  | ok q =>
    have hqb := hmem index q hq
    simp only [bind_ok]
    cases hc : rdI id index with
    | error e => exact rfl
    | ok c =>
      simp only [bind_ok]
      rw [if_neg (by omega), if_neg (by omega)]
      rw [rdI_eq_ok] at hc
      obtain ⟨c0, c1⟩ := hid c (List.mem_of_getElem? hc.2)
      have hg2 : 0 < gr * gr := Int.mul_pos (by omega) (by omega)
      have e1 : u16 (c.tmod gr) = c.tmod gr := by
        refine u16_self (Int.tmod_nonneg _ c0) ?_
        have := Int.tmod_lt_of_pos c (show 0 < gr by omega)
        omega
      have e2 : u16 ((c.tdiv gr).tmod gr) = (c.tdiv gr).tmod gr := by
        refine u16_self (Int.tmod_nonneg _ (Int.tdiv_nonneg c0 (by omega))) ?_
        have := Int.tmod_lt_of_pos (c.tdiv gr) (show 0 < gr by omega)
        omega
      have e3 : u16 (c.tdiv (gr * gr)) = c.tdiv (gr * gr) := by
        refine u16_self (Int.tdiv_nonneg c0 hg2.le) ?_
        rw [Int.tdiv_eq_ediv_of_nonneg c0]
        have := Int.ediv_lt_of_lt_mul hg2 (show c < gr * (gr * gr) by rw [← mul_assoc]; exact c1)
        omega
      rw [e1, e2, e3]
      rw [← loopL_cpu]
      refine RelM.bind (R := HRel R) ?_ fun a b hab => hab.sort hlt k
      refine HRel.loop (gpuPoint_gen hlt hsel index q k fun p pt hp => hd pt (hmem p pt hp) q hqb)
        gr _ _ _ _ _ _ _ ?_ hr
      intro a b m hm hab
      rw [hmin q hqb]
      exact hlt _ _ _ _ hab (hstop q hqb _ (by omega) (by omega) _ rfl)

theorem HRel.ids {D E : Type} {R : D → E → Prop} {h : List (Int × D)} {h' : List (Int × E)}
    (hr : HRel R h h') : h'.map (·.1) = h.map (·.1) := by
  apply List.ext_getElem
  · simp [hr.1]
  · intro i h1 h2
    simp only [List.length_map] at h1 h2
    simp only [List.getElem_map]
    exact (hr.2 i _ _ (List.getElem?_eq_getElem h2) (List.getElem?_eq_getElem h1)).1.symm

end general

/-! ## exact arithmetic -/

section exact

variable {K : Type} [Field K] [LinearOrder K] [IsStrictOrderedRing K] [FloorRing K]

/-- the device priority for a CPU priority: 128 stands for infinity -/
def PriRel (d : WithTop K) (e : K) : Prop := (d = none ∧ e = 128) ∨ (d = some e ∧ e < 128)

theorem priRel_lt : LtRel (PriRel (K := K)) (FP.dlt K) (FP.lt : K → K → Bool) := by
  rintro a b a' b' (⟨rfl, rfl⟩ | ⟨rfl, h1⟩) (⟨rfl, rfl⟩ | ⟨rfl, h2⟩)
  · simp [FP.dlt, FP.lt, topLt]
  · simp [FP.dlt, FP.lt, topLt, not_lt.mpr h2.le]
  · simp [FP.dlt, FP.lt, topLt, h1]
  · simp [FP.dlt, FP.lt, topLt]

theorem selF_exact (c : Bool) (a b : K) : selF c a b = if c then b else a := by
  cases c <;> simp [selF, FP.add, FP.mul, FP.ofBool, FP.ofInt]

theorem selOK_exact : SelOK (PriRel (K := K)) := fun c _ _ a b ha hb => by
  rw [selF_exact c a b]; cases c
  exacts [ha, hb]

theorem min3_le (a b c : K) : min3 a b c ≤ a ∧ (0 ≤ a → 0 ≤ b → 0 ≤ c → 0 ≤ min3 a b c) := by
  unfold min3
  simp only [FP.lt, decide_eq_true_eq]
  constructor
  · split_ifs <;> linarith
  · intro _ _ _; split_ifs <;> assumption

theorem bmin3_exact (a b c : K) : bmin3 a b c = min3 a b c := by
  have h (a b : K) : bmin a b = if FP.lt b a then b else a := selF_exact _ a b
  unfold bmin3 min3
  rw [h, h]

/-- the bound of the stopping test is below 128 -/
theorem stop_lt (gr : Int) (hgr : 1 ≤ gr) (q : Pt K) (hq : InBox q) (r : Int) (h0 : 0 ≤ r)
    (hr : r ≤ gr - 1) :
    square (add (mul (recip gr : K) (ofInt r))
      (min3 (wallDist (recip gr) q.x) (wallDist (recip gr) q.y) (wallDist (recip gr) q.z))) < 128 := by
  obtain ⟨a1, a2, a3⟩ := wallDist_exact gr hgr q.x hq.1.1
  obtain ⟨b1, -, -⟩ := wallDist_exact gr hgr q.y hq.2.1.1
  obtain ⟨c1, -, -⟩ := wallDist_exact gr hgr q.z hq.2.2.1
  obtain ⟨m1, m2⟩ := min3_le (wallDist (recip gr : K) q.x) (wallDist (recip gr : K) q.y)
    (wallDist (recip gr : K) q.z)
  have m3 := m2 a1 b1 c1
  generalize min3 (wallDist (recip gr : K) q.x) _ _ = m at *
  have hg : (0 : K) < (gr : K) := by exact_mod_cast (by omega : 0 < gr)
  have hm : m ≤ 1 / (gr : K) := by linarith
  have hr' : (r : K) ≤ gr - 1 := by exact_mod_cast hr
  have hr0 : (0 : K) ≤ r := by exact_mod_cast h0
  have e1 : 1 / (gr : K) * r ≤ 1 / (gr : K) * (gr - 1) :=
    mul_le_mul_of_nonneg_left hr' (by positivity)
  have e2 : 1 / (gr : K) * (gr - 1) = 1 - 1 / (gr : K) := by field_simp
  have e3 : (0 : K) ≤ 1 / (gr : K) * r := by positivity
  have e4 : 1 / (gr : K) * r + m ≤ 1 := by linarith
  have e5 : 0 ≤ 1 / (gr : K) * r + m := by linarith
  show (1 / (gr : K) * (r : K) + m) * (1 / (gr : K) * (r : K) + m) < 128
  nlinarith

theorem dist_box (p q : Pt K) (hp : InBox p) (hq : InBox q) : getDistance p q < 128 := by
  obtain ⟨⟨p1, p2⟩, ⟨p3, p4⟩, p5, p6⟩ := hp
  obtain ⟨⟨q1, q2⟩, ⟨q3, q4⟩, q5, q6⟩ := hq
  have sq (a b : K) (ha : 0 ≤ a) (ha' : a < 1) (hb : 0 ≤ b) (hb' : b < 1) :
      (a - b) * (a - b) ≤ 1 := by nlinarith
  have h1 := sq _ _ p1 p2 q1 q2
  have h2 := sq _ _ p3 p4 q3 q4
  have h3 := sq _ _ p5 p6 q5 q6
  show (p.x - q.x) * (p.x - q.x) + (p.y - q.y) * (p.y - q.y) + (p.z - q.z) * (p.z - q.z) < 128
  linarith

/-- the two searches do the same -/
theorem gpuKnn_rel {xyz : List (Pt K)} {id offset : List Int} (index : Int) (k : Nat) (gr : Int)
    (hk : k ≤ 65535) (hgr : 1 ≤ gr) (hgr' : gr ≤ 255) (hbox : ∀ p ∈ xyz, InBox p)
    (hid : ∀ c ∈ id, 0 ≤ c ∧ c < gr * gr * gr) (h : List (Int × WithTop K)) (h' : List (Int × K))
    (hr : HRel PriRel h h') :
    RelM (HRel PriRel) (knnCompute xyz id offset index k gr h)
      (gpuKnnL xyz id offset index k gr h') :=
  gpuKnn_gen priRel_lt selOK_exact index k gr hk hgr hgr'
    (fun p hp q hq => .inr ⟨rfl, dist_box p q (hbox p hp) (hbox q hq)⟩) (fun _ _ => bmin3_exact _ _ _)
    (fun q hq r h0 hr _ hb => .inr ⟨rfl, hb ▸ stop_lt gr hgr q (hbox q hq) r h0 hr⟩) hid h h' hr

theorem hRel_start (k : Nat) : HRel (PriRel (K := K)) (List.replicate k ((0 : Int), FP.dinf K))
    (List.replicate k ((0 : Int), (FP.ofInt 128 : K))) := by
  refine ⟨by simp, fun i x y hx hy => ?_⟩
  rw [List.getElem?_replicate] at hx hy
  split at hx
  · rw [if_pos ‹_›] at hy
    cases hx; cases hy
    exact ⟨rfl, .inl ⟨rfl, by show ((128 : Int) : K) = 128; norm_num⟩⟩
  · cases hx

end exact

end Votess
