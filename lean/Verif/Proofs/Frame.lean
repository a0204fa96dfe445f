import Verif.Proofs.CCLoop
/-!
What a cell computation does not depend on: the contents that earlier tasks left in the rows of
`P`, `T`, `dR`.  Any arithmetic.
-/
set_option linter.unusedSectionVars false
namespace Votess

open FP

variable {F D : Type} [FP F D]

/-! ### accesses in front of a frame -/

section frame
variable {α : Type}

theorem rd_app {A B : List α} {i : Nat} (h : i < A.length) : rd (A ++ B) i = rd A i := by
  unfold rd; rw [List.getElem?_append_left h]

theorem wr_app {A B : List α} {i : Nat} {v : α} (h : i < A.length) :
    wr (A ++ B) i v = (wr A i v).map (· ++ B) := by
  rw [wr_ok h, wr_ok (by rw [List.length_append]; omega), List.set_append_left _ _ h]; rfl

theorem swp_app {A B : List α} {i j : Nat} (hi : i < A.length) (hj : j < A.length) :
    swp (A ++ B) i j = (swp A i j).map (· ++ B) := by
  rw [swp_ok hi hj, swp_ok (by rw [List.length_append]; omega) (by rw [List.length_append]; omega)]
  simp only [Except.map]
  rw [List.getElem_append_left hi, List.getElem_append_left hj, List.set_append_left _ _ hi,
    List.set_append_left _ _ (by simpa using hj)]

theorem swp_length {A A' : List α} {i j : Nat} (h : swp A i j = .ok A') : A'.length = A.length := by
  unfold swp at h
  simp only [bind_eq_ok] at h
  obtain ⟨x, -, y, -, b, h1, h2⟩ := h
  rw [wr_eq_ok] at h1 h2
  rw [h2.2, h1.2]; simp

end frame

theorem triVertex_app {P Q : List (Plane F)} {t : Tri} (h : t.below P.length) :
    triVertex (P ++ Q) t = triVertex P t := by
  obtain ⟨h1, h2, h3⟩ := h
  unfold triVertex
  rw [rd_app h1, rd_app h2, rd_app h3]

theorem cutLoop_app {P Q : List (Plane F)} {b : Plane F} {p : Pt F} {B : List Tri} :
    ∀ (fuel ti : Nat) (T : List Tri) (ts rs : Nat) (sr : F), ts ≤ T.length →
      (∀ t ∈ T, t.below P.length) →
      cutLoop (P ++ Q) b p fuel ti (T ++ B) ts rs sr
        = (cutLoop P b p fuel ti T ts rs sr).map (fun r => (r.1 ++ B, r.2)) := by
  intro fuel
  induction fuel with
  | zero => intros; rfl
  | succ fuel ih =>
    intro ti T ts rs sr hts hb
    unfold cutLoop
    by_cases hlt : ti < ts
    · rw [if_pos hlt, if_pos hlt]
      have hti : ti < T.length := by omega
      rw [rd_app hti, rd_ok hti]
      simp only [bind_ok]
      have ht := hb _ (List.getElem_mem hti)
      rw [triVertex_app ht, triVertex_ok ht]
      simp only [bind_ok]
      split
      · rw [swp_app hti (by omega), swp_ok hti (by omega)]
        simp only [Except.map, bind_ok]
        exact ih ti _ (ts - 1) (rs + 1) _ (by simp; omega) (by
          intro t h
          rcases List.mem_or_eq_of_mem_set h with h | rfl
          · rcases List.mem_or_eq_of_mem_set h with h | rfl
            · exact hb t h
            · exact hb _ (List.getElem_mem _)
          · exact ht)
      · exact ih (ti + 1) T ts rs _ hts hb
    · rw [if_neg hlt, if_neg hlt]; rfl

/-! ### boundary -/

/-- append to the triangles of a boundary state -/
def BState.app (B : List Tri) (st : BState) : BState := { st with R := st.R ++ B }

def BStep.app (B : List Tri) : BStep → BStep
  | .ret s st => .ret s (st.app B)
  | .next st => .next (st.app B)

theorem bReject_app {B : List Tri} {st : BState} (hj : st.j < st.R.length)
    (hs : st.swapj ≤ st.R.length) : bReject (st.app B) = (bReject st).map (BState.app B) := by
  unfold bReject BState.app
  dsimp only
  split
  · rfl
  · rw [swp_app hj (by omega), swp_ok hj (by omega)]; rfl

theorem bind_congr' {α β : Type} {m : M α} {f g : α → M β} (h : ∀ x, m = .ok x → f x = g x) :
    (m >>= f) = (m >>= g) := by
  cases m with
  | error e => rfl
  | ok x => exact h x rfl

theorem map_bind {α β γ : Type} {m : M α} {f : α → M β} {g : β → γ} :
    (m >>= f).map g = m >>= fun x => (f x).map g := by
  cases m <;> rfl

/-- the end of `bBody`: duplicate check on the changed cycle -/
def bTail (cw : Nat → Nat) (dr rsize : Nat) (st : BState) (e0 e1 e2 old0 old1 old2 old00 : Nat)
    (x : List Nat × Nat) : M BStep := do
  let dup ← bDup x.1 dr 257 0
  if dup then do
    let c ← wr x.1 e0 old0
    let c ← wr c e1 old1
    let c ← wr c e2 old2
    let c ← wr c old0 old00
    let st ← bReject { st with cycle := c, head := x.2 }
    pure (.next st)
  else
    pure (.next { st with cycle := x.1, head := x.2, j := st.j + 1, swapj := cw rsize })

theorem bTail_app {cw : Nat → Nat} {B : List Tri} {dr rsize : Nat} {st : BState}
    {e0 e1 e2 old0 old1 old2 old00 : Nat} {x : List Nat × Nat}
    (hj : st.j < st.R.length) (hs : st.swapj ≤ st.R.length) :
    bTail cw dr rsize (st.app B) e0 e1 e2 old0 old1 old2 old00 x
      = (bTail cw dr rsize st e0 e1 e2 old0 old1 old2 old00 x).map (BStep.app B) := by
  unfold bTail
  rw [map_bind]
  refine bind_congr' fun dup _ => ?_
  split
  · rw [map_bind]
    refine bind_congr' fun c1 _ => ?_
    rw [map_bind]
    refine bind_congr' fun c2 _ => ?_
    rw [map_bind]
    refine bind_congr' fun c3 _ => ?_
    rw [map_bind]
    refine bind_congr' fun c4 _ => ?_
    have e := bReject_app (B := B) (st := { st with cycle := c4, head := x.2 }) hj hs
    unfold BState.app at e ⊢
    dsimp only at e ⊢
    rw [e]
    cases bReject { st with cycle := c4, head := x.2 } <;> rfl
  · rfl

theorem bBody_app {cw : Nat → Nat} {B : List Tri} {dr rsize : Nat} {st : BState}
    (hj : st.j < st.R.length) (hs : st.swapj ≤ st.R.length) :
    bBody cw dr rsize (st.app B) = (bBody cw dr rsize st).map (BStep.app B) := by
  have e1 : rd (st.app B).R (st.app B).j = rd st.R st.j := rd_app hj
  have e2 : (st.app B).head = st.head := rfl
  have e3 : (st.app B).cycle = st.cycle := rfl
  have e4 : (st.app B).swapj = st.swapj := rfl
  have e5 : (st.app B).j = st.j := rfl
  unfold bBody
  rw [e1, e2, e3, e4, e5, map_bind]
  refine bind_congr' fun t _ => ?_
  rw [map_bind]
  refine bind_congr' fun o0 _ => ?_
  cases o0 with
  | none => rfl
  | some s0 =>
  dsimp only
  rw [map_bind]
  refine bind_congr' fun o1 _ => ?_
  cases o1 with
  | none => rfl
  | some s1 =>
  dsimp only
  rw [map_bind]
  refine bind_congr' fun o2 _ => ?_
  cases o2 with
  | none => rfl
  | some s2 =>
  dsimp only
  split
  · rfl
  split
  · rw [bReject_app hj hs]
    cases bReject st <;> rfl
  rw [map_bind]
  refine bind_congr' fun old0 _ => ?_
  rw [map_bind]
  refine bind_congr' fun old1 _ => ?_
  rw [map_bind]
  refine bind_congr' fun old2 _ => ?_
  rw [map_bind]
  refine bind_congr' fun old00 _ => ?_
  split
  · rw [map_bind]
    refine bind_congr' fun c1 _ => ?_
    rw [map_bind]
    refine bind_congr' fun c2 _ => ?_
    exact bTail_app hj hs
  split
  · rw [map_bind]
    refine bind_congr' fun c1 _ => ?_
    rw [map_bind]
    refine bind_congr' fun c2 _ => ?_
    rw [map_bind]
    refine bind_congr' fun c3 _ => ?_
    exact bTail_app hj hs
  · exact bTail_app hj hs

theorem bReject_sizes {st st' : BState} (h : bReject st = .ok st') :
    st'.R.length = st.R.length ∧ st'.swapj ≤ st.swapj ∧ st'.j = st.j := by
  unfold bReject at h
  split at h
  · cases h
  · rw [bind_eq_ok] at h
    obtain ⟨R, h1, h2⟩ := h
    cases h2
    exact ⟨swp_length h1, Nat.sub_le _ _, rfl⟩

theorem bTail_sizes {dr rsize : Nat} {st st' : BState} {e0 e1 e2 old0 old1 old2 old00 : Nat}
    {x : List Nat × Nat}
    (h : bTail id dr rsize st e0 e1 e2 old0 old1 old2 old00 x = .ok (.next st'))
    (hs : st.swapj ≤ rsize) : st'.R.length = st.R.length ∧ st'.swapj ≤ rsize := by
  unfold bTail at h
  rw [bind_eq_ok] at h; obtain ⟨dup, -, h⟩ := h
  split at h
  · rw [bind_eq_ok] at h; obtain ⟨c1, -, h⟩ := h
    rw [bind_eq_ok] at h; obtain ⟨c2, -, h⟩ := h
    rw [bind_eq_ok] at h; obtain ⟨c3, -, h⟩ := h
    rw [bind_eq_ok] at h; obtain ⟨c4, -, h⟩ := h
    rw [bind_eq_ok] at h; obtain ⟨st1, h1, h⟩ := h
    cases h
    have := bReject_sizes h1
    exact ⟨this.1, by have := this.2.1; simp only at this; omega⟩
  · cases h
    exact ⟨rfl, Nat.le_refl _⟩

theorem bBody_sizes {dr rsize : Nat} {st st' : BState} (h : bBody id dr rsize st = .ok (.next st'))
    (hs : st.swapj ≤ rsize) : st'.R.length = st.R.length ∧ st'.swapj ≤ rsize := by
  unfold bBody at h
  rw [bind_eq_ok] at h; obtain ⟨t, -, h⟩ := h
  rw [bind_eq_ok] at h; obtain ⟨o0, -, h⟩ := h
  cases o0 with
  | none => cases h
  | some s0 =>
  dsimp only at h
  rw [bind_eq_ok] at h; obtain ⟨o1, -, h⟩ := h
  cases o1 with
  | none => cases h
  | some s1 =>
  dsimp only at h
  rw [bind_eq_ok] at h; obtain ⟨o2, -, h⟩ := h
  cases o2 with
  | none => cases h
  | some s2 =>
  dsimp only at h
  split at h
  · cases h
  split at h
  · rw [bind_eq_ok] at h; obtain ⟨st1, h1, h⟩ := h
    cases h
    have := bReject_sizes h1
    exact ⟨this.1, by omega⟩
  rw [bind_eq_ok] at h; obtain ⟨old0, -, h⟩ := h
  rw [bind_eq_ok] at h; obtain ⟨old1, -, h⟩ := h
  rw [bind_eq_ok] at h; obtain ⟨old2, -, h⟩ := h
  rw [bind_eq_ok] at h; obtain ⟨old00, -, h⟩ := h
  split at h
  · rw [bind_eq_ok] at h; obtain ⟨c1, -, h⟩ := h
    rw [bind_eq_ok] at h; obtain ⟨c2, -, h⟩ := h
    exact bTail_sizes h hs
  split at h
  · rw [bind_eq_ok] at h; obtain ⟨c1, -, h⟩ := h
    rw [bind_eq_ok] at h; obtain ⟨c2, -, h⟩ := h
    rw [bind_eq_ok] at h; obtain ⟨c3, -, h⟩ := h
    exact bTail_sizes h hs
  · exact bTail_sizes h hs

theorem bLoop_app {B : List Tri} {dr rsize : Nat} : ∀ (fuel : Nat) (st : BState),
    rsize ≤ st.R.length → st.swapj ≤ rsize →
    bLoop id dr rsize fuel (st.app B) = (bLoop id dr rsize fuel st).map (fun r => (r.1, r.2.app B)) := by
  intro fuel
  induction fuel with
  | zero => intros; rfl
  | succ fuel ih =>
    intro st hr hs
    unfold bLoop
    have e5 : (st.app B).j = st.j := rfl
    rw [e5]
    by_cases hj : st.j < rsize
    · rw [if_pos hj, if_pos hj, bBody_app (by omega) (by omega)]
      cases hb : bBody id dr rsize st with
      | error e => rfl
      | ok o =>
        cases o with
        | ret s st' => rfl
        | next st' =>
          have := bBody_sizes hb hs
          exact ih st' (by omega) this.2
    · rw [if_neg hj, if_neg hj]; rfl

theorem bCompute_app {c : List Nat} {dr : Nat} {R B : List Tri} {rsize : Nat} (h : rsize ≤ R.length)
    (h0 : 0 < R.length) :
    bCompute c dr (R ++ B) rsize = (bCompute c dr R rsize).map (fun r => (r.1, r.2.app B)) := by
  unfold bCompute
  rw [rd_app h0, map_bind]
  refine bind_congr' fun t _ => ?_
  rw [map_bind]
  refine bind_congr' fun ch _ => ?_
  exact bLoop_app (bFuel rsize) ⟨ch.1, ch.2, R, 1, rsize⟩ h (Nat.le_refl _)

/-! ### new triangles -/

/-- results of `emitLoop` that agree as far as they matter -/
def EmitRel (n : Nat) : EmitOut → EmitOut → Prop
  | .done T ts, .done T' ts' => ts = ts' ∧ T.take ts = T'.take ts ∧ T.length = n ∧ T'.length = n
  | .overflow T, .overflow T' => T.length = n ∧ T'.length = n
  | _, _ => False

theorem emitLoop_rel {c : List Nat} {tm first newp : Nat} : ∀ (fuel head : Nat) (T T' : List Tri)
    (ts : Nat), T.length = tm → T'.length = tm → T.take ts = T'.take ts →
    (∃ o o', emitLoop c tm first newp fuel head T ts = .ok o ∧
      emitLoop c tm first newp fuel head T' ts = .ok o' ∧ EmitRel tm o o') ∨
    (∃ e, emitLoop c tm first newp fuel head T ts = .error e ∧
      emitLoop c tm first newp fuel head T' ts = .error e) := by
  intro fuel
  induction fuel with
  | zero => intros; exact Or.inr ⟨_, rfl, rfl⟩
  | succ fuel ih =>
    intro head T T' ts h1 h2 h3
    unfold emitLoop
    by_cases ho : tm ≤ ts
    · rw [if_pos ho, if_pos ho]; exact Or.inl ⟨_, _, rfl, rfl, h1, h2⟩
    · rw [if_neg ho, if_neg ho]
      cases hr : rd c head with
      | error e => exact Or.inr ⟨_, rfl, rfl⟩
      | ok nxt =>
        simp only [bind_ok]
        rw [wr_ok (by omega), wr_ok (by omega)]
        simp only [bind_ok]
        have ht : (T.set ts ⟨head, nxt, newp % 256⟩).take (ts + 1)
            = (T'.set ts ⟨head, nxt, newp % 256⟩).take (ts + 1) := by
          rw [take_set_append (by omega), take_set_append (by omega), h3]
        split
        · exact Or.inl ⟨_, _, rfl, rfl, rfl, ht, by simpa using h1, by simpa using h2⟩
        · exact ih nxt _ _ (ts + 1) (by simpa using h1) (by simpa using h2) ht

/-! ### status -/

/-- everything set in `s1` is set in `s2`, `s2` has nothing else but bits of `st`, and all of those
except perhaps the two that the radius test clears -/
def StSub (st s1 s2 : State) : Prop := ∀ i, (s1.byte.getLsbD i = true → s2.byte.getLsbD i = true) ∧
  (s2.byte.getLsbD i = true → s1.byte.getLsbD i = true ∨ st.byte.getLsbD i = true) ∧
  (i ≠ 3 → i ≠ 6 → st.byte.getLsbD i = true → s2.byte.getLsbD i = true)

theorem setTrue_bit (s : State) (f : Status) (i : Nat) :
    (s.setTrue f).byte.getLsbD i = (s.byte.getLsbD i || decide (f.bit = i)) := by
  have h : (1#8 <<< f.bit) = BitVec.twoPow 8 f.bit := by simp [BitVec.twoPow]
  have := f.bit_lt
  simp only [State.setTrue, h, BitVec.getLsbD_or, BitVec.getLsbD_twoPow]
  grind

theorem setFalse_bit (s : State) (f : Status) (i : Nat) :
    (s.setFalse f).byte.getLsbD i = (s.byte.getLsbD i && !decide (f.bit = i)) := by
  have h : (1#8 <<< f.bit) = BitVec.twoPow 8 f.bit := by simp [BitVec.twoPow]
  have := f.bit_lt
  have : 8 ≤ i → s.byte.getLsbD i = false := fun h => BitVec.getLsbD_of_ge _ _ h
  simp only [State.setFalse, h, BitVec.getLsbD_and, BitVec.getLsbD_not, BitVec.getLsbD_twoPow]
  grind

theorem condFalse_bit (s : State) (f : Status) (i : Nat) :
    (if s.get f then s.setFalse f else s).byte.getLsbD i
      = (s.byte.getLsbD i && !decide (f.bit = i)) := by
  split
  · exact setFalse_bit s f i
  · rename_i h
    rw [State.get_eq] at h
    grind

theorem cleared_bit (s : State) (i : Nat) : (cleared s).byte.getLsbD i
    = (s.byte.getLsbD i && !decide (6 = i) && !decide (3 = i)) := by
  unfold cleared
  dsimp only
  rw [condFalse_bit, condFalse_bit]
  rfl

theorem StSub.setTrue {st s1 s2 : State} (h : StSub st s1 s2) (f : Status) :
    StSub st (s1.setTrue f) (s2.setTrue f) := by
  intro i
  have := h i
  simp only [setTrue_bit]
  grind

theorem StSub.cleared {st s1 s2 : State} (h : StSub st s1 s2) :
    StSub st (cleared s1) (cleared s2) := by
  intro i
  have := h i
  simp only [cleared_bit]
  grind

theorem StSub.init (st : State) : StSub st .init st := by
  intro i
  simp [State.init]

theorem State.ext_bit {s t : State} (h : ∀ i, s.byte.getLsbD i = t.byte.getLsbD i) : s = t := by
  cases s; cases t
  congr 1
  exact BitVec.eq_of_getLsbD_eq fun i _ => h i

theorem StSub.eq_of_init {s1 s2 : State} (h : StSub .init s1 s2) : s1 = s2 := by
  apply State.ext_bit
  intro i
  have := h i
  simp [State.init] at this
  rw [Bool.eq_iff_iff]
  exact ⟨this.1, this.2⟩

theorem StSub.eq_of_self {s1 s2 : State} (h : StSub s1 s1 s2) : s1 = s2 := by
  apply State.ext_bit
  intro i
  have := h i
  rw [Bool.eq_iff_iff]
  exact ⟨this.1, fun h' => (this.2.1 h').elim id id⟩

/-! ### cells -/

/-- the parts of two states that the computation depends on agree -/
structure CRel (st : State) (s1 s2 : CCState F) : Prop where
  psize : s1.psize = s2.psize
  tsize : s1.tsize = s2.tsize
  dknn : s1.dknn = s2.dknn
  P : s1.P.take s1.psize = s2.P.take s2.psize
  T : s1.T.take s1.tsize = s2.T.take s2.tsize
  st : StSub st s1.state s2.state

/-- both iterations end in the same way -/
inductive StepRel2 (st : State) : CCStep F → CCStep F → Prop
  | ret (s1 s2 : CCState F) (h : StSub st s1.state s2.state) : StepRel2 st (.ret s1) (.ret s2)
  | brk (s1 s2 : CCState F) (h : CRel st s1 s2) : StepRel2 st (.brk s1) (.brk s2)
  | next (s1 s2 : CCState F) (h : CRel st s1 s2) : StepRel2 st (.next s1) (.next s2)

theorem ccFinish_rel {st : State} {p q : Pt F} {sr : F} {s1 s2 : CCState F} (h : CRel st s1 s2) :
    StepRel2 st (ccFinish p q sr s1) (ccFinish p q sr s2) := by
  rw [ccFinish_eq, ccFinish_eq]
  split
  · exact .brk _ _ ⟨h.psize, h.tsize, h.dknn, h.P, h.T, h.st.cleared.setTrue _⟩
  · exact .next _ _ ⟨h.psize, h.tsize, h.dknn, h.P, h.T, h.st.cleared⟩

/-- outcomes of `ccClip` -/
inductive ClipRel (st : State) : CCState F ⊕ CCState F → CCState F ⊕ CCState F → Prop
  | inl (s1 s2 : CCState F) (h : StSub st s1.state s2.state) : ClipRel st (.inl s1) (.inl s2)
  | inr (s1 s2 : CCState F) (h : CRel st s1 s2) : ClipRel st (.inr s1) (.inr s2)

theorem ccClip_rel {a : CCArgs} {nb : Nat} {b : Plane F} {st : State} {s1 s2 : CCState F}
    {K R B1 B2 : List Tri} (hi1 : CCInv a s1) (hi2 : CCInv a s2) (hr : CRel st s1 s2)
    (hnb : nb < a.k) (hR : R ≠ []) (hpm : a.pm ≤ 255) (hv : ValidTris a.pm R) (hB1 : (K ++ R ++ B1).length = a.tm)
    (hB2 : (K ++ R ++ B2).length = a.tm) :
    (∃ o1 o2, ccClip a nb b (K ++ R ++ B1) K.length R.length s1 = .ok o1 ∧
      ccClip a nb b (K ++ R ++ B2) K.length R.length s2 = .ok o2 ∧ ClipRel st o1 o2) ∨
    ∃ e, ccClip a nb b (K ++ R ++ B1) K.length R.length s1 = .error e := by
  unfold ccClip
  by_cases hov : a.pm ≤ s1.psize
  · rw [if_pos hov, if_pos (hr.psize ▸ hov)]
    exact Or.inl ⟨_, _, rfl, rfl, .inl _ _ (hr.st.setTrue _)⟩
  · rw [if_neg hov, if_neg (hr.psize ▸ hov)]
    have p1 := hi1.plen; have p2 := hi2.plen; have k1 := hi1.klen; have k2 := hi2.klen
    have hps := hr.psize
    have hRl : 0 < R.length := List.length_pos_iff.mpr hR
    rw [wr_ok (by omega : s1.psize < s1.P.length), wr_ok (by omega : s2.psize < s2.P.length),
      bind_ok, bind_ok, wr_ok (by omega : nb < s1.dknn.length),
      wr_ok (by omega : nb < s2.dknn.length), bind_ok, bind_ok, forN_fill _ _ _ hi1.dlen,
      forN_fill _ _ _ hi2.dlen, bind_ok, bind_ok]
    have ed : ∀ B : List Tri, (K ++ R ++ B).drop K.length = R ++ B := by
      intro B; rw [List.append_assoc, List.drop_left]
    have et : ∀ B : List Tri, (K ++ R ++ B).take K.length = K := by
      intro B; rw [List.append_assoc, List.take_left]
    rw [ed, ed, et, et, bCompute_app (Nat.le_refl _) hRl, bCompute_app (Nat.le_refl _) hRl]
    obtain ⟨bst, br, L, b1, b2, -⟩ := bCompute_inv (c := List.replicate a.pm bUndefined)
        (dr := a.pm) (rsize := R.length) (R := R) (by simp)
        (fun x hx => List.eq_of_mem_replicate hx) hpm (by omega) (Nat.le_refl _)
        (by rw [List.take_length]; exact hv)
    · have hbr := b2.sift.len
      simp only [b1, Except.map, bind_ok]
      cases bst with
      | unreachable =>
        exact Or.inl ⟨_, _, rfl, rfl, .inl _ _ ((hr.st.setTrue _).setTrue _)⟩
      | success =>
        simp only [BState.app]
        have e := emitLoop_rel (c := br.cycle) (tm := a.tm) (first := br.head)
          (newp := s1.psize + 1 - 1) (a.tm + 1) br.head (K ++ (br.R ++ B1)) (K ++ (br.R ++ B2))
          K.length (by simp at *; omega) (by simp at *; omega) (by simp)
        rw [← hps]
        rcases e with ⟨o1, o2, e1, e2, e3⟩ | ⟨e, e1, -⟩
        · rw [e1, e2]
          cases o1 with
          | done T1 ts1 =>
            cases o2 with
            | done T2 ts2 =>
              obtain ⟨rfl, f1, f2, f3⟩ := e3
              refine Or.inl ⟨_, _, rfl, rfl, .inr _ _ ⟨by simp, rfl, ?_, ?_, f1, hr.st⟩⟩
              · simp only; rw [hr.dknn]
              · simp only
                rw [take_set_append (by omega)]
                rw [take_set_append (by omega), hr.P, hps]
            | overflow T2 => exact e3.elim
          | overflow T1 =>
            cases o2 with
            | done T2 ts2 => exact e3.elim
            | overflow T2 => exact Or.inl ⟨_, _, rfl, rfl, .inl _ _ (hr.st.setTrue _)⟩
        · rw [e1]; exact Or.inr ⟨e, rfl⟩

theorem ccStep_rel {a : CCArgs} (hpm : a.pm ≤ 255) {xyz : List (Pt F)} {knn : List Int} {p : Pt F}
    {nb : Nat} {st : State} {s1 s2 : CCState F} {qi : Int} {q : Pt F} (hi1 : CCInv a s1)
    (hi2 : CCInv a s2) (hr : CRel st s1 s2) (hnb : nb < a.k)
    (hq : knn[nb]? = some qi) (hq' : rdI xyz qi = .ok q) :
    ∃ o1 o2, ccStep a xyz knn p nb s1 = .ok o1 ∧ ccStep a xyz knn p nb s2 = .ok o2 ∧
      StepRel2 st o1 o2 := by
  obtain ⟨-, -, -, -, o, ho, -⟩ := ccStep_spec (p := p) hpm hi1 hnb hq hq'
  suffices H : (∃ o1 o2, ccStep a xyz knn p nb s1 = .ok o1 ∧ ccStep a xyz knn p nb s2 = .ok o2 ∧
      StepRel2 st o1 o2) ∨ ∃ e, ccStep a xyz knn p nb s1 = .error e by
    rcases H with H | ⟨e, H⟩
    · exact H
    · rw [ho] at H; cases H
  have htt1 := hi1.tt; have htt2 := hi2.tt; have htl1 := hi1.tlen; have htl2 := hi2.tlen
  have hpl1 := hi1.plen; have hpl2 := hi2.plen; have hpp1 := hi1.pp; have hpp2 := hi2.pp
  have hps := hr.psize; have hts := hr.tsize
  generalize hA : s1.P.take s1.psize = A
  generalize hB : s1.T.take s1.tsize = B
  have hAl : A.length = s1.psize := by rw [← hA, List.length_take]; omega
  have hBl : B.length = s1.tsize := by rw [← hB, List.length_take]; omega
  have eP1 : s1.P = A ++ s1.P.drop s1.psize := by rw [← hA, List.take_append_drop]
  have eP2 : s2.P = A ++ s2.P.drop s2.psize := by rw [← hA, hr.P, List.take_append_drop]
  have eT1 : s1.T = B ++ s1.T.drop s1.tsize := by rw [← hB, List.take_append_drop]
  have eT2 : s2.T = B ++ s2.T.drop s2.tsize := by rw [← hB, hr.T, List.take_append_drop]
  have hbel : ∀ t ∈ B, t.below A.length := by
    intro t ht
    have := hi1.valid.tri t (by rw [hB]; exact ht)
    exact ⟨by omega, by omega, by omega⟩
  obtain ⟨T', K, R, sr, vs, h1, h2, h3, h4, h5, h6, h7, h8, h9⟩ := cutLoop_split A (bisect q p) p
    B s1.tsize (ofInt 0) (by omega) (fun t ht => hbel t (List.mem_of_mem_take ht))
  have hlen : K.length + R.length = s1.tsize := by
    have := h5.length_eq
    rw [List.length_append, List.length_take] at this; omega
  have hT' : T' = K ++ R := by
    have : T'.take s1.tsize = T' := List.take_of_length_le (by omega)
    rw [← this, ← hlen, List.take_add, h3, h4]
  have hvR : ValidTris a.pm R := by
    have := hi1.valid
    rw [hB, ← List.take_of_length_le (l := B) (i := s1.tsize) (by omega)] at this
    exact validTris_mono (validTris_sub (this.perm h5) (List.sublist_append_right K R)) (by omega)
  subst hT'
  have c1 : cutLoop s1.P (bisect q p) p (2 * s1.tsize + 1) 0 s1.T s1.tsize 0 (ofInt 0)
      = .ok (K ++ R ++ s1.T.drop s1.tsize, K.length, R.length, sr) := by
    have := cutLoop_app (P := A) (Q := s1.P.drop s1.psize) (b := bisect q p) (p := p)
      (B := s1.T.drop s1.tsize) (2 * s1.tsize + 1) 0 B s1.tsize 0 (ofInt 0) (by omega) hbel
    rw [← eP1, ← eT1, h1] at this
    exact this
  have c2 : cutLoop s2.P (bisect q p) p (2 * s2.tsize + 1) 0 s2.T s2.tsize 0 (ofInt 0)
      = .ok (K ++ R ++ s2.T.drop s2.tsize, K.length, R.length, sr) := by
    have := cutLoop_app (P := A) (Q := s2.P.drop s2.psize) (b := bisect q p) (p := p)
      (B := s2.T.drop s2.tsize) (2 * s1.tsize + 1) 0 B s1.tsize 0 (ofInt 0) (by omega) hbel
    rw [← eP2, ← eT2, h1, hts] at this
    exact this
  unfold ccStep
  simp only [rd_eq_ok.mpr hq, hq', bind_ok, c1, c2]
  by_cases hR : R = []
  · subst hR
    simp only [List.length_nil, Nat.lt_irrefl, if_false, pure_eq_ok]
    refine Or.inl ⟨_, _, rfl, rfl, ccFinish_rel ⟨hps, rfl, hr.dknn, ?_, ?_, hr.st.setTrue _⟩⟩
    · exact hr.P
    · simp
  · have hRl : 0 < R.length := List.length_pos_iff.mpr hR
    rw [if_pos hRl, if_pos hRl]
    rcases ccClip_rel (nb := nb) (b := bisect q p) (K := K) (R := R) (B1 := s1.T.drop s1.tsize)
      (B2 := s2.T.drop s2.tsize) hi1 hi2 hr hnb hR hpm hvR
      (by simp; omega) (by simp; omega) with
      ⟨o1, o2, e1, e2, e3⟩ | ⟨e, e1⟩
    · rw [e1, e2]
      cases e3 with
      | inl s1 s2 h => exact Or.inl ⟨_, _, rfl, rfl, .ret _ _ h⟩
      | inr s1 s2 h => exact Or.inl ⟨_, _, rfl, rfl, ccFinish_rel h⟩
    · rw [e1]; exact Or.inr ⟨e, rfl⟩

/-- the sizes and triangles stay valid, whatever the status -/
theorem ccStep_ccinv {a : CCArgs} (hpm : a.pm ≤ 255) {xyz : List (Pt F)} {knn : List Int} {p : Pt F}
    {nb : Nat} {s : CCState F} {qi : Int} {q : Pt F} (hi : CCInv a s) (hnb : nb < a.k)
    (hq : knn[nb]? = some qi) (hq' : rdI xyz qi = .ok q) :
    ∃ o, ccStep a xyz knn p nb s = .ok o ∧ (∀ s', o = .next s' → CCInv a s') ∧
      (∀ s', o = .brk s' → CCInv a s') ∧ (∀ s', o = .ret s' → Sizes a s') := by
  obtain ⟨K, R, sr, vs, o, h1, h2, h3, h4, h5, h6, h7⟩ := ccStep_spec (p := p) hpm hi hnb hq hq'
  refine ⟨o, h1, ?_⟩
  cases h7 with
  | keep T hR hT hK =>
    subst hR
    rw [ccFinish_eq]
    split <;> refine ⟨?_, ?_, ?_⟩ <;> intro s' h <;> cases h <;> exact hi.keep _ hT hK h2
  | poverflow T ts hR hp hT =>
    refine ⟨?_, ?_, ?_⟩ <;> intro s' h <;> cases h
    exact ⟨hi.plen, hT, hi.dlen, hi.klen⟩
  | infinite T ts dR M Q L hR hp hT hd hs =>
    refine ⟨?_, ?_, ?_⟩ <;> intro s' h <;> cases h
    exact ⟨by simpa using hi.plen, hT, hd, by simpa using hi.klen⟩
  | toverflow T ts dR L hR hp hT hd hL ho =>
    refine ⟨?_, ?_, ?_⟩ <;> intro s' h <;> cases h
    exact ⟨by simpa using hi.plen, hT, hd, by simpa using hi.klen⟩
  | clip T dR L N hR hp hT hd hL ho hN hT' =>
    have hinv := fun st => hi.clip (bisect q p) nb st h2 hp hT hd hL ho hN hT'
    rw [ccFinish_eq]
    split <;> refine ⟨?_, ?_, ?_⟩ <;> intro s' h <;> cases h <;> exact hinv _

/-- both loops end in the same way -/
def LoopRel (a : CCArgs) (st : State) (r1 r2 : Bool × CCState F) : Prop :=
  r1.1 = r2.1 ∧ StSub st r1.2.state r2.2.state ∧ Sizes a r1.2 ∧ Sizes a r2.2 ∧
    (r1.1 = true → CRel st r1.2 r2.2 ∧ CCInv a r1.2 ∧ CCInv a r2.2)

theorem ccLoop_rel {a : CCArgs} {xyz : List (Pt F)} {knn : List Int} {p : Pt F} {st : State}
    (hc : Ctx a xyz knn) : ∀ (n : Nat) (s1 s2 : CCState F), n ≤ a.k → CCInv a s1 → CCInv a s2 →
      CRel st s1 s2 → ∃ r1 r2, ccLoop a xyz knn p n s1 = .ok r1 ∧ ccLoop a xyz knn p n s2 = .ok r2 ∧
        LoopRel a st r1 r2 := by
  intro n
  induction n with
  | zero =>
    intro s1 s2 _ h1 h2 hr
    exact ⟨_, _, rfl, rfl, rfl, hr.st, h1.sizes, h2.sizes, fun _ => ⟨hr, h1, h2⟩⟩
  | succ n ih =>
    intro s1 s2 hn h1 h2 hr
    obtain ⟨qi, q, hq, hq'⟩ := hc.ids (a.k - (n + 1)) (by omega)
    obtain ⟨o1, o2, e1, e2, e3⟩ := ccStep_rel (p := p) hc.pm h1 h2 hr (by omega) hq hq'
    obtain ⟨o, f1, f2, f3, f4⟩ := ccStep_ccinv (p := p) hc.pm h1 (by omega) hq hq'
    rw [e1] at f1; cases f1
    obtain ⟨o, f1, g2, g3, g4⟩ := ccStep_ccinv (p := p) hc.pm h2 (by omega) hq hq'
    rw [e2] at f1; cases f1
    unfold ccLoop
    rw [e1, e2]
    cases e3 with
    | ret s1' s2' h =>
      exact ⟨_, _, rfl, rfl, rfl, h, f4 _ rfl, g4 _ rfl, fun h => by cases h⟩
    | brk s1' s2' h =>
      exact ⟨_, _, rfl, rfl, rfl, h.st, (f3 _ rfl).sizes, (g3 _ rfl).sizes,
        fun _ => ⟨h, f3 _ rfl, g3 _ rfl⟩⟩
    | next s1' s2' h => exact ih s1' s2' (by omega) (f2 _ rfl) (g2 _ rfl) h

theorem ccCompute_rel {a : CCArgs} {xyz : List (Pt F)} {index : Int} {P1 P2 : List (Plane F)}
    {T1 T2 : List Tri} {dR1 dR2 : List Nat} {knn dknn : List Int} (st : State)
    (hc : Ctx a xyz knn) (hf : a.fits = true) (h6 : 6 ≤ a.pm) (h8 : 8 ≤ a.tm) {p : Pt F}
    (hp : rdI xyz index = .ok p) (hP1 : P1.length = a.pm) (hP2 : P2.length = a.pm)
    (hT1 : T1.length = a.tm) (hT2 : T2.length = a.tm) (hd1 : dR1.length = a.pm)
    (hd2 : dR2.length = a.pm) (hk : dknn.length = a.k) :
    ∃ o1 o2, ccCompute a xyz index .init P1 T1 dR1 knn dknn = .ok o1 ∧
      ccCompute a xyz index st P2 T2 dR2 knn dknn = .ok o2 ∧ o1.knn = o2.knn ∧
      StSub st o1.s.state o2.s.state ∧ Sizes a o2.s := by
  obtain ⟨s1, a1, a2, a3, a4, a5, a6⟩ := ccInit_spec .init xyz knn p hP1 hT1 hd1 hk h6 h8
  obtain ⟨s2, b1, b2, b3, b4, b5, b6⟩ := ccInit_spec st xyz knn p hP2 hT2 hd2 hk h6 h8
  have hts : s1.tsize = s2.tsize := by
    unfold ccInit at a1 b1
    simp only [bind_eq_ok] at a1 b1
    obtain ⟨_, -, _, -, e⟩ := a1
    obtain ⟨_, -, _, -, e'⟩ := b1
    cases e; cases e'; rfl
  have hdk : s1.dknn = s2.dknn := by
    unfold ccInit at a1 b1
    simp only [bind_eq_ok] at a1 b1
    obtain ⟨_, -, _, -, e⟩ := a1
    obtain ⟨_, -, _, -, e'⟩ := b1
    cases e; cases e'; rfl
  have hr : CRel st s1 s2 := ⟨by rw [a5, b5], hts, hdk, by
    rw [a3.planes, b3.planes], by rw [a6, b6], by rw [a4, b4]; exact StSub.init st⟩
  obtain ⟨⟨f1, t1⟩, ⟨f2, t2⟩, e1, e2, e3, e4, e5, e6, e7⟩ :=
    ccLoop_rel (p := p) hc a.k s1 s2 (Nat.le_refl _) a2 b2 hr
  simp only at e3 e4 e5 e6 e7
  subst e3
  unfold ccCompute
  simp only [hf, Bool.not_true, Bool.false_eq_true, if_false, hp, bind_ok, a1, b1, e1, e2]
  cases f1 with
  | false => exact ⟨_, _, rfl, rfl, rfl, e4, e6⟩
  | true =>
    obtain ⟨hr', i1, i2⟩ := e7 rfl
    have hk1 := i1.klen; have hk2 := i2.klen
    simp only [if_true]
    rw [markUnused_ok (by rw [i1.tlen]; exact i1.tt) i1.klen hc.klen,
      markUnused_ok (by rw [i2.tlen]; exact i2.tt) i2.klen hc.klen, hr'.T, hr'.dknn]
    simp only [bind_ok]
    rw [compact_ok (by simp [marked, hk2, hc.klen])]
    exact ⟨_, _, rfl, rfl, rfl, hr'.st, e6⟩

end Votess
