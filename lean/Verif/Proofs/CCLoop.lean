import Verif.Proofs.CC
import Verif.Props.Status
/-! The loop over the neighbours and the final filter, for any arithmetic. -/
set_option linter.unusedSectionVars false
namespace Votess

open FP

variable {F D : Type} [FP F D]

/-- flags are cleared before the radius test -/
def cleared (st : State) : State :=
  let st := if st.get .error_occurred then st.setFalse .error_occurred else st
  if st.get .error_nonvalid_neighbor then st.setFalse .error_nonvalid_neighbor else st

theorem get_cleared (st : State) (f : Status) : (cleared st).get f =
    if f = .error_occurred ∨ f = .error_nonvalid_neighbor then false else st.get f := by
  unfold cleared
  dsimp only
  split <;> split <;> rename_i h1 h2 <;> cases f <;>
    simp_all [State.get_setFalse]

theorem ccFinish_eq (p q : Pt F) (sr : F) (s : CCState F) : ccFinish p q sr s =
    if srReached p q sr then
      .brk { s with state := (cleared s.state).setTrue .security_radius_reached }
    else .next { s with state := cleared s.state } := rfl

/-- the state with another status byte -/
theorem CCInv.state {a : CCArgs} {s : CCState F} (h : CCInv a s) (st : State) :
    CCInv a { s with state := st } :=
  ⟨h.plen, h.tlen, h.dlen, h.klen, h.p6, h.pp, h.tt, h.valid, h.cnt⟩

/-- a generic loop rule -/
theorem ccLoop_induct {a : CCArgs} {xyz : List (Pt F)} {knn : List Int} {p : Pt F}
    (Inv : Nat → CCState F → Prop) (Brk Ret : Nat → CCState F → Prop)
    (hstep : ∀ nb s, nb < a.k → Inv nb s → ∃ o, ccStep a xyz knn p nb s = .ok o ∧
      (∀ s', o = .next s' → Inv (nb + 1) s') ∧ (∀ s', o = .brk s' → Brk nb s') ∧
      (∀ s', o = .ret s' → Ret nb s')) :
    ∀ n s, n ≤ a.k → Inv (a.k - n) s → ∃ b s', ccLoop a xyz knn p n s = .ok (b, s') ∧
      ((b = true ∧ Inv a.k s') ∨ (b = true ∧ ∃ nb, nb < a.k ∧ Brk nb s') ∨
        (b = false ∧ ∃ nb, nb < a.k ∧ Ret nb s')) := by
  intro n
  induction n with
  | zero =>
    intro s hn hi
    exact ⟨true, s, rfl, Or.inl ⟨rfl, by simpa using hi⟩⟩
  | succ n ih =>
    intro s hn hi
    obtain ⟨o, h1, h2, h3, h4⟩ := hstep (a.k - (n + 1)) s (by omega) hi
    unfold ccLoop
    rw [h1, bind_ok]
    cases o with
    | ret s' => exact ⟨false, s', rfl, Or.inr (Or.inr ⟨rfl, _, by omega, h4 s' rfl⟩)⟩
    | brk s' => exact ⟨true, s', rfl, Or.inr (Or.inl ⟨rfl, _, by omega, h3 s' rfl⟩)⟩
    | next s' =>
      have := h2 s' rfl
      rw [show a.k - (n + 1) + 1 = a.k - n by omega] at this
      exact ih s' (by omega) this

/-! ### bookkeeping of planes and candidates -/

/-- the point of candidate number `i` -/
def candPt (xyz : List (Pt F)) (knn : List Int) (i : Nat) : Pt F :=
  match knn[i]? with
  | some q => match rdI xyz q with
    | .ok x => x
    | .error _ => ⟨ofInt 0, ofInt 0, ofInt 0⟩
  | none => ⟨ofInt 0, ofInt 0, ofInt 0⟩

/-- stored planes: the box and the bisectors of the candidates `js` (ascending), and `dknn`
gives for each of them its plane number -/
structure Hist (xyz : List (Pt F)) (knn : List Int) (p : Pt F) (dk0 : List Int) (nb : Nat)
    (s : CCState F) (js : List Nat) : Prop where
  asc : js.Pairwise (· < ·)
  lt : ∀ i ∈ js, i < nb
  psize : s.psize = 6 + js.length
  planes : s.P.take s.psize = pInit ++ js.map (fun i => bisect (candPt xyz knn i) p)
  num : ∀ m i, js[m]? = some i → s.dknn[i]? = some ((6 + m : Nat) : Int)
  old : ∀ i, i ∉ js → s.dknn[i]? = dk0[i]?

theorem Hist.state {xyz : List (Pt F)} {knn : List Int} {p : Pt F} {dk0 : List Int} {nb : Nat}
    {s : CCState F} {js : List Nat} (h : Hist xyz knn p dk0 nb s js) (st : State) :
    Hist xyz knn p dk0 nb { s with state := st } js :=
  ⟨h.asc, h.lt, h.psize, h.planes, h.num, h.old⟩

/-- one more iteration: the planes are unchanged -/
theorem Hist.keep {xyz : List (Pt F)} {knn : List Int} {p : Pt F} {dk0 : List Int} {nb : Nat}
    {s : CCState F} {js : List Nat} (h : Hist xyz knn p dk0 nb s js) (T : List Tri) (st : State) :
    Hist xyz knn p dk0 (nb + 1) { s with T := T, state := st } js :=
  ⟨h.asc, fun i hi => by have := h.lt i hi; omega, h.psize, h.planes, h.num, h.old⟩

theorem candPt_eq {xyz : List (Pt F)} {knn : List Int} {i : Nat} {qi : Int} {q : Pt F}
    (h1 : knn[i]? = some qi) (h2 : rdI xyz qi = .ok q) : candPt xyz knn i = q := by
  simp [candPt, h1, h2]

/-- one more plane -/
theorem Hist.clip {xyz : List (Pt F)} {knn : List Int} {p q : Pt F} {dk0 : List Int} {nb : Nat}
    {s : CCState F} {js : List Nat} (h : Hist xyz knn p dk0 nb s js) (hq : candPt xyz knn nb = q)
    (hp : s.psize < s.P.length) (hk : nb < s.dknn.length) (T : List Tri) (dR : List Nat)
    (ts : Nat) (st : State) :
    Hist xyz knn p dk0 (nb + 1) { s with
        P := s.P.set s.psize (bisect q p), dknn := s.dknn.set nb (s.psize : Int),
        psize := s.psize + 1, T := T, dR := dR, tsize := ts, state := st } (js ++ [nb]) := by
  have hnj : nb ∉ js := fun hn => Nat.lt_irrefl _ (h.lt nb hn)
  refine ⟨?_, ?_, ?_, ?_, ?_, ?_⟩
  · rw [List.pairwise_append]
    exact ⟨h.asc, List.pairwise_singleton _ _, fun x hx y hy => by
      rw [List.mem_singleton] at hy; subst hy; exact h.lt x hx⟩
  · intro i hi
    rcases List.mem_append.mp hi with hi | hi
    · have := h.lt i hi; omega
    · rw [List.mem_singleton] at hi; omega
  · simp only [List.length_append, List.length_singleton]; have := h.psize; omega
  · simp only [List.map_append, List.map_cons, List.map_nil, hq]
    rw [take_set_append hp, h.planes, List.append_assoc]
  · intro m i hm
    simp only
    rw [List.getElem?_append] at hm
    split at hm
    · rename_i hlt
      have hi : i ∈ js := List.mem_of_getElem? hm
      rw [List.getElem?_set_ne (by rintro rfl; exact hnj hi)]
      exact h.num m i hm
    · rename_i hlt
      have : m = js.length ∧ i = nb := by
        rcases hml : m - js.length with _ | c
        · rw [hml] at hm; simp at hm; omega
        · rw [hml] at hm; simp at hm
      obtain ⟨rfl, rfl⟩ := this
      rw [List.getElem?_set_self hk, h.psize]
  · intro i hi
    simp only [List.mem_append, List.mem_singleton, not_or] at hi
    simp only
    rw [List.getElem?_set_ne (by omega)]
    exact h.old i hi.1

/-! ### preservation -/

theorem CCInv.keep {a : CCArgs} {s : CCState F} (h : CCInv a s) {T K : List Tri} (st : State)
    (hT : T.length = a.tm) (hK : T.take s.tsize = K) (hp : (K ++ []).Perm (s.T.take s.tsize)) :
    CCInv a { s with T := T, state := st } := by
  refine ⟨h.plen, hT, h.dlen, h.klen, h.p6, h.pp, h.tt, ?_, h.cnt⟩
  simp only
  rw [hK]
  rw [List.append_nil] at hp
  exact h.valid.perm hp

theorem CCInv.clip {a : CCArgs} {s : CCState F} (h : CCInv a s) {K R N : List Tri} {T : List Tri}
    {dR L : List Nat} (b : Plane F) (nb : Nat) (st : State)
    (hperm : (K ++ R).Perm (s.T.take s.tsize)) (hp : s.psize < a.pm)
    (hT : T.length = a.tm) (hd : dR.length = a.pm) (hL : LoopOf R dR L)
    (ho : K.length + L.length ≤ a.tm) (hN : N.Perm (cone s.psize L))
    (hT' : T.take (K.length + L.length) = K ++ N) :
    CCInv a { s with
        P := s.P.set s.psize b, dknn := s.dknn.set nb (s.psize : Int),
        psize := s.psize + 1, T := T, dR := dR, tsize := K.length + L.length, state := st } := by
  have hlen : K.length + R.length = s.tsize := by
    have := hperm.length_eq
    rw [List.length_append, List.length_take, h.tlen] at this
    have := h.tt; omega
  have h6 := h.p6; have hc := h.cnt; have hl := hL.len
  refine ⟨by simpa using h.plen, hT, hd, by simpa using h.klen, by simp only; omega, hp, ho, ?_, ?_⟩
  · simp only; rw [hT']
    exact valid_step h.valid hperm hL hN
  · simp only; omega

/-- what one iteration does, for any arithmetic -/
structure Ctx (a : CCArgs) (xyz : List (Pt F)) (knn : List Int) : Prop where
  pm : a.pm ≤ 255
  klen : knn.length = a.k
  ids : ∀ i, i < a.k → ∃ qi q, knn[i]? = some qi ∧ rdI xyz qi = .ok q

/-- no flag is set -/
def Clear (st : State) : Prop := ∀ f, st.get f = false

/-- an ascending list of numbers below `n` is no longer than `n` -/
theorem asc_length_le {js : List Nat} {n : Nat} (h1 : js.Pairwise (· < ·)) (h2 : ∀ i ∈ js, i < n) : js.length ≤ n := by
  have hn : js.Nodup := h1.imp fun h => Nat.ne_of_lt h
  have := hn.length_le_of_subset (l₂ := List.range n) fun i hi => List.mem_range.mpr (h2 i hi)
  simpa using this

/-- how a cell computation can fail -/
inductive CCFail (a : CCArgs) (s : CCState F) : Prop
  | pover (h : ∀ f, s.state.get f = decide (f = .error_p_overflow)) (hp : a.pm ≤ s.psize)
  | tover (h : ∀ f, s.state.get f = decide (f = .error_t_overflow)) (hp : a.tm + 4 < 2 * s.psize)
      (hp' : s.psize ≤ a.pm) (hk : s.psize ≤ a.k + 6)
  | inf (h : ∀ f, s.state.get f = decide (f = .error_infinite_boundary ∨ f = .error_occurred))

theorem cone_length (n : Nat) (L : List Nat) : (cone n L).length = L.length := by
  unfold cone; rw [List.length_map, loopEdges_length]

/-- the neighbour loop, for any arithmetic: it ends normally with all invariants, or with
exactly one error. -/
theorem ccStep_inv {a : CCArgs} {xyz : List (Pt F)} {knn : List Int} {p : Pt F} {dk0 : List Int}
    (hc : Ctx a xyz knn) {nb : Nat} {s : CCState F} {js : List Nat} (hnb : nb < a.k) (hi : CCInv a s)
    (hh : Hist xyz knn p dk0 nb s js) (hst : Clear s.state) :
    ∃ o, ccStep a xyz knn p nb s = .ok o ∧
      (∀ s', o = .next s' → CCInv a s' ∧ (∃ js', Hist xyz knn p dk0 (nb + 1) s' js') ∧ Clear s'.state) ∧
      (∀ s', o = .brk s' → CCInv a s' ∧ (∃ js', Hist xyz knn p dk0 (nb + 1) s' js') ∧
        ∀ f, s'.state.get f = decide (f = .security_radius_reached)) ∧
      (∀ s', o = .ret s' → Sizes a s' ∧ CCFail a s') := by
  obtain ⟨qi, q, hq, hq'⟩ := hc.ids nb hnb
  obtain ⟨K, R, sr, vs, o, h1, h2, h3, h4, h5, h6, h7⟩ := ccStep_spec (p := p) hc.pm hi hnb hq hq'
  refine ⟨o, h1, ?_⟩
  have hcl : ∀ f, (cleared (s.state.setTrue .error_nonvalid_neighbor)).get f = false := by
    intro f
    rw [get_cleared, State.get_setTrue, hst f]
    cases f <;> simp
  have hcl' : ∀ f, (cleared s.state).get f = false := by
    intro f; rw [get_cleared, hst f]; simp
  have hlen : K.length + R.length = s.tsize := by
    have := h2.length_eq
    rw [List.length_append, List.length_take, hi.tlen] at this
    have := hi.tt; omega
  cases h7 with
  | keep T hR hT hK =>
    subst hR
    rw [ccFinish_eq]
    split
    · refine ⟨?_, ?_, ?_⟩ <;> intro s' h <;> cases h
      refine ⟨hi.keep _ hT hK h2, ⟨js, hh.keep T _⟩, ?_⟩
      intro f
      simp only [State.get_setTrue, hcl]
      cases f <;> rfl
    · refine ⟨?_, ?_, ?_⟩ <;> intro s' h <;> cases h
      exact ⟨hi.keep _ hT hK h2, ⟨js, hh.keep T _⟩, hcl⟩
  | poverflow T ts hR hp hT =>
    refine ⟨?_, ?_, ?_⟩ <;> intro s' h <;> cases h
    refine ⟨⟨hi.plen, hT, hi.dlen, hi.klen⟩, .pover ?_ hp⟩
    intro f
    simp only [State.get_setTrue, hst f]
    cases f <;> rfl
  | infinite T ts dR M Q L hR hp hT hd hs =>
    refine ⟨?_, ?_, ?_⟩ <;> intro s' h <;> cases h
    refine ⟨⟨by simpa using hi.plen, hT, hd, by simpa using hi.klen⟩, .inf ?_⟩
    intro f
    simp only [State.get_setTrue, hst f]
    cases f <;> rfl
  | toverflow T ts dR L hR hp hT hd hL ho =>
    refine ⟨?_, ?_, ?_⟩ <;> intro s' h <;> cases h
    refine ⟨⟨by simpa using hi.plen, hT, hd, by simpa using hi.klen⟩, .tover ?_ ?_ hp ?_⟩
    · intro f
      simp only [State.get_setTrue, hst f]
      cases f <;> rfl
    · have := hL.len; have := hi.cnt; simp only; omega
    · have h := hh.psize
      have hl := asc_length_le hh.asc hh.lt
      simp only; omega
  | clip T dR L N hR hp hT hd hL ho hN hT' =>
    have hinv := fun st => hi.clip (bisect q p) nb st h2 hp hT hd hL ho hN hT'
    have hhist := fun st => hh.clip (candPt_eq hq hq') (by rw [hi.plen]; exact hp)
      (by rw [hi.klen]; exact hnb) T dR (K.length + L.length) st
    rw [ccFinish_eq]
    split
    · refine ⟨?_, ?_, ?_⟩ <;> intro s' h <;> cases h
      refine ⟨hinv _, ⟨_, hhist _⟩, ?_⟩
      intro f
      simp only [State.get_setTrue, hcl']
      cases f <;> rfl
    · refine ⟨?_, ?_, ?_⟩ <;> intro s' h <;> cases h
      exact ⟨hinv _, ⟨_, hhist _⟩, hcl'⟩


/-! ### initial state -/

theorem wrAll_ok {α : Type} (v : List α) : ∀ (a : List α) (i : Nat), i + v.length ≤ a.length →
    ∃ b, wrAll a i v = .ok b ∧ b.length = a.length ∧ b.take (i + v.length) = a.take i ++ v := by
  induction v with
  | nil => intro a i _; exact ⟨a, rfl, rfl, by simp⟩
  | cons x v ih =>
    intro a i h
    rw [List.length_cons] at h
    obtain ⟨b, h1, h2, h3⟩ := ih (a.set i x) (i + 1) (by rw [List.length_set]; omega)
    refine ⟨b, ?_, by simpa using h2, ?_⟩
    · unfold wrAll; rw [wr_ok (by omega), bind_ok]; exact h1
    · rw [List.length_cons, show i + (v.length + 1) = i + 1 + v.length by omega, h3,
        take_set_append (by omega)]
      simp

theorem tInit_valid : ValidTris 6 tInit := ⟨by decide, by decide⟩

theorem ccInit_spec {a : CCArgs} (st : State) {P : List (Plane F)} {T : List Tri} {dR : List Nat}
    {dknn : List Int} (xyz : List (Pt F)) (knn : List Int) (p : Pt F) (hP : P.length = a.pm)
    (hT : T.length = a.tm) (hd : dR.length = a.pm) (hk : dknn.length = a.k)
    (h6 : 6 ≤ a.pm) (h8 : 8 ≤ a.tm) :
    ∃ s, ccInit st P T dR dknn = .ok s ∧ CCInv a s ∧ Hist xyz knn p dknn 0 s [] ∧ s.state = st ∧
      s.psize = 6 ∧ s.T.take s.tsize = tInit := by
  obtain ⟨P', p1, p2, p3⟩ := wrAll_ok (pInit : List (Plane F)) P 0 (by simp [pInit]; omega)
  obtain ⟨T', t1, t2, t3⟩ := wrAll_ok tInit T 0 (by simp [tInit]; omega)
  simp only [Nat.zero_add, List.take_zero, List.nil_append] at p3 t3
  have e8 : tInit.length = 8 := rfl
  have e6 : (pInit : List (Plane F)).length = 6 := rfl
  rw [e8] at t3; rw [e6] at p3
  unfold ccInit
  rw [p1, bind_ok, t1, bind_ok]
  refine ⟨_, rfl, ⟨by simp only; omega, by simp only; omega, hd, hk, Nat.le_refl 6, h6, h8, ?_, ?_⟩,
    ⟨?_, ?_, ?_, ?_, ?_, ?_⟩, rfl, rfl, t3⟩
  · simp only [t3]; exact tInit_valid
  · simp
  · exact List.Pairwise.nil
  · intro i hi; cases hi
  · rfl
  · simp [p3]
  · intro m i h; simp at h
  · intro i _; rfl

/-! ### the final filter -/

/-- does a triangle use plane `d` -/
def usesPlane (T : List Tri) (d : Int) : Bool :=
  T.any fun t => decide ((t.a : Int) = d) || decide ((t.b : Int) = d) || decide ((t.c : Int) = d)

theorem planeUsed_ok {T : List Tri} {ts : Nat} (h : ts ≤ T.length) (d : Int) :
    planeUsed T ts d = .ok (usesPlane (T.take ts) d) := by
  unfold planeUsed
  obtain ⟨f, h1, h2⟩ := forN_inv (fun i f => f = usesPlane (T.take i) d) ts
    (fun ti f => do
      let t ← rd T ti
      pure (f || decide ((t.a : Int) = d) || decide ((t.b : Int) = d) || decide ((t.c : Int) = d)))
    false
    (by simp [usesPlane]) (by
      intro i f hi hf
      refine ⟨_, by rw [rd_ok (by omega : i < T.length), bind_ok]; rfl, ?_⟩
      subst hf
      have e : T.take (i + 1) = T.take i ++ [T[i]] := by
        rw [List.take_add_one, List.getElem?_eq_getElem (by omega)]; rfl
      rw [e]
      simp [usesPlane, Bool.or_assoc, -List.take_append_getElem])
  rw [h1, h2]

/-- entry `i` after marking -/
def marked (T : List Tri) (dknn knn : List Int) : List Int :=
  List.zipWith (fun d v => if usesPlane T d then v else kUndefined) dknn knn

theorem markUnused_ok {k : Nat} {T : List Tri} {ts : Nat} {dknn knn : List Int}
    (hT : ts ≤ T.length) (hd : dknn.length = k) (hk : knn.length = k) :
    markUnused k T ts dknn knn = .ok (marked (T.take ts) dknn knn) := by
  unfold markUnused
  obtain ⟨l, h1, h2⟩ := forN_inv
    (fun i l => l = marked (T.take ts) (dknn.take i) (knn.take i) ++ knn.drop i) k
    (fun di knn => do
      let d ← rd dknn di
      let u ← planeUsed T ts d
      if u then pure knn else wr knn di kUndefined) knn
    (by simp [marked]) (by
      intro i l hi hl
      rw [rd_ok (by omega : i < dknn.length), bind_ok, planeUsed_ok hT, bind_ok]
      have hm : (marked (T.take ts) (dknn.take i) (knn.take i)).length = i := by
        simp [marked]; omega
      have e1 : dknn.take (i + 1) = dknn.take i ++ [dknn[i]] := by
        rw [List.take_add_one, List.getElem?_eq_getElem (by omega)]; rfl
      have e2 : knn.take (i + 1) = knn.take i ++ [knn[i]] := by
        rw [List.take_add_one, List.getElem?_eq_getElem (by omega)]; rfl
      have e3 : knn.drop i = knn[i] :: knn.drop (i + 1) := List.drop_eq_getElem_cons (by omega)
      have e4 : marked (T.take ts) (dknn.take (i + 1)) (knn.take (i + 1))
          = marked (T.take ts) (dknn.take i) (knn.take i)
            ++ [if usesPlane (T.take ts) dknn[i] then knn[i] else kUndefined] := by
        rw [e1, e2]; unfold marked
        rw [List.zipWith_append (by simp; omega)]; rfl
      by_cases hu : usesPlane (T.take ts) dknn[i] = true
      · rw [if_pos hu]
        refine ⟨_, rfl, ?_⟩
        rw [e4, if_pos hu, hl, e3]; simp
      · rw [if_neg hu]
        refine ⟨_, wr_ok (by rw [hl]; simp [hm]; omega) _, ?_⟩
        rw [e4, if_neg hu, hl, e3, List.set_append, if_neg (by omega), hm, Nat.sub_self,
          List.set_cons_zero]
        simp)
  rw [h1, h2]
  rw [List.take_of_length_le (l := dknn) (by omega), List.take_of_length_le (l := knn) (by omega),
    List.drop_eq_nil_of_le (by omega)]
  simp

theorem compact_ok {k : Nat} {knn : List Int} (hk : knn.length = k) :
    compact k knn = .ok (knn.filter (fun v => decide (v ≠ kUndefined))
      ++ List.replicate (k - (knn.filter (fun v => decide (v ≠ kUndefined))).length) kUndefined) := by
  unfold compact
  obtain ⟨⟨l, c⟩, h1, h2, h3, h4⟩ := forN_inv
    (fun i (st : List Int × Nat) => st.2 ≤ i ∧
      st.1.take st.2 = (knn.take i).filter (fun v => decide (v ≠ kUndefined)) ∧
      (st.1.length = k ∧ st.1.drop i = knn.drop i ∧
        st.2 = ((knn.take i).filter (fun v => decide (v ≠ kUndefined))).length))
    k (fun di (st : List Int × Nat) => do
      let v ← rd st.1 di
      if v = kUndefined then pure st
      else do
        let l ← wr st.1 st.2 v
        pure (l, st.2 + 1)) (knn, 0) ⟨Nat.le_refl _, by simp, hk, rfl, by simp⟩ (by
      rintro i ⟨l, c⟩ hi ⟨a1, a2, a3, a4, a5⟩
      simp only at a1 a2 a3 a4 a5 ⊢
      have hv : l[i]? = some knn[i] := by
        have := congrArg (fun x => x[0]?) a4
        simpa [List.getElem?_drop, List.getElem?_eq_getElem (show i < knn.length by omega)] using this
      have e2 : knn.take (i + 1) = knn.take i ++ [knn[i]] := by
        rw [List.take_add_one, List.getElem?_eq_getElem (by omega)]; rfl
      have ed : ∀ l : List Int, l.drop i = knn.drop i → l.drop (i + 1) = knn.drop (i + 1) := by
        intro l h
        have := congrArg (List.drop 1) h
        simpa [List.drop_drop, Nat.add_comm] using this
      rw [rd_eq_ok.mpr hv, bind_ok, e2, List.filter_append]
      by_cases hu : knn[i] = kUndefined
      · rw [if_pos hu]
        refine ⟨_, rfl, by simp only; omega, ?_, a3, ed l a4, ?_⟩
        · simp [hu, a2]
        · simp [hu, a5]
      · rw [if_neg hu, wr_ok (by omega), bind_ok]
        refine ⟨_, rfl, by simp only; omega, ?_, by simpa using a3, ?_, ?_⟩
        · simp only
          rw [take_set_append (by omega), a2]; simp [hu]
        · simp only
          rw [List.drop_set_of_lt (by omega)]; exact ed l a4
        · simp [hu, a5])
  rw [h1]
  simp only [bind_ok]
  simp only at h2 h3 h4
  rw [List.take_of_length_le (l := knn) (by omega)] at h3 h4
  obtain ⟨h4, -, h5⟩ := h4
  obtain ⟨l', g1, g2⟩ := forN_inv
    (fun j (x : List Int) => x = l.take c ++ List.replicate j kUndefined ++ l.drop (c + j)) (k - c)
    (fun j knn => wr knn (c + j) kUndefined) l (by simp) (by
      intro j x hj hx
      have hl : (l.take c).length = c := by rw [List.length_take]; omega
      have e3 : l.drop (c + j) = l[c + j] :: l.drop (c + j + 1) := List.drop_eq_getElem_cons (by omega)
      refine ⟨_, wr_ok (by rw [hx]; simp; omega) _, ?_⟩
      rw [hx, e3, List.set_append, if_neg (by simp; omega), List.length_append, hl,
        List.length_replicate, Nat.sub_self, List.set_cons_zero, List.replicate_succ']
      simp [Nat.add_assoc])
  rw [g1, g2, h3, ← h5, List.drop_eq_nil_of_le (by omega)]
  simp

/-- the filtered row: candidates whose plane is used -/
def selected (T : List Tri) (dknn knn : List Int) : List Int :=
  ((dknn.zip knn).filter fun x => usesPlane T x.1).map (·.2)

theorem selected_eq {T : List Tri} {dknn knn : List Int} (h : ∀ v ∈ knn, v ≠ kUndefined) :
    (marked T dknn knn).filter (fun v => decide (v ≠ kUndefined)) = selected T dknn knn := by
  induction dknn generalizing knn with
  | nil => simp [marked, selected]
  | cons d dknn ih =>
    cases knn with
    | nil => simp [marked, selected]
    | cons v knn =>
      have hv := h v (by simp)
      have := ih (knn := knn) (fun w hw => h w (by simp [hw]))
      unfold marked selected at *
      by_cases hu : usesPlane T d = true <;> simp [hu, hv] at * <;> exact this

theorem selected_length_le (T : List Tri) (dknn knn : List Int) :
    (selected T dknn knn).length ≤ dknn.length := by
  unfold selected
  rw [List.length_map]
  refine Nat.le_trans (List.length_filter_le _ _) ?_
  rw [List.length_zip]; omega

theorem selected_sublist (T : List Tri) (dknn knn : List Int) :
    (selected T dknn knn).Sublist knn := by
  induction dknn generalizing knn with
  | nil => simp [selected]
  | cons d dknn ih =>
    cases knn with
    | nil => simp [selected]
    | cons v knn =>
      have := ih (knn := knn)
      unfold selected at *
      rw [List.zip_cons_cons, List.filter_cons]
      split
      · rw [List.map_cons]; exact List.Sublist.cons_cons _ this
      · exact List.Sublist.cons _ this


/-! ### the whole function -/

/-- sizes of the rows given to a task and validity of its ids -/
structure CCPre (a : CCArgs) (xyz : List (Pt F)) (index : Int) (P : List (Plane F)) (T : List Tri)
    (dR : List Nat) (knn dknn : List Int) : Prop where
  ctx : Ctx a xyz knn
  fits : a.fits = true
  pm6 : 6 ≤ a.pm
  tm8 : 8 ≤ a.tm
  self : ∃ p, rdI xyz index = .ok p
  plen : P.length = a.pm
  tlen : T.length = a.tm
  dlen : dR.length = a.pm
  klen : dknn.length = a.k

theorem CCPre.ne_undef {a : CCArgs} {xyz : List (Pt F)} {knn : List Int} (h : Ctx a xyz knn) :
    ∀ v ∈ knn, v ≠ kUndefined := by
  intro v hv hu
  obtain ⟨i, hi, he⟩ := List.getElem_of_mem hv
  obtain ⟨qi, q, h1, h2⟩ := h.ids i (by rw [← h.klen]; exact hi)
  rw [List.getElem?_eq_getElem hi, he] at h1
  cases h1
  have := (rdI_eq_ok.mp h2).1
  rw [hu] at this
  exact absurd this (by decide)

/-- how the result is put together -/
theorem ccCompute_run {a : CCArgs} {xyz : List (Pt F)} {index : Int} (st : State) {P : List (Plane F)}
    {T : List Tri} {dR : List Nat} {knn dknn : List Int} (h : CCPre a xyz index P T dR knn dknn)
    {p : Pt F} (hp : rdI xyz index = .ok p) {s0 s : CCState F} {b : Bool}
    (h0 : ccInit st P T dR dknn = .ok s0) (h1 : ccLoop a xyz knn p a.k s0 = .ok (b, s))
    (hb : b = true → CCInv a s) :
    ccCompute a xyz index st P T dR knn dknn = .ok
      { knn := if b then selected (s.T.take s.tsize) s.dknn knn
                  ++ List.replicate (a.k - (selected (s.T.take s.tsize) s.dknn knn).length) kUndefined
               else knn
        s := s } := by
  unfold ccCompute
  rw [h.fits, hp]
  simp only [Bool.not_true, Bool.false_eq_true, if_false, bind_ok, h0, h1]
  cases b with
  | false => rfl
  | true =>
    have hi := hb rfl
    have hkl := h.ctx.klen
    have hm : (marked (s.T.take s.tsize) s.dknn knn).length = a.k := by
      have := hi.klen
      simp [marked]; omega
    simp only [if_true]
    rw [markUnused_ok (by rw [hi.tlen]; exact hi.tt) hi.klen hkl, bind_ok, compact_ok hm, bind_ok,
      selected_eq (CCPre.ne_undef h.ctx)]
    rfl

/-- what is known about the result, for any arithmetic -/
structure CCRes (a : CCArgs) (xyz : List (Pt F)) (p : Pt F) (knn dknn : List Int) (o : CCOut F) : Prop where
  sizes : Sizes a o.s
  res : (CCFail a o.s ∧ o.knn = knn) ∨
    (CCInv a o.s ∧ (∃ nb js, nb ≤ a.k ∧ Hist xyz knn p dknn nb o.s js) ∧
      ((∀ f, o.s.state.get f = decide (f = .security_radius_reached)) ∨ Clear o.s.state) ∧
      o.knn = selected (o.s.T.take o.s.tsize) o.s.dknn knn ++ List.replicate
        (a.k - (selected (o.s.T.take o.s.tsize) o.s.dknn knn).length) kUndefined)

theorem CCInv.sizes {a : CCArgs} {s : CCState F} (h : CCInv a s) : Sizes a s :=
  ⟨h.plen, h.tlen, h.dlen, h.klen⟩

theorem ccCompute_res {a : CCArgs} {xyz : List (Pt F)} {index : Int} {st : State} (hst : Clear st)
    {P : List (Plane F)} {T : List Tri} {dR : List Nat} {knn dknn : List Int}
    (h : CCPre a xyz index P T dR knn dknn) {p : Pt F} (hp : rdI xyz index = .ok p) :
    ∃ o, ccCompute a xyz index st P T dR knn dknn = .ok o ∧ CCRes a xyz p knn dknn o := by
  obtain ⟨s0, i1, i2, i3, i4, -, -⟩ := ccInit_spec st xyz knn p h.plen h.tlen h.dlen h.klen h.pm6 h.tm8
  obtain ⟨b, s, l1, l2⟩ := ccLoop_induct (a := a) (xyz := xyz) (knn := knn) (p := p)
    (fun nb s => CCInv a s ∧ (∃ js', Hist xyz knn p dknn nb s js') ∧ Clear s.state)
    (fun nb s => CCInv a s ∧ (∃ js', Hist xyz knn p dknn (nb + 1) s js') ∧
        ∀ f, s.state.get f = decide (f = .security_radius_reached))
    (fun nb s => Sizes a s ∧ CCFail a s)
    (by
      rintro nb s hnb ⟨j1, ⟨js, j2⟩, j3⟩
      exact ccStep_inv h.ctx hnb j1 j2 j3)
    a.k s0 (Nat.le_refl _) ⟨i2, ⟨[], by simpa using i3⟩, by rw [i4]; exact hst⟩
  have run := fun hb => ccCompute_run st h hp i1 l1 hb
  rcases l2 with ⟨rfl, j1, ⟨js, j2⟩, j3⟩ | ⟨rfl, nb, hnb, j1, ⟨js, j2⟩, j3⟩ | ⟨rfl, nb, hnb, j1, j2⟩
  · exact ⟨_, run (fun _ => j1), j1.sizes, Or.inr ⟨j1, ⟨_, js, Nat.le_refl _, j2⟩, Or.inr j3, rfl⟩⟩
  · exact ⟨_, run (fun _ => j1), j1.sizes, Or.inr ⟨j1, ⟨_, js, hnb, j2⟩, Or.inl j3, rfl⟩⟩
  · exact ⟨_, run (fun h => by cases h), j1, Or.inl ⟨j2, rfl⟩⟩

end Votess
