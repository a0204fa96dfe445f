import Verif.Proofs.Driver
import Verif.Proofs.Knn
/-!
The recompute pass.  Any arithmetic.
-/
set_option linter.unusedSectionVars false
namespace Votess

open FP

variable {F D : Type} [FP F D]

/-- the sizes are in the range for which the cell computation is defined -/
structure SizeOK (a : CCArgs) : Prop where
  k1 : 1 ≤ a.k
  k : a.k < 65536
  pm6 : 6 ≤ a.pm
  pm255 : a.pm ≤ 255
  tm8 : 8 ≤ a.tm
  tm : a.tm < 32768

theorem ready_of_grid {S : Sorted F} {gr : Int} {a : CCArgs}
    (hg : GridOK gr S.xyz.length S.id S.offset) (ha : SizeOK a) : Ready S gr a := by
  refine ⟨ha.pm6, ha.pm255, ha.tm8, ha.tm, ha.k, fun index hi => ?_⟩
  obtain ⟨res, h, q, c, m, e, hperm, -, -, -, ⟨hl, V, d, hV, hcand, hp, -⟩, -, -⟩ :=
    knnCompute_inv S.xyz index a.k ha.k1 hg (List.replicate a.k ((0 : Int), dinf F)) (by simp) hi
  refine ⟨res, e, by rw [hperm.length_eq, hl], ?_⟩
  intro x hx
  have hx' : x ∈ V ++ List.replicate a.k ((0 : Int), dinf F) :=
    ((hperm.append_right d).trans hp).mem_iff.mp (List.mem_append_left _ hx)
  rcases List.mem_append.mp hx' with hx' | hx'
  · obtain ⟨pt, h1, h2, -⟩ := hcand x hx'
    have := (List.getElem?_eq_some_iff.mp h2).1
    exact ⟨h1, by omega⟩
  · rw [List.eq_of_mem_replicate hx']
    exact ⟨Int.le_refl 0, by simp only; omega⟩

/-- what is known about the result of one cell -/
theorem Ready.res {S : Sorted F} {gr : Int} {a : CCArgs} (h : Ready S gr a) {index : Nat}
    (hi : index < S.xyz.length) : ∃ row o p,
      knnCompute S.xyz S.id S.offset (index : Nat) a.k gr (List.replicate a.k ((0 : Int), dinf F)) = .ok row ∧
      ccCompute a S.xyz index .init (List.replicate a.pm ⟨ofInt 0, ofInt 0, ofInt 0, ofInt 0⟩)
        (List.replicate a.tm ⟨0, 0, 0⟩) (List.replicate a.pm 0) (row.map (·.1))
        (List.replicate a.k kUndefined) = .ok o ∧
      rdI S.xyz (index : Nat) = .ok p ∧
      CCRes a S.xyz p (row.map (·.1)) (List.replicate a.k kUndefined) o ∧
      soloOf S gr a index = (o.knn, o.s.state) := by
  obtain ⟨row, e1, e2, e3⟩ := h.knn index hi
  have hin : CellInput a S.xyz index
      (List.replicate a.pm ⟨ofInt 0, ofInt 0, ofInt 0, ofInt 0⟩)
      (List.replicate a.tm ⟨0, 0, 0⟩) (List.replicate a.pm 0) (row.map (·.1))
      (List.replicate a.k kUndefined) :=
    ⟨h.pm6, h.pm255, h.tm8, h.tm, h.k, by omega, by
      intro v hv
      obtain ⟨e, h1, rfl⟩ := List.mem_map.mp hv
      exact e3 e h1, by simpa using e2, by simp, by simp, by simp, by simp⟩
  obtain ⟨o, p, g1, g2, g3⟩ := cell_res hin State.get_init
  refine ⟨row, o, p, e1, g1, g2, g3, ?_⟩
  unfold soloOf soloCell
  simp [e1, g1]

/-- vertices can only overflow a small buffer -/
theorem Ready.tover {S : Sorted F} {gr : Int} {a : CCArgs} (h : Ready S gr a) {index : Nat}
    (hi : index < S.xyz.length) (ht : (stateOf S gr a index).get .error_t_overflow = true) :
    a.tm + 4 < 2 * a.pm ∧ a.tm + 4 < 2 * (a.k + 6) := by
  obtain ⟨row, o, p, -, -, -, hr, hc⟩ := h.res hi
  unfold stateOf at ht
  rw [hc] at ht
  rcases hr.res with ⟨hf, -⟩ | ⟨-, -, hf, -⟩
  · cases hf with
    | pover h1 _ => rw [h1] at ht; simp at ht
    | tover h1 h2 h3 h4 => omega
    | inf h1 => rw [h1] at ht; simp at ht
  · rcases hf with hf | hf
    · rw [hf] at ht; simp at ht
    · rw [hf] at ht; simp at ht

/-! ### one round -/

/-- replace the entries numbered by `U` -/
def updAt {α : Type} (l : List α) (U : List Nat) (f : Nat → α) : List α :=
  l.zipIdx.map fun e => if e.2 ∈ U then f e.2 else e.1

theorem updAt_length {α : Type} (l : List α) (U : List Nat) (f : Nat → α) :
    (updAt l U f).length = l.length := by simp [updAt]

theorem updAt_get {α : Type} (l : List α) (U : List Nat) (f : Nat → α) (j : Nat) :
    (updAt l U f)[j]? = if j < l.length ∧ j ∈ U then some (f j) else l[j]? := by
  unfold updAt
  rw [List.getElem?_map, List.getElem?_zipIdx]
  by_cases hj : j < l.length
  · rw [List.getElem?_eq_getElem hj]
    by_cases hU : j ∈ U <;> simp [hU, hj]
  · rw [List.getElem?_eq_none (by omega)]; simp [hj]

theorem eq_updAt {α : Type} {l l' : List α} {U : List Nat} {f : Nat → α} (hl : l'.length = l.length)
    (h1 : ∀ j, j < l.length → j ∈ U → l'[j]? = some (f j)) (h2 : ∀ j, j ∉ U → l'[j]? = l[j]?) :
    l' = updAt l U f := by
  apply List.ext_getElem?
  intro j
  rw [updAt_get]
  by_cases hU : j ∈ U
  · by_cases hj : j < l.length
    · rw [if_pos ⟨hj, hU⟩, h1 j hj hU]
    · rw [if_neg (fun h => hj h.1), List.getElem?_eq_none (by omega), List.getElem?_eq_none (by omega)]
  · rw [if_neg (fun h => hU h.2), h2 j hU]

/-- is flag `f` set in the state of point `i` -/
def flagAt (states : List State) (f : Status) (i : Nat) : Bool :=
  match states[i]? with
  | some s => s.get f
  | none => false

theorem recFilter_spec {states : List State} {ixs : List Nat} (h : ∀ i ∈ ixs, i < states.length) :
    recFilter (ixs.map (fun i : Nat => (i : Int))) states
      = .ok ((ixs.filter fun i => !flagAt states .security_radius_reached i).map (fun i : Nat => (i : Int)),
          ixs.any (flagAt states .error_p_overflow), ixs.any (flagAt states .error_t_overflow)) := by
  unfold recFilter
  rw [List.foldlM_map]
  obtain ⟨r, h1, h2⟩ := foldlM_inv
    (fun (p : List Nat) (r : List Int × Bool × Bool) =>
      r = ((p.filter fun i => !flagAt states .security_radius_reached i).map (fun i : Nat => (i : Int)),
        p.any (flagAt states .error_p_overflow), p.any (flagAt states .error_t_overflow)))
    ixs (fun (acc : List Int × Bool × Bool) (i : Nat) => do
      let s ← rdI states (i : Int)
      pure (if s.get .security_radius_reached then acc.1 else acc.1 ++ [(i : Int)],
        acc.2.1 || s.get .error_p_overflow, acc.2.2 || s.get .error_t_overflow)) ([], false, false)
    rfl (by
      intro p i q r hs hr
      have hi : i < states.length := h i (by rw [hs]; simp)
      rw [rdI_natCast, rd_ok hi, bind_ok]
      refine ⟨_, rfl, ?_⟩
      have e : ∀ f, flagAt states f i = states[i].get f := by
        intro f; unfold flagAt; rw [List.getElem?_eq_getElem hi]
      subst hr
      simp only [List.filter_append, List.map_append, List.any_append, List.filter_cons,
        List.filter_nil, List.any_cons, List.any_nil, Bool.or_false, e]
      cases states[i].get .security_radius_reached <;> simp)
  rw [← h2]; exact h1

theorem ccArgs_nat (k pm tm : Nat) : ccArgs k pm tm = .ok ⟨k, pm, tm⟩ := by
  unfold ccArgs
  rw [if_pos ⟨by omega, by omega, by omega⟩]
  simp

/-- the new sizes of a round -/
def recArgs (n : Nat) (r : RecState) (ixs : List Nat) : CCArgs :=
  ⟨(if (n : Int) - 1 < r.k * 2 then (n : Int) - 1 else r.k * 2).toNat,
   (if ixs.any (flagAt r.states .error_p_overflow) then r.pm * 2 else r.pm).toNat,
   (if ixs.any (flagAt r.states .error_t_overflow) then r.tm * 2 else r.tm).toNat⟩

/-- the points that are computed in a round -/
def recTodo (r : RecState) (ixs : List Nat) : List Nat :=
  ixs.filter fun i => !flagAt r.states .security_radius_reached i

/-- the state after a round in which something was computed -/
def recNext (S : Sorted F) (gr : Int) (r : RecState) (ixs : List Nat) : RecState where
  k := (recArgs S.xyz.length r ixs).k
  pm := (recArgs S.xyz.length r ixs).pm
  tm := (recArgs S.xyz.length r ixs).tm
  indices := (recTodo r ixs).map fun i : Nat => (i : Int)
  tmpnn := updAt r.tmpnn (recTodo r ixs) (rowOf S gr (recArgs S.xyz.length r ixs))
  states := updAt (List.replicate S.xyz.length State.init) (recTodo r ixs)
    (stateOf S gr (recArgs S.xyz.length r ixs))

/-- shape of the variables between two rounds -/
structure RecShape (S : Sorted F) (r : RecState) (ixs : List Nat) : Prop where
  ind : r.indices = ixs.map fun i : Nat => (i : Int)
  lt : ∀ i ∈ ixs, i < S.xyz.length
  tlen : r.tmpnn.length = S.xyz.length
  slen : r.states.length = S.xyz.length
  k : 1 ≤ r.k
  pm : 0 ≤ r.pm
  tm : 0 ≤ r.tm

theorem reset_all (states : List State) : states.map State.reset = List.replicate states.length .init := by
  apply map_const_eq

theorem good_init (S : Sorted F) (gr : Int) (a : CCArgs) :
    Good S gr a (List.replicate S.xyz.length .init) := by
  refine ⟨by simp, fun i st h => Or.inl ?_⟩
  rw [List.getElem?_replicate] at h
  split at h
  · cases h; rfl
  · cases h

theorem recRound_done {S : Sorted F} {gr : Int} {nth : Nat} {r : RecState} {ixs : List Nat}
    (hs : RecShape S r ixs) (h0 : recTodo r ixs = []) :
    recRound S gr nth r
      = .ok (.done { r with indices := [], states := List.replicate S.xyz.length .init }) := by
  unfold recRound
  rw [hs.ind, recFilter_spec (fun i hi => by rw [hs.slen]; exact hs.lt i hi)]
  unfold recTodo at h0
  simp only [bind_ok, h0, List.map_nil, List.length_nil, if_true, reset_all, hs.slen, pure_eq_ok]

theorem recRound_next {S : Sorted F} {gr : Int} {nth : Nat} (hn : 1 ≤ nth) {r : RecState}
    {ixs : List Nat} (hs : RecShape S r ixs) (h0 : recTodo r ixs ≠ [])
    (ha : Ready S gr (recArgs S.xyz.length r ixs)) :
    recRound S gr nth r = .ok (if (S.xyz.length : Int) - 1 ≤ (recArgs S.xyz.length r ixs).k
      then .done (recNext S gr r ixs) else .next (recNext S gr r ixs)) := by
  have hlen : 1 ≤ S.xyz.length := by
    obtain ⟨x, hx⟩ := List.exists_mem_of_ne_nil _ h0
    have := hs.lt x (List.mem_of_mem_filter hx)
    omega
  unfold recRound
  rw [hs.ind, recFilter_spec (fun i hi => by rw [hs.slen]; exact hs.lt i hi)]
  have hl0 : ¬ (recTodo r ixs).length = 0 := fun h => h0 (List.length_eq_zero_iff.mp h)
  have hk := hs.k; have hpm := hs.pm; have htm := hs.tm
  simp only [bind_ok, List.length_map]
  change (if (recTodo r ixs).length = 0 then _ else _) = _
  rw [if_neg hl0]
  change (ccArgs (if (S.xyz.length : Int) - 1 < r.k * 2 then (S.xyz.length : Int) - 1 else r.k * 2)
    (if ixs.any (flagAt r.states .error_p_overflow) then r.pm * 2 else r.pm)
    (if ixs.any (flagAt r.states .error_t_overflow) then r.tm * 2 else r.tm) >>= _) = _
  have ek : (if (S.xyz.length : Int) - 1 < r.k * 2 then (S.xyz.length : Int) - 1 else r.k * 2)
      = ((recArgs S.xyz.length r ixs).k : Int) := by
    unfold recArgs; simp only; rw [Int.toNat_of_nonneg]; split <;> omega
  have ep : (if ixs.any (flagAt r.states .error_p_overflow) then r.pm * 2 else r.pm)
      = ((recArgs S.xyz.length r ixs).pm : Int) := by
    unfold recArgs; simp only; rw [Int.toNat_of_nonneg]; split <;> omega
  have et : (if ixs.any (flagAt r.states .error_t_overflow) then r.tm * 2 else r.tm)
      = ((recArgs S.xyz.length r ixs).tm : Int) := by
    unfold recArgs; simp only; rw [Int.toNat_of_nonneg]; split <;> omega
  rw [ek, ep, et, ccArgs_nat]
  simp only [bind_ok]
  rw [if_neg (by omega)]
  have hlt : ∀ i ∈ recTodo r ixs, i < S.xyz.length := fun i hi => hs.lt i (List.mem_of_mem_filter hi)
  obtain ⟨b', states', t1, t2, t3, t4, t5, t6⟩ := tasks_spec ha
    (indices := (recTodo r ixs).map (fun i : Nat => (i : Int))) rfl rfl hlt
    (allRows_nodup nth ((recTodo r ixs).length / nth) (recTodo r ixs).length)
    (fun idx hx => allRows_lt (Nat.le_refl _) (Nat.le_refl _) hx) (WF.alloc _ (recTodo r ixs).length)
    (fun idx hx => FreshHeap.alloc _ _ idx hx) (good_init S gr _)
  obtain ⟨tmp', u1, u2, u3, u4⟩ := tmpnnFill_spec (S := S) (gr := gr)
    (a := recArgs S.xyz.length r ixs) (ixs := recTodo r ixs)
    (size := (recTodo r ixs).length) (heap := b'.heap) (tmpnn := r.tmpnn) (Nat.le_refl _)
    (fun i hi' => by rw [hs.tlen]; exact hlt i hi')
    (fun idx index hidx hx => t3 idx index (allRows_cover hn hidx) hx)
  rw [reset_all, hs.slen]
  change (List.foldlM (fun st idx => runTask S gr (recArgs S.xyz.length r ixs)
    ((recTodo r ixs).map (fun i : Nat => (i : Int))) idx st)
    (Bufs.alloc (recTodo r ixs).length (recArgs S.xyz.length r ixs).k (recArgs S.xyz.length r ixs).pm
      (recArgs S.xyz.length r ixs).tm, List.replicate S.xyz.length State.init)
    (allRows nth ((recTodo r ixs).length / nth) (recTodo r ixs).length) >>= _) = _
  rw [t1]
  simp only [bind_ok]
  change (tmpnnFill ((recTodo r ixs).map (fun i : Nat => (i : Int))) (recTodo r ixs).length b'.heap
    r.tmpnn >>= _) = _
  rw [u1]
  simp only [bind_ok]
  have hmem : ∀ j, j ∈ recTodo r ixs → ∃ idx, idx < (recTodo r ixs).length ∧ (recTodo r ixs)[idx]? = some j := by
    intro j hj
    obtain ⟨idx, h1, h2⟩ := List.getElem_of_mem hj
    exact ⟨idx, h1, by rw [List.getElem?_eq_getElem h1, h2]⟩
  have e1 : tmp' = updAt r.tmpnn (recTodo r ixs) (rowOf S gr (recArgs S.xyz.length r ixs)) := by
    refine eq_updAt u2 ?_ ?_
    · intro j _ hj
      obtain ⟨idx, h1, h2⟩ := hmem j hj
      exact u3 idx j h1 h2
    · intro j hj
      exact u4 j (fun idx _ h => hj (List.mem_of_getElem? h))
  have e2 : states' = updAt (List.replicate S.xyz.length State.init) (recTodo r ixs)
      (stateOf S gr (recArgs S.xyz.length r ixs)) := by
    refine eq_updAt (by rw [t4.1]; simp) ?_ ?_
    · intro j _ hj
      obtain ⟨idx, h1, h2⟩ := hmem j hj
      exact t5 idx j (allRows_cover hn h1) h2
    · intro j hj
      exact t6 j (Or.inl (fun idx _ h => hj (List.mem_of_getElem? h)))
  rw [e1, e2]
  unfold recNext
  split <;> rfl

/-! ### all rounds, when the sizes stay in range -/

/-- no cell ever needs more than 128 planes, so the plane buffer never has to grow beyond 255 -/
def PlanesBounded (S : Sorted F) (gr : Int) (kmax : Nat) : Prop :=
  ∀ a, SizeOK a → a.k ≤ kmax → 128 ≤ a.pm → ∀ i, i < S.xyz.length →
    (stateOf S gr a i).get .error_p_overflow = false

/-- a cell stores at most one plane per candidate besides the six of the box -/
theorem no_plane_overflow {S : Sorted F} {gr : Int} (hg : GridOK gr S.xyz.length S.id S.offset)
    {a : CCArgs} (ha : SizeOK a) (hk : a.k + 6 ≤ a.pm) {i : Nat} (hi : i < S.xyz.length) :
    (stateOf S gr a i).get .error_p_overflow = false := by
  obtain ⟨row, o, p, hrow, ho, hp, hr, hc⟩ := (ready_of_grid hg ha).res hi
  have hin : CellInput a S.xyz i
      (List.replicate a.pm ⟨ofInt 0, ofInt 0, ofInt 0, ofInt 0⟩)
      (List.replicate a.tm ⟨0, 0, 0⟩) (List.replicate a.pm 0) (row.map (·.1))
      (List.replicate a.k kUndefined) := by
    obtain ⟨row', e1, e2, e3⟩ := (ready_of_grid hg ha).knn i hi
    rw [hrow] at e1; cases e1
    exact ⟨ha.pm6, ha.pm255, ha.tm8, ha.tm, ha.k, by omega, by
      intro v hv
      obtain ⟨e, h1, rfl⟩ := List.mem_map.mp hv
      exact e3 e h1, by simpa using e2, by simp, by simp, by simp, by simp⟩
  have hpre := hin.pre
  obtain ⟨s0, i1, i2, i3, i4, i5, -⟩ := ccInit_spec .init S.xyz (row.map (·.1)) p hpre.plen hpre.tlen
    hpre.dlen hpre.klen hpre.pm6 hpre.tm8
  obtain ⟨b, s, l1, l2⟩ := ccLoop_induct (a := a) (xyz := S.xyz) (knn := row.map (·.1)) (p := p)
    (fun nb s => CCInv a s ∧ s.psize ≤ 6 + nb ∧ Clear s.state)
    (fun nb s => CCInv a s ∧ s.state.get .error_p_overflow = false)
    (fun nb s => s.state.get .error_p_overflow = true → a.pm ≤ 6 + nb)
    (by
      rintro nb s hnb ⟨j1, j2, j3⟩
      obtain ⟨qi, q, hq, hq'⟩ := hpre.ctx.ids nb hnb
      obtain ⟨K, R, sr, vs, o, h1, h2, h3, h4, h5, h6, h7⟩ := ccStep_spec (p := p) hpre.ctx.pm j1 hnb hq hq'
      obtain ⟨o', h1', g1, g2, -⟩ := ccStep_ccinv (p := p) hpre.ctx.pm j1 hnb hq hq'
      rw [h1] at h1'; cases h1'
      refine ⟨o, h1, ?_⟩
      have hcl : ∀ f, (cleared (s.state.setTrue .error_nonvalid_neighbor)).get f = false := by
        intro f
        rw [get_cleared, State.get_setTrue, j3 f]
        cases f <;> simp
      have hcl' : ∀ f, (cleared s.state).get f = false := by
        intro f; rw [get_cleared, j3 f]; simp
      cases h7 with
      | keep T hR hT hK =>
        rw [ccFinish_eq] at g1 g2 ⊢
        split at g1 <;> rename_i hsr
        · simp only [hsr, if_true] at g2 ⊢
          refine ⟨?_, ?_, ?_⟩ <;> intro s' h <;> cases h
          exact ⟨g2 _ rfl, by simp [State.get_setTrue, hcl]⟩
        · simp only [hsr] at g2 ⊢
          refine ⟨?_, ?_, ?_⟩ <;> intro s' h <;> cases h
          exact ⟨g1 _ rfl, by simp only; omega, hcl⟩
      | poverflow T ts hR hp' hT =>
        refine ⟨?_, ?_, ?_⟩ <;> intro s' h <;> cases h
        intro _; omega
      | infinite T ts dR M Q L hR hp' hT hd hs =>
        refine ⟨?_, ?_, ?_⟩ <;> intro s' h <;> cases h
        intro hh
        simp [State.get_setTrue, j3 .error_p_overflow] at hh
      | toverflow T ts dR L hR hp' hT hd hL ho' =>
        refine ⟨?_, ?_, ?_⟩ <;> intro s' h <;> cases h
        intro hh
        simp [State.get_setTrue, j3 .error_p_overflow] at hh
      | clip T dR L N hR hp' hT hd hL ho' hN hT' =>
        rw [ccFinish_eq] at g1 g2 ⊢
        split at g1 <;> rename_i hsr
        · simp only [hsr, if_true] at g2 ⊢
          refine ⟨?_, ?_, ?_⟩ <;> intro s' h <;> cases h
          exact ⟨g2 _ rfl, by simp [State.get_setTrue, hcl']⟩
        · simp only [hsr] at g2 ⊢
          refine ⟨?_, ?_, ?_⟩ <;> intro s' h <;> cases h
          exact ⟨g1 _ rfl, by simp only; omega, hcl'⟩)
    a.k s0 (Nat.le_refl _) ⟨i2, by omega, by rw [i4]; exact State.get_init⟩
  unfold stateOf
  rw [hc]
  simp only
  have run := fun hb => ccCompute_run .init hpre hp i1 l1 hb
  rcases l2 with ⟨rfl, j1, j2, j3⟩ | ⟨rfl, nb, hnb, j1, j2⟩ | ⟨rfl, nb, hnb, j1⟩
  · rw [run (fun _ => j1)] at ho; cases ho; exact j3 _
  · rw [run (fun _ => j1)] at ho; cases ho; exact j2
  · rw [run (fun h => by cases h)] at ho; cases ho
    cases hh : s.state.get .error_p_overflow with
    | false => rfl
    | true => have := j1 hh; omega

/-- with few candidates this is always the case -/
theorem planesBounded_small {S : Sorted F} {gr : Int} {kmax : Nat}
    (hg : GridOK gr S.xyz.length S.id S.offset) (hk : kmax ≤ 121) : PlanesBounded S gr kmax :=
  fun _ ha hak hpm _ hi => no_plane_overflow hg ha (by omega) hi

/-- between two rounds; `Q` is what is known about the sizes of all rounds -/
structure RecInv (S : Sorted F) (gr : Int) (Q : CCArgs → Prop) (a : CCArgs) (r : RecState)
    (ixs : List Nat) : Prop where
  shape : RecShape S r ixs
  size : SizeOK a
  q : Q a
  ek : r.k = a.k
  epm : r.pm = a.pm
  etm : r.tm = a.tm
  cur : ∀ j ∈ ixs, r.tmpnn[j]? = some (rowOf S gr a j) ∧ r.states[j]? = some (stateOf S gr a j)
  old : ∀ j, j < S.xyz.length → j ∉ ixs → ∃ a', SizeOK a' ∧ Q a' ∧ r.tmpnn[j]? = some (rowOf S gr a' j) ∧
    (stateOf S gr a' j).get .security_radius_reached = true

theorem RecInv.flag {S : Sorted F} {gr : Int} {Q : CCArgs → Prop} {a : CCArgs} {r : RecState}
    {ixs : List Nat} (h : RecInv S gr Q a r ixs) {j : Nat} (hj : j ∈ ixs) (f : Status) :
    flagAt r.states f j = (stateOf S gr a j).get f := by
  unfold flagAt; rw [(h.cur j hj).2]

theorem RecInv.size' {S : Sorted F} {gr : Int} {Q : CCArgs → Prop} {a : CCArgs} {r : RecState}
    {ixs : List Nat}
    (hg : GridOK gr S.xyz.length S.id S.offset) {kmax : Nat} (hb : PlanesBounded S gr kmax)
    (hka : a.k ≤ kmax) (h2 : 2 ≤ S.xyz.length) (h64 : S.xyz.length ≤ 65536)
    (h : RecInv S gr Q a r ixs) : SizeOK (recArgs S.xyz.length r ixs) := by
  have hs := h.size
  have e1 := h.ek; have e2 := h.epm; have e3 := h.etm
  have k1 := hs.k1; have k2 := hs.k; have p1 := hs.pm6; have p2 := hs.pm255; have t1 := hs.tm8
  have t2 := hs.tm
  have hp : ixs.any (flagAt r.states .error_p_overflow) = true → a.pm ≤ 127 := by
    intro ha
    obtain ⟨j, hj, hf⟩ := List.any_eq_true.mp ha
    rw [h.flag hj] at hf
    apply Classical.byContradiction
    intro hlt
    rw [hb a hs hka (by omega) j (h.shape.lt j hj)] at hf
    cases hf
  have ht : ixs.any (flagAt r.states .error_t_overflow) = true → a.tm < 506 := by
    intro ha
    obtain ⟨j, hj, hf⟩ := List.any_eq_true.mp ha
    rw [h.flag hj] at hf
    have := (ready_of_grid hg hs).tover (h.shape.lt j hj) hf
    omega
  unfold recArgs
  refine ⟨?_, ?_, ?_, ?_, ?_, ?_⟩ <;> simp only
  · split <;> omega
  · split <;> omega
  · split <;> omega
  · split <;> rename_i hx
    · have := hp hx; omega
    · omega
  · split <;> omega
  · split <;> rename_i hx
    · have := ht hx; omega
    · omega

theorem recArgs_k_le {n : Nat} {r : RecState} {ixs : List Nat} (h : 1 ≤ n) :
    (recArgs n r ixs).k ≤ n - 1 := by
  unfold recArgs
  simp only
  split <;> omega

theorem RecInv.next {S : Sorted F} {gr : Int} {Q : CCArgs → Prop} {a : CCArgs} {r : RecState}
    {ixs : List Nat} (h : RecInv S gr Q a r ixs) (ha : SizeOK (recArgs S.xyz.length r ixs))
    (hq : Q (recArgs S.xyz.length r ixs)) :
    RecInv S gr Q (recArgs S.xyz.length r ixs) (recNext S gr r ixs) (recTodo r ixs) := by
  have hlt : ∀ i ∈ recTodo r ixs, i < S.xyz.length :=
    fun i hi => h.shape.lt i (List.mem_of_mem_filter hi)
  have k1 := ha.k1
  refine ⟨⟨rfl, hlt, ?_, ?_, ?_, ?_, ?_⟩, ha, hq, rfl, rfl, rfl, ?_, ?_⟩
  · simp only [recNext, updAt_length]; exact h.shape.tlen
  · simp only [recNext, updAt_length, List.length_replicate]
  · simp only [recNext]; omega
  · simp only [recNext]; omega
  · simp only [recNext]; omega
  · intro j hj
    have := hlt j hj
    have hl := h.shape.tlen
    simp only [recNext]
    rw [updAt_get, updAt_get, if_pos ⟨by omega, hj⟩, if_pos ⟨by simpa using this, hj⟩]
    exact ⟨rfl, rfl⟩
  · intro j hj hn
    simp only [recNext]
    rw [updAt_get, if_neg (fun h => hn h.2)]
    by_cases hm : j ∈ ixs
    · refine ⟨a, h.size, h.q, (h.cur j hm).1, ?_⟩
      rw [← h.flag hm]
      have : ¬ (!flagAt r.states .security_radius_reached j) = true := fun hh =>
        hn (List.mem_filter.mpr ⟨hm, hh⟩)
      simpa using this
    · exact h.old j hj hm

/-- what the loop computes; the same for every number of threads -/
theorem recLoop_spec {S : Sorted F} {gr : Int} (hg : GridOK gr S.xyz.length S.id S.offset)
    (h2 : 2 ≤ S.xyz.length) {Q : CCArgs → Prop} (hQ : ∀ a r ixs, RecInv S gr Q a r ixs →
      SizeOK (recArgs S.xyz.length r ixs) ∧ Q (recArgs S.xyz.length r ixs)) :
    ∀ (fuel : Nat) (a : CCArgs) (r : RecState) (ixs : List Nat), RecInv S gr Q a r ixs →
      S.xyz.length ≤ a.k + fuel → 1 ≤ fuel →
      ∃ r', (∀ nth, 1 ≤ nth → recLoop S gr nth fuel r = .ok r') ∧
        r'.states.length = S.xyz.length ∧ r'.tmpnn.length = S.xyz.length ∧
        ∀ j, j < S.xyz.length → ∃ a', SizeOK a' ∧ Q a' ∧ r'.tmpnn[j]? = some (rowOf S gr a' j) ∧
          ((stateOf S gr a' j).get .security_radius_reached = true ∨ S.xyz.length - 1 ≤ a'.k) := by
  intro fuel
  induction fuel with
  | zero => intros; omega
  | succ fuel ih =>
    intro a r ixs hi hf _
    by_cases h0 : recTodo r ixs = []
    · refine ⟨{ r with indices := [], states := List.replicate S.xyz.length .init }, ?_, ?_, ?_, ?_⟩
      · intro nth _
        unfold recLoop
        rw [recRound_done hi.shape h0]; rfl
      · simp
      · exact hi.shape.tlen
      · intro j hj
        by_cases hm : j ∈ ixs
        · refine ⟨a, hi.size, hi.q, (hi.cur j hm).1, Or.inl ?_⟩
          rw [← hi.flag hm]
          have : ¬ (!flagAt r.states .security_radius_reached j) = true := fun hh => by
            have : j ∈ recTodo r ixs := List.mem_filter.mpr ⟨hm, hh⟩
            rw [h0] at this; cases this
          simpa using this
        · obtain ⟨a', g1, g0, g2, g3⟩ := hi.old j hj hm
          exact ⟨a', g1, g0, g2, Or.inl g3⟩
    · obtain ⟨hsz, hq⟩ := hQ a r ixs hi
      have hin := hi.next hsz hq
      have hk' := recArgs_k_le (n := S.xyz.length) (r := r) (ixs := ixs) (by omega)
      by_cases hlast : (S.xyz.length : Int) - 1 ≤ (recArgs S.xyz.length r ixs).k
      · refine ⟨recNext S gr r ixs, ?_, hin.shape.slen, hin.shape.tlen, ?_⟩
        · intro nth hn
          unfold recLoop
          rw [recRound_next hn hi.shape h0 (ready_of_grid hg hsz), if_pos hlast]; rfl
        · intro j hj
          by_cases hm : j ∈ recTodo r ixs
          · exact ⟨_, hsz, hq, (hin.cur j hm).1, Or.inr (by omega)⟩
          · obtain ⟨a', g1, g0, g2, g3⟩ := hin.old j hj hm
            exact ⟨a', g1, g0, g2, Or.inl g3⟩
      · have hgrow : (recArgs S.xyz.length r ixs).k = 2 * a.k := by
          have e1 := hi.ek
          unfold recArgs at hlast ⊢
          simp only at hlast ⊢
          split at hlast <;> rename_i hx
          · omega
          · rw [if_neg hx]; omega
        have k1 := hi.size.k1
        obtain ⟨r', g1, g2⟩ := ih _ _ _ hin (by omega) (by omega)
        refine ⟨r', ?_, g2⟩
        intro nth hn
        unfold recLoop
        rw [recRound_next hn hi.shape h0 (ready_of_grid hg hsz), if_neg hlast]
        exact g1 nth hn

/-- the recompute pass after the first pass -/
theorem cpuRecompute_gen {S : Sorted F} {prm : Params} {a : CCArgs}
    (ha : ccArgs prm.k prm.pm prm.tm = .ok a) (hsz : SizeOK a)
    (hg : GridOK prm.gr S.xyz.length S.id S.offset) (h2 : 2 ≤ S.xyz.length) {Q : CCArgs → Prop}
    (hQ : ∀ a r ixs, RecInv S prm.gr Q a r ixs →
      SizeOK (recArgs S.xyz.length r ixs) ∧ Q (recArgs S.xyz.length r ixs)) (hq : Q a) :
    ∃ t' s', (∀ hw nthreads, 1 ≤ nthOf hw { prm with nthreads := nthreads } →
      cpuRecompute hw { prm with nthreads := nthreads } S
        ((List.range S.xyz.length).map (rowOf S prm.gr a))
        ((List.range S.xyz.length).map (stateOf S prm.gr a)) = .ok (t', s')) ∧
      s'.length = S.xyz.length ∧ t'.length = S.xyz.length ∧
      ∀ j, j < S.xyz.length → ∃ a', SizeOK a' ∧ Q a' ∧ t'[j]? = some (rowOf S prm.gr a' j) ∧
        ((stateOf S prm.gr a' j).get .security_radius_reached = true ∨ S.xyz.length - 1 ≤ a'.k) := by
  have hpos : 0 ≤ prm.k ∧ 0 ≤ prm.pm ∧ 0 ≤ prm.tm ∧ a = ⟨prm.k.toNat, prm.pm.toNat, prm.tm.toNat⟩ := by
    unfold ccArgs at ha
    split at ha
    · rename_i h; cases ha; exact ⟨h.1, h.2.1, h.2.2, rfl⟩
    · cases ha
  obtain ⟨q1, q2, q3, q4⟩ := hpos
  have k1 := hsz.k1
  have ek : prm.k = a.k := by rw [q4]; simp only; omega
  have epm : prm.pm = a.pm := by rw [q4]; simp only; omega
  have etm : prm.tm = a.tm := by rw [q4]; simp only; omega
  generalize hst : (List.range S.xyz.length).map (stateOf S prm.gr a) = states
  generalize htm : (List.range S.xyz.length).map (rowOf S prm.gr a) = tmpnn
  have gs : ∀ j, j < S.xyz.length → states[j]? = some (stateOf S prm.gr a j) := by
    intro j hj; rw [← hst]; simp [hj]
  have gt : ∀ j, j < S.xyz.length → tmpnn[j]? = some (rowOf S prm.gr a j) := by
    intro j hj; rw [← htm]; simp [hj]
  generalize hixs : ((List.range S.xyz.length).filter fun i =>
    match states[i]? with
    | some s => !s.get .security_radius_reached
    | none => false) = ixs
  have hlt : ∀ i ∈ ixs, i < S.xyz.length := by
    intro i hi; rw [← hixs] at hi
    exact List.mem_range.mp (List.mem_of_mem_filter hi)
  have hinv : RecInv S prm.gr Q a
      { k := prm.k, pm := prm.pm, tm := prm.tm, indices := ixs.map fun i : Nat => (i : Int),
        tmpnn := tmpnn, states := states } ixs := by
    refine ⟨⟨rfl, hlt, by rw [← htm]; simp, by rw [← hst]; simp, by simp only; omega, q2, q3⟩, hsz, hq, ek,
      epm, etm, fun j hj => ⟨gt j (hlt j hj), gs j (hlt j hj)⟩, fun j hj hn => ⟨a, hsz, hq, gt j hj, ?_⟩⟩
    rw [← hixs] at hn
    cases hx : (stateOf S prm.gr a j).get .security_radius_reached with
    | true => rfl
    | false =>
      exact absurd (List.mem_filter.mpr ⟨List.mem_range.mpr hj, by rw [gs j hj]; simp [hx]⟩) hn
  obtain ⟨r', g1, g2, g3, g4⟩ := recLoop_spec hg h2 hQ (S.xyz.length + 2) a _ ixs hinv
    (by omega) (by omega)
  refine ⟨r'.tmpnn, r'.states, ?_, g2, g3, g4⟩
  intro hw nthreads hn
  have := g1 _ hn
  rw [← hixs] at this
  unfold cpuRecompute
  exact congrArg (fun m : M RecState => m >>= fun r => pure (r.tmpnn, r.states)) this

/-- the sizes stay in range when no cell needs more than 128 planes -/
theorem cpuRecompute_spec {S : Sorted F} {prm : Params} {a : CCArgs}
    (ha : ccArgs prm.k prm.pm prm.tm = .ok a) (hsz : SizeOK a)
    (hg : GridOK prm.gr S.xyz.length S.id S.offset)
    (h2 : 2 ≤ S.xyz.length) (h64 : S.xyz.length ≤ 65536) {kmax : Nat}
    (hb : PlanesBounded S prm.gr kmax) (hkm : S.xyz.length - 1 ≤ kmax) (hka : a.k ≤ kmax) :
    ∃ t' s', (∀ hw nthreads, 1 ≤ nthOf hw { prm with nthreads := nthreads } →
      cpuRecompute hw { prm with nthreads := nthreads } S
        ((List.range S.xyz.length).map (rowOf S prm.gr a))
        ((List.range S.xyz.length).map (stateOf S prm.gr a)) = .ok (t', s')) ∧
      s'.length = S.xyz.length ∧ t'.length = S.xyz.length ∧
      ∀ j, j < S.xyz.length → ∃ a', SizeOK a' ∧ t'[j]? = some (rowOf S prm.gr a' j) ∧
        ((stateOf S prm.gr a' j).get .security_radius_reached = true ∨ S.xyz.length - 1 ≤ a'.k) := by
  obtain ⟨t', s', g1, g2, g3, g4⟩ := cpuRecompute_gen (Q := fun a => a.k ≤ kmax) ha hsz hg h2
    (fun b r ixs hi => ⟨hi.size' hg hb hi.q h2 h64, by
      have := recArgs_k_le (n := S.xyz.length) (r := r) (ixs := ixs) (by omega)
      omega⟩) hka
  refine ⟨t', s', g1, g2, g3, fun j hj => ?_⟩
  obtain ⟨a', f1, -, f2, f3⟩ := g4 j hj
  exact ⟨a', f1, f2, f3⟩

/-- when no cell overflows, the buffers keep their sizes in all rounds -/
theorem RecInv.keep {S : Sorted F} {gr : Int} {a0 a : CCArgs} {r : RecState} {ixs : List Nat}
    (h2 : 2 ≤ S.xyz.length) (h64 : S.xyz.length ≤ 65536)
    (hno : ∀ b, SizeOK b → b.k ≤ max a0.k (S.xyz.length - 1) ∧ b.pm = a0.pm ∧ b.tm = a0.tm →
      ∀ i, i < S.xyz.length → (stateOf S gr b i).get .error_p_overflow = false ∧
        (stateOf S gr b i).get .error_t_overflow = false)
    (h : RecInv S gr (fun b => b.k ≤ max a0.k (S.xyz.length - 1) ∧ b.pm = a0.pm ∧ b.tm = a0.tm) a r ixs) :
    SizeOK (recArgs S.xyz.length r ixs) ∧ (recArgs S.xyz.length r ixs).k ≤ max a0.k (S.xyz.length - 1) ∧
      (recArgs S.xyz.length r ixs).pm = a0.pm ∧ (recArgs S.xyz.length r ixs).tm = a0.tm := by
  have hs := h.size
  have e1 := h.ek; have e2 := h.epm; have e3 := h.etm
  have k1 := hs.k1; have k2 := hs.k; have p1 := hs.pm6; have p2 := hs.pm255; have t1 := hs.tm8
  have t2 := hs.tm
  obtain ⟨q1, q2, q3⟩ := h.q
  have hp : ixs.any (flagAt r.states .error_p_overflow) = false := by
    rw [List.any_eq_false]
    intro j hj
    rw [h.flag hj, (hno a hs h.q j (h.shape.lt j hj)).1]
    decide
  have ht : ixs.any (flagAt r.states .error_t_overflow) = false := by
    rw [List.any_eq_false]
    intro j hj
    rw [h.flag hj, (hno a hs h.q j (h.shape.lt j hj)).2]
    decide
  unfold recArgs
  rw [hp, ht]
  simp only [Bool.false_eq_true, if_false]
  refine ⟨⟨?_, ?_, ?_, ?_, ?_, ?_⟩, ?_, ?_, ?_⟩ <;> try simp only
  · split <;> omega
  · split <;> omega
  · omega
  · omega
  · omega
  · omega
  · split <;> omega
  · omega
  · omega

/-! ### any behaviour of the cells -/

theorem foldlM_ok_inv {α σ : Type} {f : σ → α → M σ} (Inv : σ → Prop) :
    ∀ (l : List α) {s s' : σ}, l.foldlM f s = .ok s' → Inv s →
      (∀ x ∈ l, ∀ t t', Inv t → f t x = .ok t' → Inv t') → Inv s'
  | [], s, s', h, h0, _ => by cases h; exact h0
  | x :: l, s, s', h, h0, hs => by
    rw [List.foldlM_cons, bind_eq_ok] at h
    obtain ⟨t, h1, h2⟩ := h
    exact foldlM_ok_inv Inv l h2 (hs x (by simp) _ _ h0 h1) fun y hy => hs y (by simp [hy])

theorem recFilter_mem {indices : List Int} {states : List State} {o : List Int × Bool × Bool}
    (h : recFilter indices states = .ok o) : ∀ x ∈ o.1, x ∈ indices ∧
      ∃ s, rdI states x = .ok s ∧ s.get .security_radius_reached = false := by
  unfold recFilter at h
  refine foldlM_ok_inv (fun acc : List Int × Bool × Bool => ∀ x ∈ acc.1, x ∈ indices ∧
    ∃ s, rdI states x = .ok s ∧ s.get .security_radius_reached = false) indices h (by simp) ?_
  intro y hy t t' ht he x hx
  rw [bind_eq_ok] at he
  obtain ⟨s, e1, e2⟩ := he
  cases e2
  simp only at hx
  split at hx <;> rename_i hs
  · exact ht x hx
  · rcases List.mem_append.mp hx with hx | hx
    · exact ht x hx
    · rw [List.mem_singleton] at hx; subst hx
      exact ⟨hy, s, e1, by simpa using hs⟩

theorem tmpnnFill_frame {indices : List Int} {size : Nat} {heap : List (List (Int × D))}
    {tmpnn t' : List (List Int)} (h : tmpnnFill indices size heap tmpnn = .ok t') (j : Nat)
    (hj : (j : Int) ∉ indices) : t'[j]? = tmpnn[j]? := by
  unfold tmpnnFill forN at h
  refine foldlM_ok_inv (fun t : List (List Int) => t[j]? = tmpnn[j]?) _ h rfl ?_
  intro i _ t u ht he
  simp only [bind_eq_ok] at he
  obtain ⟨ix, e1, row, e2, e3⟩ := he
  unfold wrI at e3
  split at e3
  · rw [wr_eq_ok] at e3
    rw [e3.2, List.getElem?_set_ne, ht]
    intro hc
    apply hj
    have : ix ∈ indices := List.mem_of_getElem? (rd_eq_ok.mp e1)
    rwa [show (j : Int) = ix by omega]
  · cases e3

/-- what a round does, whatever the cells do -/
theorem recRound_frame {S : Sorted F} {gr : Int} {nth : Nat} {r : RecState} {o : RecStep}
    (h : recRound S gr nth r = .ok o) : ∃ r',
      (o = .done r' ∨ (o = .next r' ∧ r'.k = r.k * 2 ∧ r'.k < S.xyz.length - 1)) ∧
      (∀ x ∈ r'.indices, x ∈ r.indices ∧
        ∃ s, rdI r.states x = .ok s ∧ s.get .security_radius_reached = false) ∧
      (∀ j : Nat, (j : Int) ∉ r'.indices → r'.tmpnn[j]? = r.tmpnn[j]?) := by
  unfold recRound at h
  rw [bind_eq_ok] at h
  obtain ⟨⟨ixs, up, ut⟩, h1, h⟩ := h
  have hm := recFilter_mem h1
  simp only at h hm
  split at h
  · cases h
    exact ⟨_, Or.inl rfl, hm, fun _ _ => rfl⟩
  · rw [bind_eq_ok] at h
    obtain ⟨a, h2, h⟩ := h
    split at h
    · cases h
    · rw [bind_eq_ok] at h
      obtain ⟨⟨bufs, st⟩, h3, h⟩ := h
      rw [bind_eq_ok] at h
      obtain ⟨t', h4, h⟩ := h
      have hf := tmpnnFill_frame h4
      generalize hkk : (if (S.xyz.length : Int) - 1 < r.k * 2 then (S.xyz.length : Int) - 1 else r.k * 2)
        = k' at h
      split at h <;> rename_i hk <;> cases h
      · exact ⟨_, Or.inl rfl, hm, hf⟩
      · refine ⟨_, Or.inr ⟨rfl, ?_, ?_⟩, hm, hf⟩
        · simp only
          split at hkk <;> omega
        · simp only; omega

/-- `m` rounds that all ask for another one -/
inductive Rounds (S : Sorted F) (gr : Int) (nth : Nat) : Nat → RecState → RecState → Prop
  | zero (r : RecState) : Rounds S gr nth 0 r r
  | succ {m : Nat} {r r' r'' : RecState} : Rounds S gr nth m r r' →
      recRound S gr nth r' = .ok (.next r'') → Rounds S gr nth (m + 1) r r''

theorem Rounds.k {S : Sorted F} {gr : Int} {nth m : Nat} {r r' : RecState}
    (h : Rounds S gr nth m r r') : r'.k = r.k * 2 ^ m ∧ (1 ≤ m → r'.k < S.xyz.length - 1) := by
  induction h with
  | zero => simp
  | succ _ h2 ih =>
    obtain ⟨r3, h3, -, -⟩ := recRound_frame h2
    rcases h3 with h3 | ⟨h3, h4, h5⟩
    · cases h3
    · cases h3
      refine ⟨?_, fun _ => h5⟩
      rw [h4, ih.1, Int.pow_succ, Int.mul_assoc]

theorem Rounds.frame {S : Sorted F} {gr : Int} {nth m : Nat} {r r' : RecState}
    (h : Rounds S gr nth m r r') : (∀ x ∈ r'.indices, x ∈ r.indices) ∧
      ∀ j : Nat, (j : Int) ∉ r.indices → r'.tmpnn[j]? = r.tmpnn[j]? := by
  induction h with
  | zero => exact ⟨fun _ h => h, fun _ _ => rfl⟩
  | succ _ h2 ih =>
    obtain ⟨r3, h3, h4, h5⟩ := recRound_frame h2
    rcases h3 with h3 | ⟨h3, -, -⟩
    · cases h3
    cases h3
    exact ⟨fun x hx => ih.1 x (h4 x hx).1, fun j hj =>
      (h5 j fun hx => hj (ih.1 _ (h4 _ hx).1)).trans (ih.2 j hj)⟩

/-- the last round of a loop that ended -/
theorem recLoop_rounds {S : Sorted F} {gr : Int} {nth : Nat} : ∀ (fuel : Nat) (r r2 : RecState),
    recLoop S gr nth fuel r = .ok r2 → ∃ m r1, m < fuel ∧ Rounds S gr nth m r r1 ∧
      recRound S gr nth r1 = .ok (.done r2)
  | 0, _, _, h => by cases h
  | fuel + 1, r, r2, h => by
    unfold recLoop at h
    rw [bind_eq_ok] at h
    obtain ⟨o, h1, h2⟩ := h
    cases o with
    | done r' => cases h2; exact ⟨0, r, by omega, .zero r, h1⟩
    | next r' =>
      obtain ⟨m, r1, h3, h4, h5⟩ := recLoop_rounds fuel r' r2 h2
      refine ⟨m + 1, r1, by omega, ?_, h5⟩
      clear h5 h3 h2
      induction h4 with
      | zero => exact .succ (.zero r) h1
      | succ _ h2 ih => exact .succ (ih h1) h2

/-- a loop that failed: a round failed, or `fuel` rounds asked for more -/
theorem recLoop_error {S : Sorted F} {gr : Int} {nth : Nat} : ∀ (fuel : Nat) (r : RecState) (e : UB),
    recLoop S gr nth fuel r = .error e → (∃ m r1, m < fuel ∧ Rounds S gr nth m r r1 ∧
      recRound S gr nth r1 = .error e) ∨ ∃ r1, Rounds S gr nth fuel r r1
  | 0, r, e, h => Or.inr ⟨r, .zero r⟩
  | fuel + 1, r, e, h => by
    unfold recLoop at h
    cases h1 : recRound S gr nth r with
    | error e' =>
      rw [h1] at h; cases h
      exact Or.inl ⟨0, r, by omega, .zero r, h1⟩
    | ok o =>
      rw [h1, bind_ok] at h
      cases o with
      | done r' => cases h
      | next r' =>
        have ext : ∀ {m r1}, Rounds S gr nth m r' r1 → Rounds S gr nth (m + 1) r r1 := by
          intro m r1 h4
          induction h4 with
          | zero => exact .succ (.zero r) h1
          | succ _ h2 ih => exact .succ (ih h h1) h2
        rcases recLoop_error fuel r' e h with ⟨m, r1, h3, h4, h5⟩ | ⟨r1, h4⟩
        · exact Or.inl ⟨m + 1, r1, by omega, ext h4, h5⟩
        · exact Or.inr ⟨r1, ext h4⟩

end Votess
