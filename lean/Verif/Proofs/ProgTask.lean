import Verif.Proofs.ProgCell
/-!
# Running a whole task alone on its rows
-/
namespace Votess

open FP

variable {F D E : Type} [FP F D]

theorem emitLoop_bound {dR : List Nat} {tm first newp fuel head : Nat} {T : List Tri} {tsize : Nat}
    {T' : List Tri} {ts : Nat}
    (h : emitLoop dR tm first newp fuel head T tsize = .ok (.done T' ts)) : ts ≤ tm := by
  induction fuel generalizing head T tsize with
  | zero => cases h
  | succ fuel ih =>
    simp only [emitLoop] at h
    by_cases h1 : tm ≤ tsize
    · simp only [if_pos h1, pure_eq_ok] at h; cases h
    · simp only [if_neg h1, bind_eq_ok] at h
      obtain ⟨nxt, _, T1, _, h⟩ := h
      by_cases h2 : nxt = first
      · simp only [if_pos h2, pure_eq_ok, Except.ok.injEq, EmitOut.done.injEq] at h
        omega
      · simp only [if_neg h2] at h
        exact ih h

theorem ccStep_bound {a : CCArgs} {xyz : List (Pt F)} {knn : List Int} {p : Pt F} {nb : Nat}
    {s s' : CCState F} {B : Nat} (h : ccStep a xyz knn p nb s = .ok (.next s'))
    (hs : s.tsize ≤ B) (ht : a.tm ≤ B) : s'.tsize ≤ B := by
  unfold ccStep at h
  simp only [bind_eq_ok] at h
  obtain ⟨qi, _, q, _, o, ho, h⟩ := h
  have hsz := cutLoop_sizes _ _ _ _ _ _ _ _ _ _ ho
  rcases o with ⟨T, ts, rs, sr⟩
  simp only at hsz h
  by_cases hr : 0 < rs
  · simp only [if_pos hr, bind_eq_ok] at h
    obtain ⟨c, hc, h⟩ := h
    rcases c with s1 | s1
    · cases h
    · have hb : s1.tsize ≤ a.tm := by
        unfold ccClip at hc
        by_cases hp : a.pm ≤ s.psize
        · simp only [if_pos hp, pure_eq_ok] at hc; cases hc
        · simp only [if_neg hp, bind_eq_ok] at hc
          obtain ⟨P, _, dk, _, dR, _, o, _, hc⟩ := hc
          rcases o with ⟨bst, br⟩
          rcases bst with _ | _
          · simp only [bind_eq_ok] at hc
            obtain ⟨e, he, hc⟩ := hc
            rcases e with _ | _
            · cases hc
              exact emitLoop_bound he
            · cases hc
          · cases hc
      obtain ⟨st, h2 | h2⟩ := ccFinish_sizes p q sr s1
      · simp only [h2, pure_eq_ok] at h; cases h
      · simp only [h2, pure_eq_ok] at h; cases h; show s1.tsize ≤ B; omega
  · simp only [if_neg hr, pure_eq_ok, Except.ok.injEq] at h
    obtain ⟨st, h2 | h2⟩ := ccFinish_sizes p q sr
      { s with T := T, tsize := ts, state := s.state.setTrue .error_nonvalid_neighbor }
    · rw [h2] at h; cases h
    · rw [h2] at h; cases h; show ts ≤ B; omega

/-- what the loop over the neighbours leaves -/
def loopOut (r : Rows F E) (o : Bool × CCState F) : Option Nat × Rows F E :=
  (if o.1 then some o.2.tsize else none, r.upd o.2)

/-- every cut of the loop over the neighbours removes at most `B` vertices -/
def CutsAtMost (B : Nat) (a : CCArgs) (xyz : List (Pt F)) (knn : List Int) (p : Pt F) :
    Nat → CCState F → Prop
  | 0, _ => True
  | n + 1, s => CutAtMost B xyz knn p (a.k - (n + 1)) s ∧
      ∀ s', ccStep a xyz knn p (a.k - (n + 1)) s = .ok (.next s') → CutsAtMost B a xyz knn p n s'

theorem cutsAtMost_tm {B : Nat} {a : CCArgs} (hB : a.tm ≤ B) (xyz : List (Pt F)) (knn : List Int)
    (p : Pt F) (n : Nat) (s : CCState F) (hs : s.tsize ≤ B) : CutsAtMost B a xyz knn p n s := by
  induction n generalizing s with
  | zero => trivial
  | succ n ih =>
    refine ⟨fun qi q o h1 h2 h3 => ?_, fun s' h => ih s' (ccStep_bound h hs hB)⟩
    exact Nat.le_trans (cutAtMost_tsize xyz knn p _ s qi q o h1 h2 h3) hs

theorem ccLoop_run {cw : Nat → Nat} {B : Nat} (hcw : CwOk cw B) (a : CCArgs)
    (p : Pt F) (n psize tsize : Nat) (r : Rows F E)
    (hcut : CutsAtMost B a r.xyz (r.heap.map (·.1)) p n (r.cst psize tsize)) :
    rrun (Prog.ccLoop cw a p n psize tsize) r =
      ccLoop a r.xyz (r.heap.map (·.1)) p n (r.cst psize tsize) >>= fun o => .ok (loopOut r o) := by
  induction n generalizing psize tsize r with
  | zero => rfl
  | succ n ih =>
    simp only [Prog.ccLoop, ccLoop, rrun_bind]
    rw [ccStep_run hcw a p _ psize tsize r hcut.1]
    simp only [bind_assoc', bind_ok]
    refine bind_congr' fun s hs => ?_
    rcases s with s | s | s
    · rfl
    · rfl
    · simp only [stepOut]
      rw [ih s.psize s.tsize (r.upd s) (hcut.2 s hs)]
      rfl

/-- the test of one triangle in `planeUsed` -/
def usedBody (T : List Tri) (d : Int) (ti : Nat) (f : Bool) : M Bool := do
  let t ← rd T ti
  pure (f || decide ((t.a : Int) = d) || decide ((t.b : Int) = d) || decide ((t.c : Int) = d))

theorem usedBody_true {T : List Tri} {d : Int} {u : Bool} (l : List Nat)
    (h : l.foldlM (fun s i => usedBody T d i s) true = .ok u) : u = true := by
  induction l with
  | nil => simpa [eq_comm] using h
  | cons x l ih =>
    simp only [List.foldlM_cons, bind_eq_ok] at h
    obtain ⟨y, hy, h⟩ := h
    unfold usedBody at hy
    simp only [bind_eq_ok] at hy
    obtain ⟨t, _, hy⟩ := hy
    simp only [Bool.true_or, pure_eq_ok, Except.ok.injEq] at hy
    subst hy
    exact ih h

theorem planeUsed_run_aux (brk : Bool) (tsize : Nat) (d : Int) (r : Rows F E) (n : Nat)
    (hn : n ≤ tsize) (f u : Bool)
    (h : (List.range' (tsize - n) n).foldlM (fun s i => usedBody r.T d i s) f = .ok u) :
    rrun (Prog.planeUsed brk tsize d n f) r = .ok (u, r) := by
  induction n generalizing f with
  | zero => simp at h; subst h; rfl
  | succ n ih =>
    rw [List.range'_succ] at h
    simp only [List.foldlM_cons, bind_eq_ok] at h
    obtain ⟨f', hf, h⟩ := h
    rw [show tsize - (n + 1) + 1 = tsize - n by omega] at h
    unfold usedBody at hf
    simp only [bind_eq_ok, pure_eq_ok, Except.ok.injEq] at hf
    obtain ⟨t, ht, hf⟩ := hf
    simp only [Prog.planeUsed, rrun_bind, tri_run, ht, bind_ok, hf]
    by_cases hb : (brk && f') = true
    · rw [if_pos hb]
      simp only [Bool.and_eq_true] at hb
      obtain ⟨_, rfl⟩ := hb
      rw [usedBody_true _ h]; rfl
    · rw [if_neg hb]
      exact ih (by omega) f' h

theorem planeUsed_run (brk : Bool) (tsize : Nat) (d : Int) (r : Rows F E) {u : Bool}
    (h : planeUsed r.T tsize d = .ok u) :
    rrun (Prog.planeUsed brk tsize d tsize false) r = .ok (u, r) := by
  refine planeUsed_run_aux brk tsize d r tsize (Nat.le_refl _) false u ?_
  rw [Nat.sub_self, ← List.range_eq_range']
  exact h

/-- the heap row with other ids -/
def setIds (h : List (Int × E)) (knn : List Int) : List (Int × E) := knn.zip (h.map (·.2))

theorem setIds_self (h : List (Int × E)) : setIds h (h.map (·.1)) = h := by
  unfold setIds
  induction h with
  | nil => rfl
  | cons x h ih => simp [ih]

theorem put_hid_ok {r : Rows F E} {m : Nat} {v : Int} {knn : List Int}
    (h : wr (r.heap.map (·.1)) m v = .ok knn) :
    ∃ h', rrun (Prog.wrt .hid m (.int v)) r = .ok ((), { r with heap := h' }) ∧
      h'.map (·.1) = knn ∧ h'.map (·.2) = r.heap.map (·.2) := by
  rw [wr_eq_ok] at h
  obtain ⟨hm, rfl⟩ := h
  rw [List.length_map] at hm
  refine ⟨r.heap.set m (v, r.heap[m].2), ?_, ?_, ?_⟩
  · rw [rrun_put_hid, rd_ok hm]; rfl
  · rw [List.map_set]
  · rw [List.map_set]
    apply List.ext_getElem
    · simp
    · intro n h1 h2
      rw [List.getElem_set]
      split
      · next h => subst h; simp
      · rfl

theorem markUnused_run_aux (brk : Bool) (tsize : Nat) (l : List Nat) (r : Rows F E)
    {knn' : List Int}
    (h : l.foldlM (fun knn di => do
      let d ← rd r.dknn di
      let u ← planeUsed r.T tsize d
      if u then pure knn else wr knn di kUndefined) (r.heap.map (·.1)) = .ok knn') :
    ∃ h', rrun (l.foldlM (fun _ di => (do
      let d ← Prog.gInt .dknn di
      let u ← Prog.planeUsed brk tsize d tsize false
      if u then pure () else Prog.wrt .hid di (.int kUndefined) : Prog F E Unit)) ()) r =
        .ok ((), { r with heap := h' }) ∧ h'.map (·.1) = knn' ∧ h'.map (·.2) = r.heap.map (·.2) := by
  induction l generalizing r with
  | nil =>
    simp only [List.foldlM_nil, pure_eq_ok, Except.ok.injEq] at h
    exact ⟨r.heap, rfl, h, rfl⟩
  | cons di l ih =>
    simp only [List.foldlM_cons, bind_eq_ok] at h
    obtain ⟨knn1, ⟨d, hd, u, hu, h1⟩, h2⟩ := h
    simp only [List.foldlM_cons, rrun_bind, rrun_dknn, hd, bind_ok, planeUsed_run brk tsize d r hu]
    by_cases hb : u = true
    · rw [if_pos hb] at h1 ⊢
      simp only [pure_eq_ok, Except.ok.injEq] at h1
      subst h1
      simp only [rrun_pure, bind_ok]
      exact ih r h2
    · rw [if_neg hb] at h1 ⊢
      obtain ⟨h', e1, e2, e3⟩ := put_hid_ok h1
      rw [e1, bind_ok]
      obtain ⟨h'', e4, e5, e6⟩ := ih { r with heap := h' } (by rw [e2]; exact h2)
      exact ⟨h'', e4, e5, by rw [e6]; exact e3⟩

theorem compact_run_aux (l : List Nat) (c : Nat) (r : Rows F E) {knn' : List Int} {c' : Nat}
    (h : l.foldlM (fun (st : List Int × Nat) di => do
      let v ← rd st.1 di
      if v = kUndefined then pure st
      else do
        let l ← wr st.1 st.2 v
        pure (l, st.2 + 1)) (r.heap.map (·.1), c) = .ok (knn', c')) :
    ∃ h', rrun (l.foldlM (fun (c : Nat) di => (do
      let v ← Prog.gInt .hid di
      if v = kUndefined then pure c
      else do
        Prog.wrt .hid c (.int v)
        pure (c + 1) : Prog F E Nat)) c) r =
        .ok (c', { r with heap := h' }) ∧ h'.map (·.1) = knn' ∧ h'.map (·.2) = r.heap.map (·.2) := by
  induction l generalizing r c with
  | nil =>
    simp only [List.foldlM_nil, pure_eq_ok, Except.ok.injEq, Prod.mk.injEq] at h
    obtain ⟨h, rfl⟩ := h
    exact ⟨r.heap, rfl, h, rfl⟩
  | cons di l ih =>
    simp only [List.foldlM_cons, bind_eq_ok] at h
    obtain ⟨st1, ⟨v, hv, h1⟩, h2⟩ := h
    have hv' : ∃ x, rd r.heap di = .ok x ∧ x.1 = v := by
      rw [rd_eq_ok, List.getElem?_map] at hv
      cases hx : r.heap[di]? with
      | none => rw [hx] at hv; cases hv
      | some x =>
        rw [hx] at hv
        exact ⟨x, by rw [rd_eq_ok]; exact hx, by simpa using hv⟩
    obtain ⟨x, hx, rfl⟩ := hv'
    simp only [List.foldlM_cons, rrun_bind, rrun_hid, hx, bind_ok]
    by_cases hb : x.1 = kUndefined
    · rw [if_pos hb] at h1 ⊢
      simp only [pure_eq_ok, Except.ok.injEq] at h1
      subst h1
      simp only [rrun_pure, bind_ok]
      exact ih c r h2
    · rw [if_neg hb] at h1 ⊢
      rw [bind_eq_ok] at h1
      obtain ⟨knn1, h1, h3⟩ := h1
      simp only [pure_eq_ok, Except.ok.injEq] at h3
      subst h3
      obtain ⟨h', e1, e2, e3⟩ := put_hid_ok h1
      simp only [rrun_bind]
      rw [e1]
      simp only [bind_ok, rrun_pure]
      obtain ⟨h'', e4, e5, e6⟩ := ih (c + 1) { r with heap := h' } (by rw [e2]; exact h2)
      exact ⟨h'', e4, e5, by rw [e6]; exact e3⟩

theorem fillIds_run (l : List Nat) (c : Nat) (r : Rows F E) {knn' : List Int}
    (h : l.foldlM (fun knn j => wr knn (c + j) kUndefined) (r.heap.map (·.1)) = .ok knn') :
    ∃ h', rrun (l.foldlM (fun _ j => (Prog.wrt .hid (c + j) (.int kUndefined) : Prog F E Unit)) ()) r =
        .ok ((), { r with heap := h' }) ∧ h'.map (·.1) = knn' ∧ h'.map (·.2) = r.heap.map (·.2) := by
  induction l generalizing r with
  | nil =>
    simp only [List.foldlM_nil, pure_eq_ok, Except.ok.injEq] at h
    exact ⟨r.heap, rfl, h, rfl⟩
  | cons di l ih =>
    simp only [List.foldlM_cons, bind_eq_ok] at h
    obtain ⟨knn1, h1, h2⟩ := h
    simp only [List.foldlM_cons, rrun_bind]
    obtain ⟨h', e1, e2, e3⟩ := put_hid_ok h1
    rw [e1, bind_ok]
    obtain ⟨h'', e4, e5, e6⟩ := ih { r with heap := h' } (by rw [e2]; exact h2)
    exact ⟨h'', e4, e5, by rw [e6]; exact e3⟩

theorem compact_run (k : Nat) (r : Rows F E) {knn' : List Int}
    (h : compact k (r.heap.map (·.1)) = .ok knn') :
    ∃ h', rrun (Prog.compact k) r = .ok ((), { r with heap := h' }) ∧ h'.map (·.1) = knn' ∧
      h'.map (·.2) = r.heap.map (·.2) := by
  unfold compact at h
  rw [bind_eq_ok] at h
  obtain ⟨⟨knn1, c⟩, h1, h2⟩ := h
  unfold Prog.compact
  obtain ⟨h', e1, e2, e3⟩ := compact_run_aux _ _ r h1
  simp only [rrun_bind]
  rw [e1, bind_ok]
  obtain ⟨h'', e4, e5, e6⟩ := fillIds_run (List.range (k - c)) c { r with heap := h' }
    (by rw [e2]; exact h2)
  exact ⟨h'', e4, e5, by rw [e6]; exact e3⟩

theorem map_fst_snd_ext {h h' : List (Int × E)} (h1 : h.map (·.1) = h'.map (·.1))
    (h2 : h.map (·.2) = h'.map (·.2)) : h = h' := by
  rw [← setIds_self h, ← setIds_self h']
  unfold setIds
  rw [h1, h2]

/-- the rows after `cci::compute` -/
def ccRows (r : Rows F E) (o : CCOut F) : Rows F E :=
  { r.upd o.s with heap := setIds r.heap o.knn }

/-- every cut of `cci::compute` removes at most `B` vertices -/
def CellCutsAtMost (B : Nat) (a : CCArgs) (xyz : List (Pt F)) (index : Int) (st : State)
    (P : List (Plane F)) (T : List Tri) (dR : List Nat) (knn dknn : List Int) : Prop :=
  ∀ p s, rdI xyz index = .ok p → ccInit st P T dR dknn = .ok s → CutsAtMost B a xyz knn p a.k s

theorem cellCutsAtMost_tm {B : Nat} {a : CCArgs} (hB : a.tm ≤ B) (h8 : 8 ≤ B)
    (xyz : List (Pt F)) (index : Int) (st : State) (P : List (Plane F)) (T : List Tri)
    (dR : List Nat) (knn dknn : List Int) : CellCutsAtMost B a xyz index st P T dR knn dknn := by
  intro p s _ hs
  unfold ccInit at hs
  simp only [bind_eq_ok, pure_eq_ok, Except.ok.injEq] at hs
  obtain ⟨P', _, T', _, rfl⟩ := hs
  exact cutsAtMost_tm hB xyz knn p a.k _ h8

theorem ccCompute_prog {cw : Nat → Nat} {B : Nat} (hcw : CwOk cw B) (brk : Bool) {a : CCArgs}
    (index : Int) (r : Rows F E) {o : CCOut F}
    (hcut : CellCutsAtMost B a r.xyz index r.state r.P r.T r.dR (r.heap.map (·.1)) r.dknn)
    (h : ccCompute a r.xyz index r.state r.P r.T r.dR (r.heap.map (·.1)) r.dknn = .ok o) :
    rrun (Prog.ccCompute cw brk a index) r = .ok ((), ccRows r o) := by
  unfold ccCompute at h
  unfold Prog.ccCompute
  by_cases hf : (!a.fits) = true
  · rw [if_pos hf] at h; cases h
  rw [if_neg hf] at h ⊢
  simp only [bind_eq_ok] at h
  obtain ⟨p, hp, s0, hs0, ⟨fin, s⟩, hl, h⟩ := h
  have hcut := hcut p s0 hp hs0
  unfold ccInit at hs0
  simp only [bind_eq_ok, pure_eq_ok, Except.ok.injEq] at hs0
  obtain ⟨P, hP, T, hT, rfl⟩ := hs0
  simp only [rrun_bind, rrun_ref, hp, bind_ok, putPlanes_run, hP, putTris_run, hT]
  rw [ccLoop_run hcw a p a.k 6 8 _ hcut]
  have e : ccLoop a r.xyz (r.heap.map (·.1)) p a.k
      (Rows.cst ({ r with P := P, T := T } : Rows F E) 6 8) = .ok (fin, s) := hl
  rw [e]
  simp only [bind_ok]
  by_cases hfin : fin = true
  · subst hfin
    simp only [if_true, bind_eq_ok] at h
    obtain ⟨knn1, hm, knn2, hc, h⟩ := h
    simp only [pure_eq_ok, Except.ok.injEq] at h
    subst h
    simp only [loopOut, if_true, rrun_bind]
    obtain ⟨h1, e1, e2, e3⟩ := markUnused_run_aux brk s.tsize (List.range a.k)
      (({ r with P := P, T := T } : Rows F E).upd s) hm
    unfold Prog.markUnused Prog.forN
    rw [e1, bind_ok]
    obtain ⟨h2, e4, e5, e6⟩ := compact_run a.k
      ({ ({ r with P := P, T := T } : Rows F E).upd s with heap := h1 }) (knn' := knn2)
      (by rw [e2]; exact hc)
    rw [e4]
    congr 2
    have : h2 = setIds r.heap knn2 := by
      have e7 : h2.map (·.2) = r.heap.map (·.2) := by rw [e6]; exact e3
      rw [← setIds_self h2]
      unfold setIds
      rw [e5, e7]
    rw [this]
    rfl
  · simp only [if_neg hfin, pure_eq_ok, Except.ok.injEq] at h
    subst h
    simp only [loopOut, if_neg hfin, rrun_pure]
    congr 2
    unfold ccRows
    rw [show setIds r.heap (r.heap.map (·.1)) = r.heap from setIds_self _]
    rfl

end Votess
