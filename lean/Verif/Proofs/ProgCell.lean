import Verif.Proofs.ProgRow
/-!
# Running the cell computation alone on the rows of a task

The access-level programs for `boundary::compute` and `cci::compute` do on the rows of a task
what `Verif.Model.Boundary` and `Verif.Model.CC` compute.
-/
namespace Votess

open FP

variable {F D E : Type}

/-! ## triangles and planes -/

theorem rrun_gT (m : Nat) (r : Rows F E) :
    rrun (Prog.gU8 .T m) r = rd r.T (m / 3) >>= fun x => .ok (x.ent (m % 3), r) := by
  simp only [Prog.gU8, Prog.run, rowStore, rowGet]
  cases rd r.T (m / 3) <;> rfl

theorem rrun_pT (m v : Nat) (r : Rows F E) :
    rrun (Prog.wrt .T m (.u8 v)) r = rd r.T (m / 3) >>= fun x =>
      .ok ((), { r with T := r.T.set (m / 3) (x.upd (m % 3) v) }) := by
  simp only [Prog.wrt, Prog.run, rowStore, rowPut]
  cases rd r.T (m / 3) <;> rfl

theorem rrun_gP (m : Nat) (r : Rows F E) :
    rrun (Prog.gFlt .P m) r = rd r.P (m / 4) >>= fun x => .ok (x.ent (m % 4), r) := by
  simp only [Prog.gFlt, Prog.run, rowStore, rowGet]
  cases rd r.P (m / 4) <;> rfl

theorem rrun_pP (m : Nat) (v : F) (r : Rows F E) :
    rrun (Prog.wrt .P m (.flt v)) r = rd r.P (m / 4) >>= fun x =>
      .ok ((), { r with P := r.P.set (m / 4) (x.upd (m % 4) v) }) := by
  simp only [Prog.wrt, Prog.run, rowStore, rowPut]
  cases rd r.P (m / 4) <;> rfl

theorem div3 (j : Nat) : (3 * j + 0) / 3 = j ∧ (3 * j + 1) / 3 = j ∧ (3 * j + 2) / 3 = j ∧
    (3 * j + 0) % 3 = 0 ∧ (3 * j + 1) % 3 = 1 ∧ (3 * j + 2) % 3 = 2 := by omega

theorem div4 (j : Nat) : (4 * j + 0) / 4 = j ∧ (4 * j + 1) / 4 = j ∧ (4 * j + 2) / 4 = j ∧
    (4 * j + 3) / 4 = j ∧
    (4 * j + 0) % 4 = 0 ∧ (4 * j + 1) % 4 = 1 ∧ (4 * j + 2) % 4 = 2 ∧ (4 * j + 3) % 4 = 3 := by
  omega

theorem tri_run (j : Nat) (r : Rows F E) :
    rrun (Prog.tri j) r = rd r.T j >>= fun t => .ok (t, r) := by
  obtain ⟨h1, h2, h3, h4, h5, h6⟩ := div3 j
  unfold Prog.tri
  simp only [rrun_bind, rrun_gT, h1, h2, h3, h4, h5, h6, bind_assoc', bind_ok, rrun_pure]
  cases rd r.T j <;> rfl

theorem plane_run (j : Nat) (r : Rows F E) :
    rrun (Prog.plane j) r = rd r.P j >>= fun t => .ok (t, r) := by
  obtain ⟨h1, h2, h3, h4, h5, h6, h7, h8⟩ := div4 j
  unfold Prog.plane
  simp only [rrun_bind, rrun_gP, h1, h2, h3, h4, h5, h6, h7, h8, bind_assoc', bind_ok, rrun_pure]
  cases rd r.P j <;> rfl

theorem putTri_run (j : Nat) (t : Tri) (r : Rows F E) :
    rrun (Prog.putTri j t) r = wr r.T j t >>= fun l => .ok ((), { r with T := l }) := by
  obtain ⟨h1, h2, h3, h4, h5, h6⟩ := div3 j
  unfold Prog.putTri
  simp only [rrun_bind, rrun_pT, h1, h2, h3, h4, h5, h6, bind_assoc', bind_ok]
  by_cases h : j < r.T.length
  · rw [rd_ok h, wr_ok h, bind_ok, bind_ok]
    rw [rd_ok (by simpa using h), bind_ok, rd_ok (by simpa using h), bind_ok]
    simp [Tri.upd]
  · rw [rd_oob (by omega)]
    simp [wr, h]

theorem putPlane_run (j : Nat) (t : Plane F) (r : Rows F E) :
    rrun (Prog.putPlane j t) r = wr r.P j t >>= fun l => .ok ((), { r with P := l }) := by
  obtain ⟨h1, h2, h3, h4, h5, h6, h7, h8⟩ := div4 j
  unfold Prog.putPlane
  simp only [rrun_bind, rrun_pP, h1, h2, h3, h4, h5, h6, h7, h8, bind_assoc', bind_ok]
  by_cases h : j < r.P.length
  · rw [rd_ok h, wr_ok h, bind_ok, bind_ok]
    rw [rd_ok (by simpa using h), bind_ok, rd_ok (by simpa using h), bind_ok,
      rd_ok (by simpa using h), bind_ok]
    simp [Plane.upd]
  · rw [rd_oob (by omega)]
    simp [wr, h]

/-- entry `c` of two triangles exchanged -/
def swpEnt (T : List Tri) (i j c : Nat) (x y : Tri) (z : Tri) : List Tri :=
  (T.set i (x.upd c (y.ent c))).set j (z.upd c (x.ent c))

theorem swapEntry_run (i j c : Nat) (hc : c < 3) (r : Rows F E) (hi : i < r.T.length)
    (hj : j < r.T.length) :
    rrun (Prog.swapEntry (3 * i + c) (3 * j + c)) r =
      .ok ((), (fun T => { r with T := T }) (swpEnt r.T i j c r.T[i] r.T[j]
        (if i = j then r.T[i].upd c (r.T[j].ent c) else r.T[j]))) := by
  unfold Prog.swapEntry swpEnt
  simp only [rrun_bind, rrun_gT, rrun_pT, show (3 * i + c) / 3 = i by omega,
    show (3 * i + c) % 3 = c by omega, show (3 * j + c) / 3 = j by omega,
    show (3 * j + c) % 3 = c by omega, rd_ok hi, rd_ok hj, bind_ok]
  rw [rd_ok (by simpa using hj), bind_ok, List.getElem_set]

theorem Tri.upd_ent (t : Tri) (c : Nat) : t.upd c (t.ent c) = t := by
  rcases c with _ | _ | c <;> rfl

theorem swapTri_run (i j : Nat) (r : Rows F E) :
    rrun (Prog.swapTri i j) r = swp r.T i j >>= fun l => .ok ((), { r with T := l }) := by
  unfold Prog.swapTri
  by_cases hi : i < r.T.length
  · by_cases hj : j < r.T.length
    · rw [swp_ok hi hj]
      simp only [rrun_bind]
      rw [swapEntry_run i j 0 (by omega) r hi hj, bind_ok]
      rw [swapEntry_run i j 1 (by omega) _ (by simpa [swpEnt] using hi)
        (by simpa [swpEnt] using hj), bind_ok]
      rw [swapEntry_run i j 2 (by omega) _ (by simpa [swpEnt] using hi)
        (by simpa [swpEnt] using hj)]
      congr 2
      refine congrArg (fun h => ({ r with T := h } : Rows F E)) ?_
      apply List.ext_getElem
      · simp [swpEnt]
      · intro n h1 h2
        simp only [swpEnt, List.getElem_set]
        by_cases hij : i = j
        · subst hij
          by_cases hn : i = n
          · subst hn; simp [Tri.upd_ent]
          · simp [hn]
        · have hji : ¬ j = i := fun h => hij h.symm
          by_cases hna : i = n
          · subst hna; simp [hij, hji, Tri.upd, Tri.ent]
          · by_cases hnb : j = n
            · subst hnb; simp [hij, hji, Tri.upd, Tri.ent]
            · simp [hna, hnb]
    · rw [show swp r.T i j = .error .oob by
        unfold swp; rw [rd_ok hi, bind_ok, rd_oob (by omega), bind_error]]
      unfold Prog.swapEntry
      simp only [rrun_bind, rrun_gT, show (3 * i + 0) / 3 = i by omega,
        show (3 * j + 0) / 3 = j by omega, rd_ok hi, rd_oob (show r.T.length ≤ j by omega), bind_ok,
        bind_error]
  · rw [show swp r.T i j = .error .oob by
      unfold swp; rw [rd_oob (by omega), bind_error]]
    unfold Prog.swapEntry
    simp only [rrun_bind, rrun_gT, show (3 * i + 0) / 3 = i by omega,
      rd_oob (show r.T.length ≤ i by omega), bind_error]

/-! ## boundary -/

/-- values up to `n + 1` survive being stored -/
def CwOk (cw : Nat → Nat) (n : Nat) : Prop := ∀ m, m ≤ n + 1 → cw m = m

theorem CwOk.mono {cw : Nat → Nat} {m n : Nat} (h : CwOk cw n) (hm : m ≤ n) : CwOk cw m :=
  fun x hx => h x (by omega)

theorem CwOk.id (n : Nat) : CwOk id n := fun _ _ => rfl

theorem bInit_run (t : Tri) (r : Rows F E) :
    rrun (Prog.bInit t) r = bInit r.dR t >>= fun x => .ok (x.2, { r with dR := x.1 }) := by
  unfold Prog.bInit bInit
  simp only [rrun_bind, rrun_put_dR, bind_assoc', bind_ok, rrun_pure, pure_eq_ok]

theorem bWalk_run {cw : Nat → Nat} {rsize : Nat} (hcw : CwOk cw rsize) (first te0 te1 : Nat)
    (fuel edge counter : Nat) (hit : Bool) (r : Rows F E) :
    rrun (Prog.bWalk cw first te0 te1 rsize fuel edge counter hit) r =
      bWalk id r.dR first te0 te1 rsize fuel edge counter hit >>= fun o => .ok (o, r) := by
  induction fuel generalizing edge counter hit with
  | zero => rfl
  | succ fuel ih =>
    simp only [Prog.bWalk, bWalk, rrun_bind, rrun_dR, bind_assoc', bind_ok]
    refine bind_congr' fun nxt _ => ?_
    by_cases h1 : edge = first
    · rw [if_pos h1, if_pos h1]; rfl
    · rw [if_neg h1, if_neg h1]
      by_cases h2 : counter > rsize
      · rw [if_pos h2, if_pos h2]; rfl
      · rw [if_neg h2, if_neg h2, ih]
        rw [hcw (counter + 1) (by omega)]
        rfl

theorem bEdge_run {cw : Nat → Nat} {rsize : Nat} (hcw : CwOk cw rsize) (first te0 te1 : Nat)
    (r : Rows F E) :
    rrun (Prog.bEdge cw first te0 te1 rsize) r =
      bEdge id r.dR first te0 te1 rsize >>= fun o => .ok (o, r) := by
  unfold Prog.bEdge bEdge
  simp only [rrun_bind, rrun_dR, bind_assoc', bind_ok, bWalk_run hcw]

theorem bDupInner_run (drsize ei fuel ej : Nat) (r : Rows F E) :
    rrun (Prog.bDupInner drsize ei fuel ej) r =
      bDupInner r.dR drsize ei fuel ej >>= fun o => .ok (o, r) := by
  induction fuel generalizing ej with
  | zero => rfl
  | succ fuel ih =>
    simp only [Prog.bDupInner, bDupInner]
    by_cases h : ej < drsize
    · rw [if_pos h, if_pos h]
      simp only [rrun_bind, rrun_dR, bind_assoc', bind_ok]
      refine bind_congr' fun vj _ => ?_
      by_cases h1 : vj = bUndefined
      · rw [if_pos h1, if_pos h1, ih]
      · rw [if_neg h1, if_neg h1]
        simp only [rrun_bind, rrun_dR, bind_assoc', bind_ok]
        refine bind_congr' fun vi _ => ?_
        by_cases h2 : vi = vj
        · rw [if_pos h2, if_pos h2]; rfl
        · rw [if_neg h2, if_neg h2, ih]
    · rw [if_neg h, if_neg h]; rfl

theorem bDup_run (drsize fuel ei : Nat) (r : Rows F E) :
    rrun (Prog.bDup drsize fuel ei) r = bDup r.dR drsize fuel ei >>= fun o => .ok (o, r) := by
  induction fuel generalizing ei with
  | zero => rfl
  | succ fuel ih =>
    simp only [Prog.bDup, bDup]
    by_cases h : ei < drsize
    · rw [if_pos h, if_pos h]
      simp only [rrun_bind, rrun_dR, bind_assoc', bind_ok]
      refine bind_congr' fun vj _ => ?_
      by_cases h1 : vj = bUndefined
      · rw [if_pos h1, if_pos h1, ih]
      · rw [if_neg h1, if_neg h1]
        simp only [rrun_bind, bDupInner_run, bind_assoc', bind_ok]
        refine bind_congr' fun f _ => ?_
        by_cases h2 : f = true
        · rw [if_pos h2, if_pos h2]; rfl
        · rw [if_neg h2, if_neg h2, ih]
    · rw [if_neg h, if_neg h]; rfl

theorem rd_append {α : Type} (pre R : List α) (j : Nat) : rd (pre ++ R) (pre.length + j) = rd R j := by
  unfold rd
  rw [List.getElem?_append_right (by omega), Nat.add_sub_cancel_left]

theorem wr_append {α : Type} (pre R : List α) (j : Nat) (v : α) :
    wr (pre ++ R) (pre.length + j) v = wr R j v >>= fun l => .ok (pre ++ l) := by
  unfold wr
  by_cases h : j < R.length
  · rw [if_pos h, if_pos (by simpa using h), bind_ok, List.set_append_right _ _ (by omega),
      Nat.add_sub_cancel_left]
  · rw [if_neg h, if_neg (by simpa using h)]; rfl

theorem swp_append {α : Type} (pre R : List α) (i j : Nat) :
    swp (pre ++ R) (pre.length + i) (pre.length + j) = swp R i j >>= fun l => .ok (pre ++ l) := by
  unfold swp
  simp only [rd_append, wr_append, bind_assoc', bind_ok]

theorem bReject_run (st : BState) (pre : List Tri) (r : Rows F E) (hT : r.T = pre ++ st.R) :
    rrun (Prog.bReject pre.length st.j st.swapj) r =
      bReject st >>= fun st' => .ok (st'.swapj, { r with T := pre ++ st'.R }) := by
  unfold Prog.bReject bReject
  by_cases h : st.swapj = 0
  · rw [if_pos h, if_pos h]; rfl
  · rw [if_neg h, if_neg h]
    simp only [rrun_bind, swapTri_run, hT, swp_append, bind_assoc', bind_ok, rrun_pure, pure_eq_ok]

/-- rows after the boundary loop reached the state `st` -/
def Rows.bst (r : Rows F E) (pre : List Tri) (st : BState) : Rows F E :=
  { r with dR := st.cycle, T := pre ++ st.R }

/-- what an iteration leaves in the rows -/
def BStep.out (r : Rows F E) (pre : List Tri) : BStep → Prog.BNext × Rows F E
  | .ret b st => (.ret b st.head, r.bst pre st)
  | .next st => (.next st.head st.j st.swapj, r.bst pre st)

theorem bBody_run {cw : Nat → Nat} {rsize : Nat} (hcw : CwOk cw rsize) (drsize : Nat) (st : BState)
    (pre : List Tri) (r : Rows F E) :
    rrun (Prog.bBody cw drsize rsize pre.length st.head st.j st.swapj) (r.bst pre st) =
      bBody id drsize rsize st >>= fun s => .ok (s.out r pre) := by
  unfold Prog.bBody bBody
  have hT : (r.bst pre st).T = pre ++ st.R := rfl
  have hR : (r.bst pre st).dR = st.cycle := rfl
  simp only [rrun_bind, tri_run, hT, rd_append, bind_assoc', bind_ok, bEdge_run hcw, hR]
  refine bind_congr' fun t _ => bind_congr' fun o0 _ => ?_
  rcases o0 with _ | s0
  · rfl
  simp only [rrun_bind, bEdge_run hcw, hR, bind_assoc', bind_ok]
  refine bind_congr' fun o1 _ => ?_
  rcases o1 with _ | s1
  · rfl
  simp only [rrun_bind, bEdge_run hcw, hR, bind_assoc', bind_ok]
  refine bind_congr' fun o2 _ => ?_
  rcases o2 with _ | s2
  · rfl
  by_cases hj : st.j = st.swapj
  · simp only [if_pos hj]; rfl
  simp only [if_neg hj]
  by_cases hn : nsharedEdges (vbyte s0 s1 s2) = 0
  · simp only [if_pos hn, rrun_bind]
    rw [bReject_run st pre (r.bst pre st) rfl]
    simp only [bind_assoc', bind_ok, rrun_pure, pure_eq_ok]
    refine bind_congr' fun st' h => ?_
    unfold bReject at h
    by_cases h0 : st.swapj = 0
    · rw [if_pos h0] at h; cases h
    · rw [if_neg h0, bind_eq_ok] at h
      obtain ⟨R', _, h⟩ := h
      cases h
      rfl
  simp only [if_neg hn, rrun_bind, rrun_dR, hR, bind_assoc', bind_ok]
  generalize t.get (sharedPosition (vbyte s0 s1 s2) + 0) = e0
  generalize t.get (sharedPosition (vbyte s0 s1 s2) + 1) = e1
  generalize t.get (sharedPosition (vbyte s0 s1 s2) + 2) = e2
  generalize t.get (sharedPosition (vbyte s0 s1 s2) + 3) = e3
  refine bind_congr' fun old0 _ => bind_congr' fun old1 _ => bind_congr' fun old2 _ =>
    bind_congr' fun old00 _ => ?_
  -- the part after the cycle has been changed
  have tail : ∀ (cycle : List Nat) (head : Nat),
      rrun (do
        let dup ← Prog.bDup drsize 257 0
        if dup then do
          Prog.wrt .dR e0 (.u8 old0)
          Prog.wrt .dR e1 (.u8 old1)
          Prog.wrt .dR e2 (.u8 old2)
          Prog.wrt .dR old0 (.u8 old00)
          let swapj ← Prog.bReject pre.length st.j st.swapj
          pure (.next head st.j swapj)
        else pure (.next head (st.j + 1) (cw rsize)) : Prog F E Prog.BNext)
        { r.bst pre st with dR := cycle } =
      (do
        let dup ← bDup cycle drsize 257 0
        if dup then do
          let c ← wr cycle e0 old0
          let c ← wr c e1 old1
          let c ← wr c e2 old2
          let c ← wr c old0 old00
          let st ← bReject { st with cycle := c, head := head }
          pure (.next st)
        else
          pure (.next { st with cycle := cycle, head := head, j := st.j + 1, swapj := id rsize })
          : M BStep) >>= fun s => .ok (s.out r pre) := by
    intro cycle head
    simp only [rrun_bind, bDup_run, bind_assoc', bind_ok]
    refine bind_congr' fun dup _ => ?_
    by_cases hd : dup = true
    · simp only [if_pos hd, rrun_bind, rrun_put_dR, bind_assoc', bind_ok]
      refine bind_congr' fun c0 _ => bind_congr' fun c1 _ => bind_congr' fun c2 _ =>
        bind_congr' fun c3 _ => ?_
      rw [bReject_run { st with cycle := c3, head := head } pre _ rfl]
      simp only [bind_assoc', bind_ok, rrun_pure, pure_eq_ok]
      refine bind_congr' fun st' h => ?_
      unfold bReject at h
      by_cases h0 : st.swapj = 0
      · rw [if_pos h0] at h; cases h
      · rw [if_neg h0, bind_eq_ok] at h
        obtain ⟨R', _, h⟩ := h
        cases h
        rfl
    · simp only [if_neg hd, rrun_pure, pure_eq_ok, bind_ok, hcw rsize (by omega)]
      rfl
  by_cases h1 : nsharedEdges (vbyte s0 s1 s2) = 1
  · simp only [if_pos h1]
    have := tail
    simp only [rrun_bind, rrun_put_dR, bind_assoc', bind_ok, rrun_pure, pure_eq_ok] at this ⊢
    refine bind_congr' fun c1 _ => bind_congr' fun c2 _ => ?_
    exact this c2 e2
  · simp only [if_neg h1]
    by_cases h2 : nsharedEdges (vbyte s0 s1 s2) = 2
    · simp only [if_pos h2]
      have := tail
      simp only [rrun_bind, rrun_dR, rrun_put_dR, bind_assoc', bind_ok, rrun_pure, pure_eq_ok]
        at this ⊢
      refine bind_congr' fun h _ => bind_congr' fun c1 _ => bind_congr' fun c2 _ => ?_
      exact this c2 e0
    · simp only [if_neg h2]
      have := tail st.cycle st.head
      simp only [rrun_bind, bind_assoc', bind_ok, rrun_pure, pure_eq_ok] at this ⊢
      exact this

theorem bLoop_run {cw : Nat → Nat} {rsize : Nat} (hcw : CwOk cw rsize) (drsize fuel : Nat)
    (st : BState) (pre : List Tri) (r : Rows F E) :
    rrun (Prog.bLoop cw drsize rsize pre.length fuel st.head st.j st.swapj) (r.bst pre st) =
      bLoop id drsize rsize fuel st >>= fun o => .ok ((o.1, o.2.head), r.bst pre o.2) := by
  induction fuel generalizing st with
  | zero => rfl
  | succ fuel ih =>
    simp only [Prog.bLoop, bLoop]
    by_cases h : st.j < rsize
    · simp only [if_pos h, rrun_bind, bBody_run hcw, bind_assoc', bind_ok]
      refine bind_congr' fun s _ => ?_
      rcases s with ⟨b, st'⟩ | st'
      · rfl
      · exact ih st'
    · simp only [if_neg h]; rfl

theorem bCompute_run {cw : Nat → Nat} {rsize : Nat} (hcw : CwOk cw rsize) (drsize off : Nat)
    (r : Rows F E) :
    rrun (Prog.bCompute cw drsize rsize off) r =
      bCompute r.dR drsize (r.T.drop off) rsize >>= fun o =>
        .ok ((o.1, o.2.head), r.bst (r.T.take off) o.2) := by
  unfold Prog.bCompute bCompute
  simp only [rrun_bind, tri_run, bInit_run, bind_assoc', bind_ok]
  have e : rd r.T (off + 0) = rd (r.T.drop off) 0 := by
    unfold rd; simp
  rw [e]
  by_cases hoff : off ≤ r.T.length
  · refine bind_congr' fun t _ => bind_congr' fun x _ => ?_
    have hl : (r.T.take off).length = off := by simp [hoff]
    have := bLoop_run (F := F) (E := E) hcw drsize (bFuel rsize)
      { cycle := x.1, head := x.2, R := r.T.drop off, j := 1, swapj := rsize } (r.T.take off) r
    rw [hl] at this
    rw [hcw rsize (by omega)]
    have e2 : r.bst (r.T.take off)
        { cycle := x.1, head := x.2, R := r.T.drop off, j := 1, swapj := rsize } =
        { r with dR := x.1 } := by
      simp [Rows.bst]
    rw [e2] at this
    exact this
  · rw [rd_oob (by simp; omega)]
    rfl

/-! ## cell -/

/-- the local variables and rows as a model state -/
def Rows.cst (r : Rows F E) (psize tsize : Nat) : CCState F :=
  { state := r.state, P := r.P, T := r.T, dR := r.dR, dknn := r.dknn, psize := psize,
    tsize := tsize }

/-- the rows after a state has been reached -/
def Rows.upd (r : Rows F E) (s : CCState F) : Rows F E :=
  { r with state := s.state, P := s.P, T := s.T, dR := s.dR, dknn := s.dknn }

theorem stTrue_run (f : Status) (r : Rows F E) :
    rrun (Prog.stTrue f) r = .ok ((), { r with state := r.state.setTrue f }) := rfl

theorem stClear_run (f : Status) (r : Rows F E) :
    rrun (Prog.stClear f) r =
      .ok ((), { r with state := if r.state.get f then r.state.setFalse f else r.state }) := by
  unfold Prog.stClear
  simp only [rrun_bind, rrun_state, bind_ok]
  by_cases h : r.state.get f = true
  · simp only [if_pos h]; rfl
  · simp only [if_neg h]; rfl

theorem putPlanes_run (l : List (Plane F)) (i : Nat) (r : Rows F E) :
    rrun (Prog.putPlanes i l) r = wrAll r.P i l >>= fun P => .ok ((), { r with P := P }) := by
  induction l generalizing i r with
  | nil => rfl
  | cons v l ih =>
    simp only [Prog.putPlanes, wrAll, rrun_bind, putPlane_run, bind_assoc', bind_ok, ih]

theorem putTris_run (l : List Tri) (i : Nat) (r : Rows F E) :
    rrun (Prog.putTris i l) r = wrAll r.T i l >>= fun T => .ok ((), { r with T := T }) := by
  induction l generalizing i r with
  | nil => rfl
  | cons v l ih =>
    simp only [Prog.putTris, wrAll, rrun_bind, putTri_run, bind_assoc', bind_ok, ih]

variable [FP F D]

theorem triVertex_run (t : Tri) (r : Rows F E) :
    rrun (Prog.triVertex t) r = triVertex r.P t >>= fun v => .ok (v, r) := by
  unfold Prog.triVertex triVertex
  simp only [rrun_bind, plane_run, bind_assoc', bind_ok, rrun_pure, pure_eq_ok]

theorem cutLoop_run (b : Plane F) (p : Pt F) (fuel ti tsize rsize : Nat) (sr : F) (r : Rows F E) :
    rrun (Prog.cutLoop b p fuel ti tsize rsize sr) r =
      cutLoop r.P b p fuel ti r.T tsize rsize sr >>= fun o =>
        .ok ((o.2.1, o.2.2.1, o.2.2.2), { r with T := o.1 }) := by
  induction fuel generalizing ti tsize rsize sr r with
  | zero => rfl
  | succ fuel ih =>
    simp only [Prog.cutLoop, cutLoop]
    by_cases h : ti < tsize
    · simp only [if_pos h, rrun_bind, tri_run, triVertex_run, bind_assoc', bind_ok]
      refine bind_congr' fun t _ => bind_congr' fun v _ => ?_
      generalize hc : lt (ofInt 0) (dot v.x v.y v.z v.w b.a b.b b.c b.d) = c
      by_cases hd : c = true
      · simp only [if_pos hd, rrun_bind, swapTri_run, bind_assoc', bind_ok, ih]
      · simp only [if_neg hd, ih]
    · simp only [if_neg h]; rfl

/-- what the loop writing new triangles leaves -/
def EmitOut.out (r : Rows F E) : EmitOut → Option Nat × Rows F E
  | .done T ts => (some ts, { r with T := T })
  | .overflow T => (none, { r with T := T })

theorem emitLoop_run (tm first newp fuel head tsize : Nat) (r : Rows F E) :
    rrun (Prog.emitLoop tm first newp fuel head tsize) r =
      emitLoop r.dR tm first newp fuel head r.T tsize >>= fun o => .ok (o.out r) := by
  induction fuel generalizing head tsize r with
  | zero => rfl
  | succ fuel ih =>
    simp only [Prog.emitLoop, emitLoop]
    by_cases h : tm ≤ tsize
    · simp only [if_pos h]; rfl
    · simp only [if_neg h, rrun_bind, rrun_dR, putTri_run, bind_assoc', bind_ok]
      refine bind_congr' fun nxt _ => bind_congr' fun T _ => ?_
      by_cases h2 : nxt = first
      · simp only [if_pos h2]; rfl
      · simp only [if_neg h2, ih]
        refine bind_congr' fun o _ => ?_
        cases o <;> rfl

theorem fillDR_run (n : Nat) (v : Nat) (r : Rows F E) :
    rrun (Prog.forN n fun j => Prog.wrt .dR j (.u8 v)) r =
      forN n (fun j dR => wr dR j v) r.dR >>= fun l => .ok ((), { r with dR := l }) := by
  unfold Prog.forN forN
  generalize List.range n = l
  induction l generalizing r with
  | nil => rfl
  | cons j l ih =>
    simp only [List.foldlM_cons, rrun_bind, rrun_put_dR, bind_assoc', bind_ok, ih]

/-- what clipping leaves -/
def clipOut (r : Rows F E) : CCState F ⊕ CCState F → Option Nat × Rows F E
  | .inl s => (none, r.upd s)
  | .inr s => (some s.tsize, r.upd s)

theorem ccClip_run {cw : Nat → Nat} {rsize : Nat} (hcw : CwOk cw rsize) (a : CCArgs) (nb : Nat)
    (b : Plane F) (psize tsize ts0 : Nat) (r : Rows F E) :
    rrun (Prog.ccClip cw a nb b psize tsize rsize) r =
      ccClip a nb b r.T tsize rsize (r.cst psize ts0) >>= fun o => .ok (clipOut r o) := by
  unfold Prog.ccClip ccClip
  by_cases hp : a.pm ≤ psize
  · have hp' : a.pm ≤ (r.cst psize ts0).psize := hp
    simp only [if_pos hp, if_pos hp', rrun_bind, stTrue_run, bind_ok]
    rfl
  · have hp' : ¬ a.pm ≤ (r.cst psize ts0).psize := hp
    simp only [if_neg hp, if_neg hp', rrun_bind, putPlane_run, bind_assoc', bind_ok, rrun_put_dknn,
      fillDR_run, bCompute_run hcw]
    refine bind_congr' fun P _ => bind_congr' fun dk _ => bind_congr' fun dR _ =>
      bind_congr' fun o _ => ?_
    rcases o with ⟨bst, br⟩
    rcases bst with _ | _
    · simp only [rrun_bind, emitLoop_run, bind_assoc', bind_ok]
      refine bind_congr' fun e _ => ?_
      rcases e with _ | _ <;> rfl
    · rfl

/-- what the end of an iteration leaves -/
def finOut (r : Rows F E) : CCStep F → Bool × Rows F E
  | .ret s => (false, r.upd s)
  | .brk s => (true, r.upd s)
  | .next s => (false, r.upd s)

theorem ccFinish_run (p q : Pt F) (sr : F) (psize tsize : Nat) (r : Rows F E) :
    rrun (Prog.ccFinish p q sr) r = .ok (finOut r (ccFinish p q sr (r.cst psize tsize))) := by
  unfold Prog.ccFinish ccFinish
  simp only [rrun_bind, stClear_run, bind_ok]
  by_cases h : srReached p q sr = true
  · simp only [if_pos h, rrun_bind, stTrue_run, bind_ok]; rfl
  · simp only [if_neg h]; rfl

/-- what an iteration over a neighbour leaves -/
def stepOut (r : Rows F E) : CCStep F → Prog.CNext × Rows F E
  | .ret s => (.ret, r.upd s)
  | .brk s => (.brk s.psize s.tsize, r.upd s)
  | .next s => (.next s.psize s.tsize, r.upd s)

theorem cutLoop_sizes (P : List (Plane F)) (b : Plane F) (p : Pt F) (fuel ti : Nat) (T : List Tri)
    (ts rs : Nat) (sr : F) (o : List Tri × Nat × Nat × F)
    (h : cutLoop P b p fuel ti T ts rs sr = .ok o) : o.2.1 + o.2.2.1 = ts + rs := by
  induction fuel generalizing ti T ts rs sr with
  | zero => cases h
  | succ fuel ih =>
    simp only [cutLoop] at h
    by_cases hlt : ti < ts
    · simp only [if_pos hlt, bind_eq_ok] at h
      obtain ⟨t, _, v, _, h⟩ := h
      generalize hc : lt (ofInt 0) (dot v.x v.y v.z v.w b.a b.b b.c b.d) = c at h
      by_cases hd : c = true
      · simp only [if_pos hd, bind_eq_ok] at h
        obtain ⟨T', _, h⟩ := h
        have := ih _ _ _ _ _ h
        omega
      · simp only [if_neg hd] at h
        exact ih _ _ _ _ _ h
    · simp only [if_neg hlt, pure_eq_ok, Except.ok.injEq] at h
      subst h; rfl

theorem ccClip_inr {a : CCArgs} {nb : Nat} {b : Plane F} {T : List Tri} {tsize rsize : Nat}
    {s s' : CCState F} (h : ccClip a nb b T tsize rsize s = .ok (.inr s')) :
    s'.psize = s.psize + 1 := by
  unfold ccClip at h
  by_cases hp : a.pm ≤ s.psize
  · simp only [if_pos hp, pure_eq_ok] at h; cases h
  · simp only [if_neg hp, bind_eq_ok] at h
    obtain ⟨P, _, dk, _, dR, _, o, _, h⟩ := h
    rcases o with ⟨bst, br⟩
    rcases bst with _ | _
    · simp only [bind_eq_ok] at h
      obtain ⟨e, _, h⟩ := h
      rcases e with _ | _
      · cases h; rfl
      · cases h
    · cases h

theorem ccFinish_sizes (p q : Pt F) (sr : F) (s : CCState F) :
    ∃ st : State, ccFinish p q sr s = .brk { s with state := st } ∨
      ccFinish p q sr s = .next { s with state := st } := by
  unfold ccFinish
  by_cases h : srReached p q sr = true
  · simp only [if_pos h]; exact ⟨_, .inl rfl⟩
  · simp only [if_neg h]; exact ⟨_, .inr rfl⟩

/-- the cut for one neighbour removes at most `B` vertices -/
def CutAtMost (B : Nat) (xyz : List (Pt F)) (knn : List Int) (p : Pt F) (nb : Nat)
    (s : CCState F) : Prop :=
  ∀ qi q o, rd knn nb = .ok qi → rdI xyz qi = .ok q →
    cutLoop s.P (bisect q p) p (2 * s.tsize + 1) 0 s.T s.tsize 0 (ofInt 0) = .ok o → o.2.2.1 ≤ B

theorem cutAtMost_tsize (xyz : List (Pt F)) (knn : List Int) (p : Pt F) (nb : Nat)
    (s : CCState F) : CutAtMost s.tsize xyz knn p nb s := by
  intro qi q o _ _ h
  have := cutLoop_sizes _ _ _ _ _ _ _ _ _ _ h
  omega

theorem ccStep_run {cw : Nat → Nat} {B : Nat} (hcw : CwOk cw B) (a : CCArgs) (p : Pt F)
    (nb psize tsize : Nat) (r : Rows F E)
    (hcut : CutAtMost B r.xyz (r.heap.map (·.1)) p nb (r.cst psize tsize)) :
    rrun (Prog.ccStep cw a p nb psize tsize) r =
      ccStep a r.xyz (r.heap.map (·.1)) p nb (r.cst psize tsize) >>= fun s =>
        .ok (stepOut r s) := by
  unfold Prog.ccStep ccStep
  have e : rd (r.heap.map (·.1)) nb = rd r.heap nb >>= fun x => .ok x.1 := by
    unfold rd; rw [List.getElem?_map]; cases r.heap[nb]? <;> rfl
  simp only [rrun_bind, rrun_hid, e, rrun_point, cutLoop_run, bind_assoc', bind_ok]
  refine bind_congr' fun x hx => bind_congr' fun q hq => ?_
  have e2 : cutLoop r.P (bisect q p) p (2 * tsize + 1) 0 r.T tsize 0 (ofInt 0) =
    cutLoop (r.cst psize tsize).P (bisect q p) p (2 * (r.cst psize tsize).tsize + 1) 0
      (r.cst psize tsize).T (r.cst psize tsize).tsize 0 (ofInt 0) := rfl
  rw [← e2]
  refine bind_congr' fun o ho => ?_
  have hsz := hcut x.1 q o (by rw [e, hx]; rfl) hq ho
  rcases o with ⟨T, ts, rs, sr⟩
  simp only at hsz ⊢
  by_cases hr : 0 < rs
  · simp only [if_pos hr, rrun_bind]
    rw [ccClip_run (hcw.mono hsz) a nb (bisect q p) psize ts tsize { r with T := T }]
    simp only [bind_assoc', bind_ok]
    refine bind_congr' fun c hc => ?_
    rcases c with s | s
    · rfl
    · have hps : s.psize = psize + 1 := ccClip_inr hc
      have hcs : (({ r with T := T } : Rows F E).upd s).cst s.psize s.tsize = s := rfl
      simp only [clipOut, rrun_bind]
      rw [ccFinish_run p q sr s.psize s.tsize, hcs]
      obtain ⟨st, h | h⟩ := ccFinish_sizes p q sr s
      · rw [h, ← hps]; rfl
      · rw [h, ← hps]; rfl
  · simp only [if_neg hr, rrun_bind, stTrue_run, bind_ok]
    rw [ccFinish_run p q sr psize ts]
    generalize hs : Rows.cst _ psize ts = s
    have hs2 : s = { r.cst psize tsize with T := T, tsize := ts, state := (r.cst psize tsize).state.setTrue .error_nonvalid_neighbor } := by
      rw [← hs]; rfl
    rw [← hs2]
    obtain ⟨st, h | h⟩ := ccFinish_sizes p q sr s
    · rw [h, hs2]; rfl
    · rw [h, hs2]; rfl

end Votess
