import Verif.Proofs.CellRow
/-!
The cell computation in two arithmetics: if the comparisons come out the same, so does everything but
the stored planes.
-/
set_option linter.unusedSectionVars false
namespace Votess

open FP

variable {F D : Type} [FP F D] {K E : Type} [FP K E]

/-- two states that differ in the stored planes only; these are related by `R` -/
structure Sim (R : Plane F → Plane K → Prop) (s : CCState F) (s' : CCState K) : Prop where
  state : s.state = s'.state
  T : s.T = s'.T
  dR : s.dR = s'.dR
  dknn : s.dknn = s'.dknn
  psize : s.psize = s'.psize
  tsize : s.tsize = s'.tsize
  planes : ∀ j, j < s.psize → R (s.P.getD j zeroPlane) (s'.P.getD j zeroPlane)

/-- two outcomes of an iteration -/
inductive SimStep (R : Plane F → Plane K → Prop) : CCStep F → CCStep K → Prop
  | ret {s : CCState F} {s' : CCState K} (h : Sim R s s') : SimStep R (.ret s) (.ret s')
  | brk {s : CCState F} {s' : CCState K} (h : Sim R s s') : SimStep R (.brk s) (.brk s')
  | next {s : CCState F} {s' : CCState K} (h : Sim R s s') : SimStep R (.next s) (.next s')

/-- the radius after the vertices `vs` -/
def radiusOf (P : List (Plane F)) (p : Pt F) (vs : List Tri) (sr : F) : F :=
  (vs.map (vtx P)).foldl (fun sr v => srUpdate p v.x v.y v.z sr) sr

/-- the loop over the vertices -/
theorem cutLoop_sim (P : List (Plane F)) (P' : List (Plane K)) (b : Plane F) (b' : Plane K) (p : Pt F)
    (p' : Pt K) : ∀ (fuel ti : Nat) (T : List Tri) (ts rs : Nat) (sr : F) (sr' : K), ti ≤ ts →
      ts ≤ T.length → (∀ m t, m < ts → T[m]? = some t → t.below P.length ∧ t.below P'.length ∧
        isCut P b t = isCut P' b' t) → ts - ti < fuel →
      ∃ (T' : List Tri) (ts' rs' : Nat) (vs : List Tri),
        cutLoop P b p fuel ti T ts rs sr = .ok (T', ts', rs', radiusOf P p vs sr) ∧
        cutLoop P' b' p' fuel ti T ts rs sr' = .ok (T', ts', rs', radiusOf P' p' vs sr') ∧
        (∀ m t, ti ≤ m → m < ts → T[m]? = some t → t ∈ vs) ∧
        (∀ t ∈ vs, ∃ m, m < ts ∧ T[m]? = some t) := by
  intro fuel
  induction fuel with
  | zero => intro ti T ts rs sr sr' _ _ _ h; omega
  | succ fuel ih =>
    intro ti T ts rs sr sr' h1 h2 hb hf
    unfold cutLoop
    by_cases hlt : ti < ts
    · rw [if_pos hlt, if_pos hlt]
      have ht : T[ti]? = some T[ti] := List.getElem?_eq_getElem (by omega)
      generalize T[ti] = t at ht
      obtain ⟨g1, g2, g3⟩ := hb ti t hlt ht
      rw [rd_eq_ok.mpr ht]
      simp only [bind_ok, triVertex_ok g1, triVertex_ok g2]
      by_cases hc : isCut P b t = true
      · have hc' : isCut P' b' t = true := by rw [← g3]; exact hc
        unfold isCut at hc hc'
        rw [if_pos hc, if_pos hc']
        obtain ⟨T1, k1, k2, k3, k4, k5, k6⟩ := swp_spec (a := T) (i := ti) (j := ts - 1)
          (by omega) (by omega)
        have hs := Sift.of_swp (s := ts) (by omega) (by omega) (by omega) k1
        rw [k1]
        simp only [bind_ok]
        obtain ⟨T', ts', rs', vs, r1, r2, r3, r4⟩ := ih ti T1 (ts - 1) (rs + 1)
          (srUpdate p (vtx P t).x (vtx P t).y (vtx P t).z sr)
          (srUpdate p' (vtx P' t).x (vtx P' t).y (vtx P' t).z sr') (by omega) (by omega)
          (by
            intro m u hm hu
            obtain ⟨m', hm', e⟩ := hs.src m (by omega)
            exact hb m' u hm' (by rw [← e]; exact hu)) (by omega)
        refine ⟨T', ts', rs', t :: vs, r1, r2, ?_, ?_⟩
        · intro m u hm1 hm2 hu
          by_cases e : m = ti
          · subst e; rw [ht] at hu; cases hu; exact List.mem_cons_self
          · apply List.mem_cons_of_mem
            by_cases e2 : m = ts - 1
            · subst e2
              exact r3 ti u (by omega) (by omega) (by rw [k4]; exact hu)
            · exact r3 m u (by omega) (by omega) (by rw [k6 m e e2]; exact hu)
        · intro u hu
          rcases List.mem_cons.mp hu with rfl | hu
          · exact ⟨ti, by omega, ht⟩
          · obtain ⟨m, hm, hm'⟩ := r4 u hu
            obtain ⟨m', hm', e⟩ := hs.src m (by omega)
            exact ⟨m', hm', by rw [← e]; assumption⟩
      · have hc' : ¬ isCut P' b' t = true := by rw [← g3]; exact hc
        unfold isCut at hc hc'
        rw [if_neg hc, if_neg hc']
        obtain ⟨T', ts', rs', vs, r1, r2, r3, r4⟩ := ih (ti + 1) T ts rs
          (srUpdate p (vtx P t).x (vtx P t).y (vtx P t).z sr)
          (srUpdate p' (vtx P' t).x (vtx P' t).y (vtx P' t).z sr') (by omega) (by omega) hb (by omega)
        refine ⟨T', ts', rs', t :: vs, r1, r2, ?_, ?_⟩
        · intro m u hm1 hm2 hu
          by_cases e : m = ti
          · subst e; rw [ht] at hu; cases hu; exact List.mem_cons_self
          · exact List.mem_cons_of_mem _ (r3 m u (by omega) (by omega) hu)
        · intro u hu
          rcases List.mem_cons.mp hu with rfl | hu
          · exact ⟨ti, by omega, ht⟩
          · exact r4 u hu
    · rw [if_neg hlt, if_neg hlt]
      refine ⟨T, ts, rs, [], rfl, rfl, ?_, ?_⟩
      · intro m t hm1 hm2; omega
      · intro t ht; cases ht

theorem ccFinish_sim {R : Plane F → Plane K → Prop} {p q : Pt F} {p' q' : Pt K} {sr : F} {sr' : K}
    (h : srReached p q sr = srReached p' q' sr') {s : CCState F} {s' : CCState K} (hs : Sim R s s') :
    SimStep R (ccFinish p q sr s) (ccFinish p' q' sr' s') := by
  rw [ccFinish_eq, ccFinish_eq, ← h]
  split
  · exact .brk ⟨by simp only [hs.state], hs.T, hs.dR, hs.dknn, hs.psize, hs.tsize, hs.planes⟩
  · exact .next ⟨by simp only [hs.state], hs.T, hs.dR, hs.dknn, hs.psize, hs.tsize, hs.planes⟩

theorem planes_set {R : Plane F → Plane K → Prop} {P : List (Plane F)} {P' : List (Plane K)} {n : Nat}
    (h : ∀ j, j < n → R (P.getD j zeroPlane) (P'.getD j zeroPlane)) (h1 : n < P.length)
    (h2 : n < P'.length) {b : Plane F} {b' : Plane K} (hb : R b b') :
    ∀ j, j < n + 1 → R ((P.set n b).getD j zeroPlane) ((P'.set n b').getD j zeroPlane) := by
  intro j hj
  simp only [List.getD_eq_getElem?_getD] at h ⊢
  by_cases e : j = n
  · subst e
    rw [List.getElem?_set_self h1, List.getElem?_set_self h2]
    exact hb
  · rw [List.getElem?_set_ne (by omega), List.getElem?_set_ne (by omega)]
    exact h j (by omega)

theorem ccClip_sim {R : Plane F → Plane K → Prop} {a : CCArgs} {nb : Nat} {b : Plane F} {b' : Plane K}
    (hb : R b b') {s : CCState F} {s' : CCState K} (hs : Sim R s s') (hp : s.P.length = a.pm)
    (hp' : s'.P.length = a.pm) (T : List Tri) (ts rs : Nat) :
    (∃ e, ccClip a nb b T ts rs s = .error e ∧ ccClip a nb b' T ts rs s' = .error e) ∨
    (∃ o o', ccClip a nb b T ts rs s = .ok (.inl o) ∧ ccClip a nb b' T ts rs s' = .ok (.inl o') ∧
      Sim R o o') ∨
    (∃ o o', ccClip a nb b T ts rs s = .ok (.inr o) ∧ ccClip a nb b' T ts rs s' = .ok (.inr o') ∧
      Sim R o o') := by
  obtain ⟨st, P, T0, dR, dknn, ps, ts0⟩ := s
  obtain ⟨st', P', T0', dR', dknn', ps', ts0'⟩ := s'
  obtain ⟨e1, e2, e3, e4, e5, e6, hpl⟩ := hs
  simp only at e1 e2 e3 e4 e5 e6 hpl hp hp'
  subst e1 e2 e3 e4 e5 e6
  unfold ccClip
  simp only
  by_cases hov : a.pm ≤ ps
  · rw [if_pos hov, if_pos hov]
    exact Or.inr (Or.inl ⟨_, _, rfl, rfl, ⟨rfl, rfl, rfl, rfl, rfl, rfl, hpl⟩⟩)
  · rw [if_neg hov, if_neg hov, wr_ok (by omega : ps < P.length), wr_ok (by omega : ps < P'.length)]
    simp only [bind_ok]
    have hset := planes_set hpl (by omega : ps < P.length) (by omega : ps < P'.length) hb
    cases wr dknn nb (ps : Int) with
    | error e => exact Or.inl ⟨e, rfl, rfl⟩
    | ok dk =>
      simp only [bind_ok]
      cases forN a.pm (fun j dR => wr dR j bUndefined) dR with
      | error e => exact Or.inl ⟨e, rfl, rfl⟩
      | ok d =>
        simp only [bind_ok]
        cases bCompute d a.pm (T.drop ts) rs with
        | error e => exact Or.inl ⟨e, rfl, rfl⟩
        | ok x =>
          obtain ⟨bst, br⟩ := x
          simp only [bind_ok]
          cases bst with
          | unreachable => exact Or.inr (Or.inl ⟨_, _, rfl, rfl, ⟨rfl, rfl, rfl, rfl, rfl, rfl, hset⟩⟩)
          | success =>
            simp only
            cases emitLoop br.cycle a.tm br.head (ps + 1 - 1) (a.tm + 1) br.head (T.take ts ++ br.R) ts with
            | error e => exact Or.inl ⟨e, rfl, rfl⟩
            | ok x =>
              cases x with
              | overflow T2 =>
                exact Or.inr (Or.inl ⟨_, _, rfl, rfl, ⟨rfl, rfl, rfl, rfl, rfl, rfl, hset⟩⟩)
              | done T2 ts2 =>
                exact Or.inr (Or.inr ⟨_, _, rfl, rfl, ⟨rfl, rfl, rfl, rfl, rfl, rfl, hset⟩⟩)

/-- what has to agree in one iteration -/
structure Agree (s : CCState F) (s' : CCState K) (p q : Pt F) (p' q' : Pt K) : Prop where
  cut : ∀ t ∈ s'.T.take s'.tsize, isCut s.P (bisect q p) t = isCut s'.P (bisect q' p') t
  rad : ∀ vs, (∀ t, t ∈ vs ↔ t ∈ s'.T.take s'.tsize) →
    srReached p q (radiusOf s.P p vs (ofInt 0)) = srReached p' q' (radiusOf s'.P p' vs (ofInt 0))

theorem ccStep_sim {R : Plane F → Plane K → Prop} {a : CCArgs} {xyz : List (Pt F)} {xyz' : List (Pt K)}
    {knn knn' : List Int} {p : Pt F} {p' : Pt K} {nb : Nat} {s : CCState F} {s' : CCState K} {qi : Int}
    {q : Pt F} {q' : Pt K} (hi : CCInv a s) (hi' : CCInv a s') (hs : Sim R s s')
    (hq : knn[nb]? = some qi) (hq' : knn'[nb]? = some qi) (hqx : rdI xyz qi = .ok q)
    (hqx' : rdI xyz' qi = .ok q') (hb : R (bisect q p) (bisect q' p')) (hag : Agree s s' p q p' q') {o' : CCStep K}
    (ho' : ccStep a xyz' knn' p' nb s' = .ok o') :
    ∃ o, ccStep a xyz knn p nb s = .ok o ∧ SimStep R o o' := by
  have hpl := hi.plen; have hpl' := hi'.plen
  have htl := hi'.tlen; have htt := hi'.tt; have hpp := hi'.pp
  have hps := hs.psize
  obtain ⟨T1, ts1, rs1, vs, c1, c2, c3, c4⟩ := cutLoop_sim s.P s'.P (bisect q p) (bisect q' p') p p'
    (2 * s'.tsize + 1) 0 s'.T s'.tsize 0 (ofInt 0) (ofInt 0) (by omega) (by omega) (by
      intro m t hm ht
      have hmem : t ∈ s'.T.take s'.tsize := mem_take_iff.mpr ⟨m, hm, ht⟩
      have := hi'.valid.tri t hmem
      exact ⟨⟨by omega, by omega, by omega⟩, ⟨by omega, by omega, by omega⟩, hag.cut t hmem⟩) (by omega)
  have hrad := hag.rad vs (fun t => by
    rw [mem_take_iff]
    exact ⟨fun h => c4 t h, fun ⟨m, h1, h2⟩ => c3 m t (by omega) h1 h2⟩)
  unfold ccStep at ho' ⊢
  rw [hs.T, hs.tsize]
  simp only [rd_eq_ok.mpr hq, rd_eq_ok.mpr hq', hqx, hqx', bind_ok, c1, c2] at ho' ⊢
  by_cases hr : 0 < rs1
  · rw [if_pos hr] at ho' ⊢
    rcases ccClip_sim (nb := nb) hb hs hpl hpl' T1 ts1 rs1 with ⟨e, -, h2⟩ | ⟨o1, o2, h1, h2, h3⟩ |
      ⟨o1, o2, h1, h2, h3⟩
    · rw [h2] at ho'; simp [bind_error] at ho'
    · rw [h2] at ho'; rw [h1]
      simp only [bind_ok, pure_eq_ok] at ho' ⊢
      cases ho'
      exact ⟨_, rfl, .ret h3⟩
    · rw [h2] at ho'; rw [h1]
      simp only [bind_ok, pure_eq_ok] at ho' ⊢
      cases ho'
      exact ⟨_, rfl, ccFinish_sim hrad h3⟩
  · rw [if_neg hr] at ho' ⊢
    simp only [pure_eq_ok] at ho' ⊢
    cases ho'
    exact ⟨_, rfl, ccFinish_sim hrad ⟨by simp only [hs.state], rfl, hs.dR, hs.dknn, hs.psize, rfl,
      hs.planes⟩⟩

/-- the loop; the two lists of candidates need to agree only where they are looked at -/
theorem ccLoop_sim {R : Plane F → Plane K → Prop} {a : CCArgs} {xyz : List (Pt F)} {xyz' : List (Pt K)}
    {knn knn' : List Int} {p : Pt F} {p' : Pt K} {dk0 : List Int} {s0 : CCState F} {s0' : CCState K}
    (hc : Ctx a xyz knn) (hc' : Ctx a xyz' knn')
    (h0 : CCInv a s0') (h1 : Hist xyz' knn' p' dk0 0 s0' []) (h2 : Clear s0'.state)
    (g0 : CCInv a s0) (g1 : Hist xyz knn p dk0 0 s0 []) (g2 : Clear s0.state)
    (hb : ∀ qi q q', rdI xyz qi = .ok q → rdI xyz' qi = .ok q' → R (bisect q p) (bisect q' p'))
    (hsame : ∀ nb s', nb < a.k → CellReach a xyz' knn' p' s0' nb false s' → knn[nb]? = knn'[nb]?)
    (hag : ∀ nb s s' qi q q', nb < a.k → CellReach a xyz' knn' p' s0' nb false s' → Sim R s s' →
      knn'[nb]? = some qi → rdI xyz qi = .ok q → rdI xyz' qi = .ok q' → Agree s s' p q p' q') :
    ∀ n s s', n ≤ a.k → CellReach a xyz knn p s0 (a.k - n) false s →
      CellReach a xyz' knn' p' s0' (a.k - n) false s' → Sim R s s' →
      (∀ i, i < a.k - n → knn[i]? = knn'[i]?) →
      ∃ b t t', ccLoop a xyz knn p n s = .ok (b, t) ∧ ccLoop a xyz' knn' p' n s' = .ok (b, t') ∧
        Sim R t t' ∧ (b = true → ∃ m fl, CellReach a xyz' knn' p' s0' m fl t' ∧
          ∀ i, i < m → knn[i]? = knn'[i]?) := by
  intro n
  induction n with
  | zero => intro s s' _ _ hr' hs he; exact ⟨true, s, s', rfl, rfl, hs, fun _ => ⟨_, _, hr', he⟩⟩
  | succ n ih =>
    intro s s' hn hr hr' hs he
    obtain ⟨i1, ⟨js, i2⟩, i3, -⟩ := hr'.inv hc' h0 h1 h2
    obtain ⟨hi, -⟩ := hr.inv hc g0 g1 g2
    have hnb : a.k - (n + 1) < a.k := by omega
    obtain ⟨qi, q', hq', hqx'⟩ := hc'.ids _ hnb
    obtain ⟨qi2, q, hq, hqx⟩ := hc.ids _ hnb
    have hsm := hsame _ _ hnb hr'
    have e2 : qi2 = qi := by rw [hq, hq'] at hsm; injection hsm
    subst e2
    obtain ⟨o', ho', -⟩ := ccStep_inv hc' hnb i1 i2 (i3 rfl)
    obtain ⟨o, ho, hso⟩ := ccStep_sim hi i1 hs hq hq' hqx hqx' (hb _ _ _ hqx hqx')
      (hag _ _ _ _ _ _ hnb hr' hs hq' hqx hqx') ho'
    have he' : ∀ i, i < a.k - (n + 1) + 1 → knn[i]? = knn'[i]? := by
      intro i hi
      rcases Nat.lt_or_ge i (a.k - (n + 1)) with h | h
      · exact he i h
      · rw [show i = a.k - (n + 1) by omega]; exact hsm
    unfold ccLoop
    rw [ho, ho', bind_ok, bind_ok]
    cases hso with
    | ret h => exact ⟨false, _, _, rfl, rfl, h, fun h => by cases h⟩
    | brk h => exact ⟨true, _, _, rfl, rfl, h, fun _ => ⟨_, _, CellReach.brk hr' hnb ho', he'⟩⟩
    | next h =>
      have n1 := CellReach.next hr hnb ho
      have n2 := CellReach.next hr' hnb ho'
      rw [show a.k - (n + 1) + 1 = a.k - n by omega] at n1 n2 he'
      exact ih _ _ (by omega) n1 n2 h he'

theorem ccInit_sim {R : Plane F → Plane K → Prop} {a : CCArgs} (st : State) {P : List (Plane F)}
    {P' : List (Plane K)} {T : List Tri} {dR : List Nat} {dknn : List Int} (hP : P.length = a.pm)
    (hP' : P'.length = a.pm) (h6 : 6 ≤ a.pm)
    (hR : ∀ j, j < 6 → R ((pInit : List (Plane F)).getD j zeroPlane) ((pInit : List (Plane K)).getD j zeroPlane))
    {s : CCState F} {s' : CCState K} (h : ccInit st P T dR dknn = .ok s)
    (h' : ccInit st P' T dR dknn = .ok s') : Sim R s s' := by
  obtain ⟨Q, p1, p2, p3⟩ := wrAll_ok (pInit : List (Plane F)) P 0 (by simp [pInit]; omega)
  obtain ⟨Q', q1, q2, q3⟩ := wrAll_ok (pInit : List (Plane K)) P' 0 (by simp [pInit]; omega)
  have e6 : (pInit : List (Plane F)).length = 6 := rfl
  have e6' : (pInit : List (Plane K)).length = 6 := rfl
  simp only [Nat.zero_add, List.take_zero, List.nil_append] at p3 q3
  rw [e6] at p3; rw [e6'] at q3
  unfold ccInit at h h'
  rw [p1, bind_ok] at h
  rw [q1, bind_ok] at h'
  cases hT : wrAll T 0 tInit with
  | error e => rw [hT] at h; cases h
  | ok T1 =>
    rw [hT, bind_ok, pure_eq_ok] at h
    rw [hT, bind_ok, pure_eq_ok] at h'
    cases h; cases h'
    refine ⟨rfl, rfl, rfl, rfl, rfl, rfl, fun j hj => ?_⟩
    have := hR j hj
    simp only
    have a1 : Q.getD j zeroPlane = (pInit : List (Plane F)).getD j zeroPlane := by
      rw [← p3, List.getD_eq_getElem?_getD, List.getD_eq_getElem?_getD, List.getElem?_take, if_pos hj]
    have a2 : Q'.getD j zeroPlane = (pInit : List (Plane K)).getD j zeroPlane := by
      rw [← q3, List.getD_eq_getElem?_getD, List.getD_eq_getElem?_getD, List.getElem?_take, if_pos hj]
    rw [a1, a2]
    exact this

theorem marked_congr {T : List Tri} {dknn knn knn' : List Int} (hl : knn.length = knn'.length)
    (h : ∀ (i : Nat) d, dknn[i]? = some d → usesPlane T d = true → knn[i]? = knn'[i]?) :
    marked T dknn knn = marked T dknn knn' := by
  unfold marked
  apply List.ext_getElem?
  intro i
  rw [List.getElem?_zipWith, List.getElem?_zipWith]
  cases hd : dknn[i]? with
  | none => rfl
  | some d =>
    by_cases hu : usesPlane T d = true
    · rw [h i d hd hu]
    · rcases Nat.lt_or_ge i knn.length with hi | hi
      · rw [List.getElem?_eq_getElem hi, List.getElem?_eq_getElem (by omega : i < knn'.length)]
        simp [hu]
      · rw [List.getElem?_eq_none hi, List.getElem?_eq_none (by omega : knn'.length ≤ i)]

/-- the two computations as a whole: same status, and same row unless there was an error.  The lists of
candidates need to agree only where they are looked at. -/
theorem ccCompute_sim {R : Plane F → Plane K → Prop} {a : CCArgs} {xyz : List (Pt F)}
    {xyz' : List (Pt K)} {index : Int} {P : List (Plane F)} {P' : List (Plane K)} {T : List Tri}
    {dR : List Nat} {knn knn' dknn : List Int} (h : CCPre a xyz index P T dR knn dknn)
    (h' : CCPre a xyz' index P' T dR knn' dknn) (hdk : ∀ v ∈ dknn, v = kUndefined)
    {p : Pt F} {p' : Pt K} (hp : rdI xyz index = .ok p) (hp' : rdI xyz' index = .ok p')
    (hR : ∀ j, j < 6 → R ((pInit : List (Plane F)).getD j zeroPlane) ((pInit : List (Plane K)).getD j zeroPlane))
    (hb : ∀ qi q q', rdI xyz qi = .ok q → rdI xyz' qi = .ok q' → R (bisect q p) (bisect q' p'))
    (hsame : ∀ s0' nb s', ccInit .init P' T dR dknn = .ok s0' → nb < a.k →
      CellReach a xyz' knn' p' s0' nb false s' → knn[nb]? = knn'[nb]?)
    (hag : ∀ s0' nb s s' qi q q', ccInit .init P' T dR dknn = .ok s0' → nb < a.k →
      CellReach a xyz' knn' p' s0' nb false s' → Sim R s s' →
      knn'[nb]? = some qi → rdI xyz qi = .ok q → rdI xyz' qi = .ok q' → Agree s s' p q p' q') :
    ∃ o o', ccCompute a xyz index .init P T dR knn dknn = .ok o ∧
      ccCompute a xyz' index .init P' T dR knn' dknn = .ok o' ∧ Sim R o.s o'.s ∧
      (NoError o'.s.state → o.knn = o'.knn) := by
  obtain ⟨s0, i1, i2, i3, i4, -, -⟩ :=
    ccInit_spec .init xyz knn p h.plen h.tlen h.dlen h.klen h.pm6 h.tm8
  obtain ⟨s0', j1, j2, j3, j4, -, -⟩ :=
    ccInit_spec .init xyz' knn' p' h'.plen h'.tlen h'.dlen h'.klen h'.pm6 h'.tm8
  have cl0 : Clear s0'.state := by rw [j4]; exact State.get_init
  obtain ⟨b, t, t', l1, l2, l3, l4⟩ := ccLoop_sim (R := R) h.ctx h'.ctx j2 j3
    cl0 i2 i3 (by rw [i4]; exact State.get_init) hb (fun nb s' => hsame s0' nb s' j1)
    (fun nb s s' qi q q' => hag s0' nb s s' qi q q' j1) a.k s0 s0' (Nat.le_refl _) (by simpa using .init)
    (by simpa using .init) (ccInit_sim .init h.plen h'.plen h.pm6 hR i1 j1) (by intro i hi; omega)
  have hfit := h.fits
  obtain ⟨o', ho', -⟩ := ccCompute_res State.get_init h' hp'
  unfold ccCompute at ho' ⊢
  simp only [hfit, Bool.not_true, Bool.false_eq_true, if_false, hp, hp', i1, j1, l1, l2, bind_ok] at ho' ⊢
  cases b with
  | false =>
    simp only [Bool.false_eq_true, if_false]
    refine ⟨_, _, rfl, rfl, l3, fun hno => ?_⟩
    obtain ⟨b, s, m1, m2⟩ := ccLoop_induct (a := a) (xyz := xyz') (knn := knn') (p := p')
      (fun nb s => CCInv a s ∧ (∃ js', Hist xyz' knn' p' dknn nb s js') ∧ Clear s.state)
      (fun nb s => CCInv a s ∧ (∃ js', Hist xyz' knn' p' dknn (nb + 1) s js') ∧
          ∀ f, s.state.get f = decide (f = .security_radius_reached))
      (fun nb s => Sizes a s ∧ CCFail a s)
      (by
        rintro nb s hnb ⟨j1, ⟨js, j2⟩, j3⟩
        exact ccStep_inv h'.ctx hnb j1 j2 j3)
      a.k s0' (Nat.le_refl _) ⟨j2, ⟨[], by simpa using j3⟩, cl0⟩
    rw [l2] at m1
    cases m1
    rcases m2 with ⟨h, -⟩ | ⟨h, -⟩ | ⟨-, nb, -, -, hf⟩
    · cases h
    · cases h
    · exact absurd hf hno.not_fail
  | true =>
    simp only [if_true] at ho' ⊢
    obtain ⟨m, fl, hr, he⟩ := l4 rfl
    obtain ⟨v1, ⟨js, v2⟩, -, -⟩ := hr.inv h'.ctx j2 j3 cl0
    rw [l3.T, l3.tsize, l3.dknn]
    have hT := v1.tt
    rw [← v1.tlen] at hT
    have hd : t'.dknn.length = a.k := v1.klen
    rw [markUnused_ok hT hd h.ctx.klen, bind_ok]
    rw [markUnused_ok hT hd h'.ctx.klen, bind_ok] at ho' ⊢
    have e : marked (t'.T.take t'.tsize) t'.dknn knn = marked (t'.T.take t'.tsize) t'.dknn knn' := by
      refine marked_congr (h.ctx.klen.trans h'.ctx.klen.symm) fun i d hd hu => ?_
      by_cases hi : i ∈ js
      · exact he i (v2.lt i hi)
      · exfalso
        rw [v2.old i hi] at hd
        rw [hdk d (List.mem_of_getElem? hd)] at hu
        unfold usesPlane at hu
        obtain ⟨t, -, ht⟩ := List.any_eq_true.mp hu
        simp only [Bool.or_eq_true] at ht
        unfold kUndefined at ht
        rcases ht with (ht | ht) | ht <;> (have := of_decide_eq_true ht; omega)
    rw [e]
    cases hk : compact a.k (marked (t'.T.take t'.tsize) t'.dknn knn') with
    | error e => rw [hk] at ho'; cases ho'
    | ok k2 => exact ⟨_, _, rfl, rfl, l3, fun _ => rfl⟩

end Votess
