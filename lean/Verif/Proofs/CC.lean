import Verif.Model.CC
import Verif.Proofs.Surface
/-! Structure of one clipping step, for any arithmetic. -/
namespace Votess

open FP

variable {F D : Type} [FP F D]

/-- the zero plane, used as a default -/
def zeroPlane : Plane F := ⟨ofInt 0, ofInt 0, ofInt 0, ofInt 0⟩

/-- vertex of a triangle -/
def vtx (P : List (Plane F)) (t : Tri) : Vertex F :=
  intersect (P.getD t.a zeroPlane) (P.getD t.b zeroPlane) (P.getD t.c zeroPlane)

/-- the vertex of `t` is cut off by `b` -/
def isCut (P : List (Plane F)) (b : Plane F) (t : Tri) : Bool :=
  lt (ofInt 0) (dot (vtx P t).x (vtx P t).y (vtx P t).z (vtx P t).w b.a b.b b.c b.d)

/-- the three plane numbers are below `n` -/
def Tri.below (n : Nat) (t : Tri) : Prop := t.a < n ∧ t.b < n ∧ t.c < n

theorem triVertex_ok {P : List (Plane F)} {t : Tri} (h : t.below P.length) :
    triVertex P t = .ok (vtx P t) := by
  obtain ⟨h1, h2, h3⟩ := h
  unfold triVertex vtx
  rw [rd_ok h1, rd_ok h2, rd_ok h3]
  simp [List.getD_eq_getElem?_getD, h1, h2, h3]

/-- result of the loop over the vertices -/
theorem cutLoop_spec (P : List (Plane F)) (b : Plane F) (p : Pt F) :
    ∀ (fuel ti : Nat) (T : List Tri) (ts rs : Nat) (sr : F), ti ≤ ts → ts ≤ T.length →
      (∀ m t, m < ts → T[m]? = some t → t.below P.length) → ts - ti < fuel →
      ∃ (T' : List Tri) (ts' : Nat) (sr' : F) (vs : List Tri), cutLoop P b p fuel ti T ts rs sr = .ok (T', ts', rs + (ts - ts'), sr') ∧
        Sift ts T T' ∧ (∀ m, m < ti → T'[m]? = T[m]?) ∧ ti ≤ ts' ∧ ts' ≤ ts ∧
        (∀ m t, ti ≤ m → m < ts' → T'[m]? = some t → isCut P b t = false) ∧
        (∀ m t, ts' ≤ m → m < ts → T'[m]? = some t → isCut P b t = true) ∧
        sr' = (vs.map (vtx P)).foldl (fun sr v => srUpdate p v.x v.y v.z sr) sr ∧
        (∀ m t, ti ≤ m → m < ts → T[m]? = some t → t ∈ vs) ∧
        (∀ t ∈ vs, ∃ m, m < ts ∧ T[m]? = some t) := by
  intro fuel
  induction fuel with
  | zero => intro ti T ts rs sr _ _ _ h; omega
  | succ fuel ih =>
    intro ti T ts rs sr h1 h2 hb hf
    unfold cutLoop
    by_cases hlt : ti < ts
    · rw [if_pos hlt]
      have ht : T[ti]? = some T[ti] := List.getElem?_eq_getElem (by omega)
      generalize T[ti] = t at ht
      rw [rd_eq_ok.mpr ht]
      simp only [bind_ok, triVertex_ok (hb ti t hlt ht)]
      by_cases hc : isCut P b t = true
      · unfold isCut at hc
        rw [if_pos hc]
        obtain ⟨T1, k1, k2, k3, k4, k5, k6⟩ := swp_spec (a := T) (i := ti) (j := ts - 1)
          (by omega) (by omega)
        have hs := Sift.of_swp (s := ts) (by omega) (by omega) (by omega) k1
        rw [k1]
        simp only [bind_ok]
        obtain ⟨T', ts', sr', vs, r1, r2, r3, r4, r5, r6, r7, r8, r9, r10⟩ :=
          ih ti T1 (ts - 1) (rs + 1) (srUpdate p (vtx P t).x (vtx P t).y (vtx P t).z sr)
            (by omega) (by omega)
            (by
              intro m u hm hu
              obtain ⟨m', hm', e⟩ := hs.src m (by omega)
              exact hb m' u hm' (by rw [← e]; exact hu)) (by omega)
        refine ⟨T', ts', sr', t :: vs, ?_, hs.trans (r2.mono (by omega)), ?_, r4, by omega, r6, ?_, ?_, ?_, ?_⟩
        · rw [r1]; congr 4; omega
        · intro m hm
          rw [r3 m hm, k6 m (by omega) (by omega)]
        · intro m u hm1 hm2 hu
          by_cases e : m = ts - 1
          · subst e
            rw [r2.frame _ (Nat.le_refl _), k5, ht] at hu
            cases hu; exact hc
          · exact r7 m u hm1 (by omega) hu
        · rw [r8]; rfl
        · intro m u hm1 hm2 hu
          by_cases e : m = ti
          · subst e; rw [ht] at hu; cases hu; exact List.mem_cons_self
          · apply List.mem_cons_of_mem
            by_cases e2 : m = ts - 1
            · subst e2
              exact r9 ti u (by omega) (by omega) (by rw [k4]; exact hu)
            · exact r9 m u (by omega) (by omega) (by rw [k6 m e e2]; exact hu)
        · intro u hu
          rcases List.mem_cons.mp hu with rfl | hu
          · exact ⟨ti, by omega, ht⟩
          · obtain ⟨m, hm, hm'⟩ := r10 u hu
            obtain ⟨m', hm', e⟩ := hs.src m (by omega)
            exact ⟨m', hm', by rw [← e]; assumption⟩
      · have hc' := hc
        unfold isCut at hc
        rw [if_neg hc]
        obtain ⟨T', ts', sr', vs, r1, r2, r3, r4, r5, r6, r7, r8, r9, r10⟩ :=
          ih (ti + 1) T ts rs (srUpdate p (vtx P t).x (vtx P t).y (vtx P t).z sr)
            (by omega) (by omega) hb (by omega)
        refine ⟨T', ts', sr', t :: vs, r1, r2, ?_, by omega, r5, ?_, r7, ?_, ?_, ?_⟩
        · intro m hm; exact r3 m (by omega)
        · intro m u hm1 hm2 hu
          by_cases e : m = ti
          · subst e; rw [r3 m (by omega), ht] at hu; cases hu; simpa using hc'
          · exact r6 m u (by omega) hm2 hu
        · rw [r8]; rfl
        · intro m u hm1 hm2 hu
          by_cases e : m = ti
          · subst e; rw [ht] at hu; cases hu; exact List.mem_cons_self
          · exact List.mem_cons_of_mem _ (r9 m u (by omega) (by omega) hu)
        · intro u hu
          rcases List.mem_cons.mp hu with rfl | hu
          · exact ⟨ti, by omega, ht⟩
          · exact r10 u hu
    · rw [if_neg hlt]
      refine ⟨T, ts, sr, [], ?_, Sift.refl _ _, fun _ _ => rfl, h1, Nat.le_refl _, ?_, ?_, rfl, ?_, ?_⟩
      · simp
      · intro m t hm1 hm2; omega
      · intro m t hm1 hm2; omega
      · intro m t hm1 hm2; omega
      · intro t ht; cases ht

theorem mem_take_iff {α : Type} {T : List α} {n : Nat} {t : α} :
    t ∈ T.take n ↔ ∃ m, m < n ∧ T[m]? = some t := by
  rw [List.mem_iff_getElem?]
  constructor
  · rintro ⟨m, h⟩
    rw [List.getElem?_take] at h
    split at h
    · exact ⟨m, by assumption, h⟩
    · cases h
  · rintro ⟨m, h1, h2⟩
    exact ⟨m, by rw [List.getElem?_take, if_pos h1]; exact h2⟩

theorem mem_drop_take_iff {α : Type} {T : List α} {n k : Nat} {t : α} :
    t ∈ (T.drop n).take k ↔ ∃ m, n ≤ m ∧ m < n + k ∧ T[m]? = some t := by
  rw [mem_take_iff]
  constructor
  · rintro ⟨m, h1, h2⟩
    rw [List.getElem?_drop] at h2
    exact ⟨n + m, by omega, by omega, h2⟩
  · rintro ⟨m, h1, h2, h3⟩
    exact ⟨m - n, by omega, by rw [List.getElem?_drop, show n + (m - n) = m by omega]; exact h3⟩

/-- the loop over the vertices, from the start: kept ones `K` first, removed ones `R` behind -/
theorem cutLoop_split (P : List (Plane F)) (b : Plane F) (p : Pt F) (T : List Tri) (ts : Nat) (sr : F)
    (h2 : ts ≤ T.length) (hb : ∀ t ∈ T.take ts, t.below P.length) :
    ∃ (T' K R : List Tri) (sr' : F) (vs : List Tri), cutLoop P b p (2 * ts + 1) 0 T ts 0 sr = .ok (T', K.length, R.length, sr') ∧
      T'.length = T.length ∧ T'.take K.length = K ∧ (T'.drop K.length).take R.length = R ∧
      (K ++ R).Perm (T.take ts) ∧ (∀ t ∈ K, isCut P b t = false) ∧ (∀ t ∈ R, isCut P b t = true) ∧
      sr' = (vs.map (vtx P)).foldl (fun sr v => srUpdate p v.x v.y v.z sr) sr ∧
      ∀ t, t ∈ vs ↔ t ∈ T.take ts := by
  obtain ⟨T', ts', sr', vs, r1, r2, r3, r4, r5, r6, r7, r8, r9, r10⟩ :=
    cutLoop_spec P b p (2 * ts + 1) 0 T ts 0 sr (by omega) h2
      (fun m t hm ht => hb t (mem_take_iff.mpr ⟨m, hm, ht⟩)) (by omega)
  have hl := r2.len
  have e1 : (T'.take ts').length = ts' := by rw [List.length_take]; omega
  have e2 : ((T'.drop ts').take (ts - ts')).length = ts - ts' := by
    rw [List.length_take, List.length_drop]; omega
  refine ⟨T', T'.take ts', (T'.drop ts').take (ts - ts'), sr', vs, ?_, hl, by rw [e1], by rw [e1, e2], ?_, ?_, ?_,
    r8, ?_⟩
  · rw [r1, e1, e2]; congr 4; omega
  · have : T'.take ts' ++ (T'.drop ts').take (ts - ts') = T'.take ts := by
      rw [← List.take_add]; congr 1; omega
    rw [this]; exact r2.take_perm
  · intro t ht
    obtain ⟨m, h1, h3⟩ := mem_take_iff.mp ht
    exact r6 m t (by omega) h1 h3
  · intro t ht
    obtain ⟨m, h1, h3, h4⟩ := mem_drop_take_iff.mp ht
    exact r7 m t h1 (by omega) h4
  · intro t
    rw [mem_take_iff]
    constructor
    · exact r10 t
    · rintro ⟨m, h1, h3⟩; exact r9 m t (by omega) h1 h3

theorem take_set_append {α : Type} {T : List α} {n : Nat} {x : α} (h : n < T.length) :
    (T.set n x).take (n + 1) = T.take n ++ [x] := by
  apply List.ext_getElem?
  intro m
  rw [List.getElem?_take]
  by_cases hm : m < n
  · rw [if_pos (by omega), List.getElem?_set_ne (by omega), List.getElem?_append_left (by simp; omega),
      List.getElem?_take, if_pos hm]
  · by_cases hm' : m = n
    · subst hm'
      rw [if_pos (by omega), List.getElem?_set_self h,
        List.getElem?_append_right (by rw [List.length_take]; omega)]
      simp [Nat.min_eq_left (Nat.le_of_lt h)]
    · rw [if_neg (by omega), List.getElem?_eq_none (by simp; omega)]

theorem emitLoop_path (c : List Nat) (tm first newp : Nat) :
    ∀ (B : List Nat) (fuel x : Nat) (T : List Tri) (ts : Nat),
      (∀ e ∈ pathEdges (x :: B ++ [first]), c[e.1]? = some e.2) → first ∉ B → T.length = tm →
      ts ≤ tm → tm - ts < fuel →
      (ts + (B.length + 1) ≤ tm → ∃ T', emitLoop c tm first newp fuel x T ts
          = .ok (.done T' (ts + (B.length + 1))) ∧ T'.length = tm ∧
          T'.take (ts + (B.length + 1)) = T.take ts ++
            (pathEdges (x :: B ++ [first])).map (fun e => ⟨e.1, e.2, newp % 256⟩)) ∧
      (tm < ts + (B.length + 1) → ∃ T', emitLoop c tm first newp fuel x T ts = .ok (.overflow T') ∧
          T'.length = tm) := by
  intro B
  induction B with
  | nil =>
    intro fuel x T ts hc hB hT hts hf
    obtain ⟨fuel, rfl⟩ : ∃ f, fuel = f + 1 := ⟨fuel - 1, by omega⟩
    have h1 := hc (x, first) (by simp [pathEdges])
    unfold emitLoop
    by_cases ho : tm ≤ ts
    · rw [if_pos ho]
      exact ⟨fun h => absurd h (by simp; omega), fun _ => ⟨T, rfl, hT⟩⟩
    · rw [if_neg ho, rd_eq_ok.mpr h1]
      simp only [bind_ok, wr_ok (by omega : ts < T.length), if_true, pure_eq_ok]
      refine ⟨fun _ => ⟨_, rfl, by simpa using hT, ?_⟩, fun h => absurd h (by simp; omega)⟩
      simp only [List.length_nil, Nat.zero_add]
      rw [take_set_append (by omega)]
      rfl
  | cons b B ih =>
    intro fuel x T ts hc hB hT hts hf
    obtain ⟨fuel, rfl⟩ : ∃ f, fuel = f + 1 := ⟨fuel - 1, by omega⟩
    have h1 := hc (x, b) (by simp [pathEdges])
    have hbf : b ≠ first := by rintro rfl; simp at hB
    unfold emitLoop
    by_cases ho : tm ≤ ts
    · rw [if_pos ho]
      exact ⟨fun h => absurd h (by omega), fun _ => ⟨T, rfl, hT⟩⟩
    · rw [if_neg ho, rd_eq_ok.mpr h1]
      simp only [bind_ok, wr_ok (by omega : ts < T.length), if_neg hbf]
      obtain ⟨i1, i2⟩ := ih fuel b (T.set ts ⟨x, b, newp % 256⟩) (ts + 1)
        (fun e he => hc e (by simp only [List.cons_append, pathEdges] at he ⊢; exact List.mem_cons_of_mem _ he))
        (by simp at hB; exact hB.2) (by simpa using hT) (by omega) (by omega)
      refine ⟨fun h => ?_, fun h => ?_⟩
      · obtain ⟨T', k1, k2, k3⟩ := i1 (by simp at h; omega)
        refine ⟨T', ?_, k2, ?_⟩
        · rw [k1]; congr 2; simp; omega
        · simp only [List.length_cons]
          rw [show ts + (B.length + 1 + 1) = ts + 1 + (B.length + 1) by omega, k3,
            take_set_append (by omega)]
          simp [pathEdges]
      · obtain ⟨T', k1, k2⟩ := i2 (by simp at h; omega)
        exact ⟨T', k1, k2⟩

theorem emitLoop_spec {ud : Nat} {c L : List Nat} (hL : IsLoop ud c L) (tm first newp : Nat)
    (T : List Tri) (ts : Nat) (hf : first ∈ L) (hT : T.length = tm) (hts : ts ≤ tm) (hn : newp < 256) :
    (ts + L.length ≤ tm → ∃ T' N, emitLoop c tm first newp (tm + 1) first T ts
        = .ok (.done T' (ts + L.length)) ∧ T'.length = tm ∧
        T'.take (ts + L.length) = T.take ts ++ N ∧ N.Perm (cone newp L)) ∧
    (tm < ts + L.length → ∃ T', emitLoop c tm first newp (tm + 1) first T ts = .ok (.overflow T') ∧
        T'.length = tm) := by
  obtain ⟨A, p1, p2⟩ := loop_rotate hf
  have hn' := p1.nodup_iff.mpr hL.nodup
  have hlen := p1.length_eq
  simp only [List.length_cons] at hlen
  obtain ⟨i1, i2⟩ := emitLoop_path c tm first newp A (tm + 1) first T ts
    (fun e he => hL.next e (p2.mem_iff.mp he)) (by simp at hn'; exact hn'.1) hT hts (by omega)
  rw [hlen] at i1 i2
  rw [Nat.mod_eq_of_lt hn] at i1
  refine ⟨fun h => ?_, i2⟩
  obtain ⟨T', k1, k2, k3⟩ := i1 h
  exact ⟨T', _, k1, k2, k3, p2.map _⟩

theorem forN_fill {α : Type} (v : α) (n : Nat) (l : List α) (h : l.length = n) :
    forN n (fun j l => wr l j v) l = .ok (List.replicate n v) := by
  obtain ⟨l', h1, h2, h3⟩ := forN_inv
    (fun i (l : List α) => l.length = n ∧ ∀ m, m < i → l[m]? = some v) n
    (fun j l => wr l j v) l ⟨h, fun m hm => by omega⟩ (by
      intro i l hi ⟨k1, k2⟩
      refine ⟨_, wr_ok (by omega) v, by simpa using k1, ?_⟩
      intro m hm
      by_cases e : i = m
      · subst e; rw [List.getElem?_set_self (by omega)]
      · rw [List.getElem?_set_ne e]; exact k2 m (by omega))
  rw [h1]
  congr 1
  apply List.ext_getElem?
  intro m
  by_cases hm : m < n
  · rw [h3 m hm]; simp [hm]
  · rw [List.getElem?_eq_none (by omega), List.getElem?_eq_none (by simp; omega)]

theorem BInv.loopOf {dr rsize : Nat} {R0 : List Tri} {st : BState} {L : List Nat}
    (hi : BInv dr rsize R0 st L) (hR : rsize ≤ R0.length) : LoopOf (st.R.take st.j) st.cycle L := by
  have hl := hi.sift.len
  have hj := hi.jr
  refine ⟨hi.loop, hi.sub, hi.bd.imp id ?_, ?_⟩
  · rintro ⟨m, h1, h2, h3⟩
    refine ⟨st.R.take m, ?_, fun t ht => (nodup_take h2).subset ht, h3⟩
    intro h0
    have := congrArg List.length h0
    rw [List.length_take, List.length_nil] at this; omega
  · rw [List.length_take]; have := hi.llen; omega

/-- the boundary computation got stuck: the triangles `M` are merged into the loop, no
triangle of `Q` can be added -/
structure Stuck (R : List Tri) (dR : List Nat) (M Q : List Tri) (L : List Nat) : Prop where
  perm : (M ++ Q).Perm R
  mne : M ≠ []
  qne : Q ≠ []
  loop : LoopOf M dR L
  rej : ∀ t ∈ Q, Rejects L t

/-- what holds between two neighbours, for any arithmetic -/
structure CCInv (a : CCArgs) (s : CCState F) : Prop where
  plen : s.P.length = a.pm
  tlen : s.T.length = a.tm
  dlen : s.dR.length = a.pm
  klen : s.dknn.length = a.k
  p6 : 6 ≤ s.psize
  pp : s.psize ≤ a.pm
  tt : s.tsize ≤ a.tm
  valid : ValidTris s.psize (s.T.take s.tsize)
  cnt : s.tsize + 4 ≤ 2 * s.psize

/-- sizes of the rows, also after an early return -/
structure Sizes (a : CCArgs) (s : CCState F) : Prop where
  plen : s.P.length = a.pm
  tlen : s.T.length = a.tm
  dlen : s.dR.length = a.pm
  klen : s.dknn.length = a.k

/-- possible outcomes of one iteration -/
inductive StepRel (a : CCArgs) (p q : Pt F) (nb : Nat) (s : CCState F) (K R : List Tri) (sr : F) :
    CCStep F → Prop
  /-- no vertex removed -/
  | keep (T : List Tri) (hR : R = []) (hT : T.length = a.tm) (hK : T.take s.tsize = K) :
      StepRel a p q nb s K R sr (ccFinish p q sr
        { s with T := T, state := s.state.setTrue .error_nonvalid_neighbor })
  | poverflow (T : List Tri) (ts : Nat) (hR : R ≠ []) (hp : a.pm ≤ s.psize) (hT : T.length = a.tm) :
      StepRel a p q nb s K R sr (.ret
        { s with T := T, tsize := ts, state := s.state.setTrue .error_p_overflow })
  | infinite (T : List Tri) (ts : Nat) (dR : List Nat) (M Q : List Tri) (L : List Nat) (hR : R ≠ [])
      (hp : s.psize < a.pm) (hT : T.length = a.tm) (hd : dR.length = a.pm) (hs : Stuck R dR M Q L) :
      StepRel a p q nb s K R sr (.ret
        { s with P := s.P.set s.psize (bisect q p), dknn := s.dknn.set nb (s.psize : Int),
                 psize := s.psize + 1, T := T, dR := dR, tsize := ts,
                 state := (s.state.setTrue .error_infinite_boundary).setTrue .error_occurred })
  | toverflow (T : List Tri) (ts : Nat) (dR L : List Nat) (hR : R ≠ []) (hp : s.psize < a.pm)
      (hT : T.length = a.tm) (hd : dR.length = a.pm) (hL : LoopOf R dR L)
      (ho : a.tm < K.length + L.length) :
      StepRel a p q nb s K R sr (.ret
        { s with P := s.P.set s.psize (bisect q p), dknn := s.dknn.set nb (s.psize : Int),
                 psize := s.psize + 1, T := T, dR := dR, tsize := ts,
                 state := s.state.setTrue .error_t_overflow })
  | clip (T : List Tri) (dR L : List Nat) (N : List Tri) (hR : R ≠ []) (hp : s.psize < a.pm)
      (hT : T.length = a.tm) (hd : dR.length = a.pm) (hL : LoopOf R dR L)
      (ho : K.length + L.length ≤ a.tm) (hN : N.Perm (cone s.psize L))
      (hT' : T.take (K.length + L.length) = K ++ N) :
      StepRel a p q nb s K R sr (ccFinish p q sr
        { s with P := s.P.set s.psize (bisect q p), dknn := s.dknn.set nb (s.psize : Int),
                 psize := s.psize + 1, T := T, dR := dR, tsize := K.length + L.length })

theorem ccStep_spec {a : CCArgs} (hpm : a.pm ≤ 255) {xyz : List (Pt F)} {knn : List Int} {p : Pt F}
    {nb : Nat} {s : CCState F} {qi : Int} {q : Pt F} (hi : CCInv a s) (hnb : nb < a.k)
    (hq : knn[nb]? = some qi) (hq' : rdI xyz qi = .ok q) :
    ∃ (K R : List Tri) (sr : F) (vs : List Tri) (o : CCStep F), ccStep a xyz knn p nb s = .ok o ∧
      (K ++ R).Perm (s.T.take s.tsize) ∧
      (∀ t ∈ K, isCut s.P (bisect q p) t = false) ∧ (∀ t ∈ R, isCut s.P (bisect q p) t = true) ∧
      sr = (vs.map (vtx s.P)).foldl (fun sr v => srUpdate p v.x v.y v.z sr) (ofInt 0) ∧
      (∀ t, t ∈ vs ↔ t ∈ s.T.take s.tsize) ∧ StepRel a p q nb s K R sr o := by
  have hpl := hi.plen; have htl := hi.tlen; have hdl := hi.dlen; have hkl := hi.klen
  have htt := hi.tt; have hpp := hi.pp
  obtain ⟨T', K, R, sr, vs, h1, h2, h3, h4, h5, h6, h7, h8, h9⟩ := cutLoop_split s.P (bisect q p) p
    s.T s.tsize (ofInt 0) (by omega) (by
      intro t ht
      have := hi.valid.tri t ht
      exact ⟨by omega, by omega, by omega⟩)
  have hlen : K.length + R.length = s.tsize := by
    have := h5.length_eq
    rw [List.length_append, List.length_take] at this; omega
  have hfull : T'.take s.tsize = K ++ R := by
    rw [← hlen, List.take_add, h3, h4]
  refine ⟨K, R, sr, vs, ?_⟩
  unfold ccStep
  simp only [rd_eq_ok.mpr hq, hq', bind_ok, h1]
  by_cases hR : R = []
  · subst hR
    simp only [List.length_nil, Nat.lt_irrefl, if_false, pure_eq_ok]
    simp only [List.length_nil, Nat.add_zero] at hlen
    rw [hlen]
    exact ⟨_, rfl, h5, h6, h7, h8, h9, .keep T' rfl (by omega) (by rw [hfull]; simp)⟩
  · have hr : 0 < R.length := List.length_pos_iff.mpr hR
    rw [if_pos hr]
    unfold ccClip
    by_cases hov : a.pm ≤ s.psize
    · rw [if_pos hov]
      exact ⟨_, rfl, h5, h6, h7, h8, h9, .poverflow T' K.length hR hov (by omega)⟩
    · rw [if_neg hov, wr_ok (by omega : s.psize < s.P.length), bind_ok,
        wr_ok (by omega : nb < s.dknn.length), bind_ok, forN_fill _ _ _ hdl, bind_ok]
      have hvR : ValidTris a.pm R := by
        have := hi.valid.perm h5
        have := validTris_sub this (List.sublist_append_right K R)
        exact validTris_mono this (by omega)
      have hRlen : R.length ≤ (T'.drop K.length).length := by rw [List.length_drop]; omega
      obtain ⟨bst, br, L, b1, b2, b3⟩ := bCompute_inv (c := List.replicate a.pm bUndefined)
        (dr := a.pm) (rsize := R.length) (R := T'.drop K.length) (by simp)
        (fun x hx => List.eq_of_mem_replicate hx) hpm (by omega) hRlen (by rw [h4]; exact hvR)
      rw [b1]
      simp only [bind_ok]
      have hbl := b2.sift.len
      rw [List.length_drop] at hbl
      have hTl : (T'.take K.length ++ br.R).length = a.tm := by
        rw [List.length_append, List.length_take]; omega
      have hperm := b2.sift.take_perm
      rw [h4] at hperm
      rcases b3 with ⟨rfl, hj⟩ | ⟨rfl, hj, hjs⟩
      · have hL := b2.loopOf hRlen
        rw [hj] at hL
        have hL := hL.perm hperm
        simp only
        have htk : (T'.take K.length ++ br.R).take K.length = K := by
          rw [List.take_append_of_le_length (by rw [List.length_take]; omega), List.take_take,
            Nat.min_self, h3]
        obtain ⟨e1, e2⟩ := emitLoop_spec b2.loop a.tm br.head s.psize (T'.take K.length ++ br.R)
          K.length b2.head hTl (by omega) (by omega)
        simp only [Nat.add_sub_cancel]
        by_cases ho : K.length + L.length ≤ a.tm
        · obtain ⟨T2, N, e3, e4, e5, e6⟩ := e1 ho
          rw [e3]
          rw [htk] at e5
          exact ⟨_, rfl, h5, h6, h7, h8, h9,
            .clip T2 br.cycle L N hR (by omega) e4 b2.clen hL ho e6 e5⟩
        · obtain ⟨T2, e3, e4⟩ := e2 (by omega)
          rw [e3]
          exact ⟨_, rfl, h5, h6, h7, h8, h9,
            .toverflow T2 K.length br.cycle L hR (by omega) e4 b2.clen hL (by omega)⟩
      · have hL := b2.loopOf hRlen
        refine ⟨_, rfl, h5, h6, h7, h8, h9,
          .infinite _ K.length br.cycle (br.R.take br.j) ((br.R.take R.length).drop br.j) L hR (by omega)
            hTl b2.clen ⟨?_, ?_, ?_, hL, ?_⟩⟩
        · have : br.R.take br.j ++ (br.R.take R.length).drop br.j = br.R.take R.length := by
            have e : br.R.take br.j = (br.R.take R.length).take br.j := by
              rw [List.take_take, Nat.min_eq_left (by omega)]
            rw [e, List.take_append_drop]
          rw [this]; exact hperm
        · intro h0
          have := congrArg List.length h0
          have := b2.j1
          rw [List.length_take, List.length_nil] at *; omega
        · intro h0
          have := congrArg List.length h0
          rw [List.length_drop, List.length_take, List.length_nil] at this; omega
        · intro t ht
          obtain ⟨m, hm⟩ := List.mem_iff_getElem?.mp ht
          rw [List.getElem?_drop, List.getElem?_take] at hm
          split at hm
          · exact b2.rej (br.j + m) t (by omega) (by omega) hm
          · cases hm

end Votess
