import Verif.Proofs.Boundary
/-!
# C16, C17, C18, C19 — the boundary loop of the removed triangles

`bCompute c n R r` is `boundary::compute` on the successor row `c` of `n` entries and the first
`r` triangles of `R`; `255` is the marker for "no successor".
-/
namespace Votess

/-- the row as prepared by the caller: `n` entries, all undefined -/
def FreshRow (n : Nat) (c : List Nat) : Prop := c.length = n ∧ ∀ x ∈ c, x = 255

theorem unmatched_perm {R S : List Tri} (p : R.Perm S) (e : Nat × Nat) :
    Unmatched R e ↔ Unmatched S e := by
  have := p.flatMap_right Tri.edges
  simp only [Unmatched, triEdges, this.mem_iff]

theorem sift_drop {α : Type} {s : Nat} {h h' : List α} (p : Sift s h h') : h'.drop s = h.drop s := by
  apply List.ext_getElem?
  intro m
  rw [List.getElem?_drop, List.getElem?_drop]
  exact p.frame _ (by omega)

/-- C17: the computation ends without an access outside its row or its triangles, whatever the
outcome; the triangles are only reordered among themselves, the row keeps its size and is one
simple loop (every vertex off the loop is undefined) of at most `r + 2` vertices. -/
theorem C17_boundary_safe (c : List Nat) (n : Nat) (R : List Tri) (r : Nat) (hc : FreshRow n c)
    (hn : n ≤ 255) (h1 : 1 ≤ r) (hR : r ≤ R.length) (hv : ValidTris n (R.take r)) :
    ∃ b st, bCompute c n R r = .ok (b, st) ∧
      (st.R.take r).Perm (R.take r) ∧ st.R.drop r = R.drop r ∧ st.R.length = R.length ∧
      st.cycle.length = n ∧
      ∃ L, IsLoop 255 st.cycle L ∧ st.head ∈ L ∧ L.length ≤ r + 2 := by
  obtain ⟨b, st, L, h, hi, _⟩ := bCompute_inv hc.1 hc.2 hn h1 hR hv
  exact ⟨b, st, h, hi.sift.take_perm, sift_drop hi.sift, hi.sift.len, hi.clen, L, hi.loop, hi.head,
    by have := hi.llen; have := hi.jr; omega⟩

/-- C16: on success the row is one simple closed loop, and its directed edges are exactly the
triangle edges whose reverse is no triangle edge. -/
theorem C16_boundary_loop (c : List Nat) (n : Nat) (R : List Tri) (r : Nat) (hc : FreshRow n c)
    (hn : n ≤ 255) (h1 : 1 ≤ r) (hR : r ≤ R.length) (hv : ValidTris n (R.take r))
    (hopen : NoClosedPart (R.take r)) (st : BState)
    (hs : bCompute c n R r = .ok (.success, st)) :
    (st.R.take r).Perm (R.take r) ∧ st.R.drop r = R.drop r ∧
    ∃ L, IsLoop 255 st.cycle L ∧ st.head ∈ L ∧
      ∀ e, e ∈ loopEdges L ↔ Unmatched (R.take r) e := by
  obtain ⟨b, st', L, h, hi, hb⟩ := bCompute_inv hc.1 hc.2 hn h1 hR hv
  rw [hs] at h; cases h
  rcases hb with ⟨_, hj⟩ | ⟨hb, _⟩
  · refine ⟨hi.sift.take_perm, sift_drop hi.sift, L, hi.loop, hi.head, ?_⟩
    have hbd := hi.bd
    rw [hj] at hbd
    rcases hbd with hbd | ⟨m, m0, m1, m2⟩
    · intro e
      rw [hbd, unmatched_perm hi.sift.take_perm]
    · exfalso
      refine hopen (st.R.take m) ?_ ?_ m2
      · intro h0
        have := congrArg List.length h0
        have hl := hi.sift.len
        rw [List.length_take, List.length_nil] at this; omega
      · intro t ht
        exact hi.sift.take_perm.mem_iff.mp ((nodup_take m1).subset ht)
  · cases hb

/-- C16: also when a closed surface is contained in the list, on success each edge of the loop
is an edge of the triangles. -/
theorem C16_boundary_edges (c : List Nat) (n : Nat) (R : List Tri) (r : Nat) (hc : FreshRow n c)
    (hn : n ≤ 255) (h1 : 1 ≤ r) (hR : r ≤ R.length) (hv : ValidTris n (R.take r)) (st : BState)
    (b : BStatus) (hs : bCompute c n R r = .ok (b, st)) :
    ∃ L, IsLoop 255 st.cycle L ∧ st.head ∈ L ∧ ∀ e ∈ loopEdges L, e ∈ triEdges (R.take r) := by
  obtain ⟨b, st', L, h, hi, hb⟩ := bCompute_inv hc.1 hc.2 hn h1 hR hv
  rw [hs] at h; cases h
  refine ⟨L, hi.loop, hi.head, fun e he => ?_⟩
  have h1 := (triEdges_sublist (nodup_take hi.jr)).subset (hi.sub e he)
  exact (hi.sift.take_perm.flatMap_right Tri.edges).mem_iff.mp h1

/-- C19: two successful computations on reorderings of the same triangles give the same table. -/
theorem C19_order_independent (c c' : List Nat) (n : Nat) (R R' : List Tri) (r : Nat)
    (hc : FreshRow n c) (hc' : FreshRow n c') (hn : n ≤ 255) (h1 : 1 ≤ r) (hR : r ≤ R.length)
    (hR' : r ≤ R'.length) (hp : (R'.take r).Perm (R.take r)) (hv : ValidTris n (R.take r))
    (hopen : NoClosedPart (R.take r)) (st st' : BState)
    (hs : bCompute c n R r = .ok (.success, st)) (hs' : bCompute c' n R' r = .ok (.success, st')) :
    st'.cycle = st.cycle := by
  obtain ⟨_, _, L, hL, _, hE⟩ := C16_boundary_loop c n R r hc hn h1 hR hv hopen st hs
  obtain ⟨_, _, L', hL', _, hE'⟩ := C16_boundary_loop c' n R' r hc' hn h1 hR' (hv.perm hp)
    (fun S h1 h2 => hopen S h1 (fun t ht => hp.mem_iff.mp (h2 t ht))) st' hs'
  obtain ⟨_, s1, k1, _, _, _, e1, _⟩ := C17_boundary_safe c n R r hc hn h1 hR hv
  rw [hs] at k1; cases k1
  obtain ⟨_, s1, k1, _, _, _, e2, _⟩ := C17_boundary_safe c' n R' r hc' hn h1 hR' (hv.perm hp)
  rw [hs'] at k1; cases k1
  have hEE : ∀ e, e ∈ loopEdges L' ↔ e ∈ loopEdges L := fun e => by
    rw [hE, hE', unmatched_perm hp]
  apply List.ext_getElem?
  intro v
  by_cases hv' : v < n
  · by_cases hm : v ∈ L
    · obtain ⟨y, hy⟩ := loopEdges_of_fst hm
      rw [hL.next _ hy, hL'.next _ ((hEE _).mpr hy)]
    · have hm' : v ∉ L' := by
        intro hm'
        obtain ⟨y, hy⟩ := loopEdges_of_fst hm'
        exact hm (loopEdges_fst_mem ((hEE _).mp hy))
      rw [hL.off v (by omega) hm, hL'.off v (by omega) hm']
  · rw [List.getElem?_eq_none (by omega), List.getElem?_eq_none (by omega)]

/-! ### a plane limit of 256 or more -/

theorem bDupInner_wide (c : List Nat) (n ei : Nat) (hn : 256 ≤ n) (hc : c.length = n)
    (hei : ei < 256) (hd : c[ei]? ≠ some bUndefined) :
    ∀ (d fuel ej : Nat), ej < 256 → (ej + d) % 256 = ei → d < fuel →
      bDupInner c n ei fuel ej = .ok true := by
  intro d
  induction d with
  | zero =>
    intro fuel ej h1 h2 h3
    obtain ⟨fuel, rfl⟩ : ∃ f, fuel = f + 1 := ⟨fuel - 1, by omega⟩
    have : ej = ei := by omega
    subst this
    unfold bDupInner
    rw [if_pos (by omega), rd_ok (by omega : ej < c.length)]
    have : c[ej] ≠ bUndefined := by
      rw [List.getElem?_eq_getElem (by omega)] at hd; simpa using hd
    simp only [bind_ok, if_neg this, if_true, pure_eq_ok]
  | succ d ih =>
    intro fuel ej h1 h2 h3
    obtain ⟨fuel, rfl⟩ : ∃ f, fuel = f + 1 := ⟨fuel - 1, by omega⟩
    unfold bDupInner
    rw [if_pos (by omega), rd_ok (by omega : ej < c.length), rd_ok (by omega : ei < c.length)]
    simp only [bind_ok, pure_eq_ok]
    rw [ih fuel ((ej + 1) % 256) (by omega) (by omega) (by omega)]
    split
    · rfl
    · split <;> rfl

theorem bDup_wide (c : List Nat) (n : Nat) (hn : 256 ≤ n) (hc : c.length = n) :
    ∀ (d fuel ei : Nat), ei + d < 256 → d < fuel → c[ei + d]? ≠ some bUndefined →
      bDup c n fuel ei = .ok true := by
  intro d
  induction d with
  | zero =>
    intro fuel ei h1 h2 h3
    obtain ⟨fuel, rfl⟩ : ∃ f, fuel = f + 1 := ⟨fuel - 1, by omega⟩
    unfold bDup
    rw [if_pos (by omega), rd_ok (by omega : ei < c.length)]
    have : c[ei] ≠ bUndefined := by
      simp only [Nat.add_zero] at h3
      rw [List.getElem?_eq_getElem (by omega)] at h3; simpa using h3
    simp only [bind_ok, if_neg this]
    rw [bDupInner_wide c n ei hn hc (by omega) (by simpa using h3) 255 257 _ (by omega) (by omega)
      (by omega)]
    rfl
  | succ d ih =>
    intro fuel ei h1 h2 h3
    obtain ⟨fuel, rfl⟩ : ∃ f, fuel = f + 1 := ⟨fuel - 1, by omega⟩
    unfold bDup
    rw [if_pos (by omega), rd_ok (by omega : ei < c.length)]
    simp only [bind_ok, pure_eq_ok]
    split
    · rw [Nat.mod_eq_of_lt (by omega : ei + 1 < 256)]
      exact ih fuel (ei + 1) (by omega) (by omega) (by rw [show ei + 1 + d = ei + (d + 1) by omega]; exact h3)
    · rename_i hu
      rw [bDupInner_wide c n ei hn hc (by omega)
        (by rw [List.getElem?_eq_getElem (by omega)]; simpa using hu) 255 257 _ (by omega) (by omega)
        (by omega)]
      rfl

theorem bWalk_total (c : List Nat) (first te0 te1 r : Nat) (hc : 256 ≤ c.length)
    (hv : ∀ x ∈ c, x ≤ 255) :
    ∀ (fuel edge counter : Nat) (hit : Bool), edge ≤ 255 → counter ≤ r + 1 → r + 2 < fuel + counter →
      ∃ o, bWalk id c first te0 te1 r fuel edge counter hit = .ok o := by
  intro fuel
  induction fuel with
  | zero => intro edge counter hit _ h1 h2; omega
  | succ fuel ih =>
    intro edge counter hit he h1 h2
    unfold bWalk
    rw [rd_ok (by omega : edge < c.length)]
    simp only [bind_ok, pure_eq_ok]
    split
    · exact ⟨_, rfl⟩
    · split
      · exact ⟨_, rfl⟩
      · exact ih _ _ _ (hv _ (List.getElem_mem _)) (by simp; omega) (by simp; omega)

theorem bEdge_total (c : List Nat) (first te0 te1 r : Nat) (hc : 256 ≤ c.length)
    (hv : ∀ x ∈ c, x ≤ 255) (hf : first ≤ 255) :
    ∃ o, bEdge id c first te0 te1 r = .ok o := by
  unfold bEdge
  rw [rd_ok (by omega : first < c.length)]
  exact bWalk_total c first te0 te1 r hc hv _ _ _ _ (hv _ (List.getElem_mem _)) (by omega) (by omega)

theorem Tri.get_lt {t : Tri} (h : t.a < 255 ∧ t.b < 255 ∧ t.c < 255) (i : Nat) : t.get i < 255 := by
  unfold Tri.get; split <;> omega

theorem restore_two {c : List Nat} {e0 e1 e2 o0 o1 o2 o00 w1 w2 : Nat} (h0 : c[e0]? = some o0)
    (h1 : c[e1]? = some o1) (h2 : c[e2]? = some o2) (h00 : c[o0]? = some o00) :
    (((((c.set o0 w1).set e0 w2).set e0 o0).set e1 o1).set e2 o2).set o0 o00 = c := by
  have hl : ∀ {i x : Nat}, c[i]? = some x → i < c.length := fun h =>
    (List.getElem?_eq_some_iff.mp h).1
  have l0 := hl h0; have l1 := hl h1; have l2 := hl h2; have l00 := hl h00
  apply List.ext_getElem?
  intro m
  simp only [List.getElem?_set, List.length_set]
  grind

theorem restore_three {c : List Nat} {e0 e1 e2 o0 o1 o2 o00 : Nat} (h0 : c[e0]? = some o0)
    (h1 : c[e1]? = some o1) (h2 : c[e2]? = some o2) (h00 : c[o0]? = some o00) :
    (((c.set e0 o0).set e1 o1).set e2 o2).set o0 o00 = c := by
  rw [set_back h0, set_back h1, set_back h2, set_back h00]

theorem bBody_wide (c : List Nat) (n : Nat) (r : Nat) (st : BState) (hn : 256 ≤ n)
    (hc : c.length = n) (hv : ∀ x ∈ c, x ≤ 255) (hd : ∃ i, i < 256 ∧ c[i]? ≠ some bUndefined)
    (hst : st.cycle = c) (hh : st.head < 255) (hj : st.j = 1) (hs1 : 1 ≤ st.swapj)
    (hs2 : st.swapj ≤ r) (h2 : 2 ≤ r) (hR : r ≤ st.R.length)
    (ht : ∀ t ∈ st.R.take r, t.a < 255 ∧ t.b < 255 ∧ t.c < 255) :
    (∃ st', bBody id n r st = .ok (.ret .unreachable st')) ∨
    ∃ st', bBody id n r st = .ok (.next st') ∧ st'.cycle = c ∧ st'.head < 255 ∧ st'.j = 1 ∧
      st'.swapj + 1 = st.swapj ∧ 1 ≤ st'.swapj ∧ st'.R.length = st.R.length ∧
      ∀ t ∈ st'.R.take r, t.a < 255 ∧ t.b < 255 ∧ t.c < 255 := by
  obtain ⟨t, htj⟩ : ∃ t, st.R[st.j]? = some t :=
    ⟨_, List.getElem?_eq_getElem (by omega : st.j < st.R.length)⟩
  have htm : t ∈ st.R.take r := by
    refine List.mem_iff_getElem?.mpr ⟨st.j, ?_⟩
    rw [List.getElem?_take, if_pos (by omega)]; exact htj
  have htv := ht t htm
  have rejec : ∀ h, h < 255 → st.j ≠ st.swapj → ∃ st', bReject { st with cycle := c, head := h } = .ok st' ∧
      st'.cycle = c ∧ st'.head < 255 ∧ st'.j = 1 ∧
      st'.swapj + 1 = st.swapj ∧ 1 ≤ st'.swapj ∧ st'.R.length = st.R.length ∧
      ∀ t ∈ st'.R.take r, t.a < 255 ∧ t.b < 255 ∧ t.c < 255 := by
    intro h hh' hne
    obtain ⟨b, hb, hb1, hb2, hb3, hb4, hb5⟩ := swp_spec (a := st.R) (i := st.j) (j := st.swapj - 1)
      (by omega) (by omega)
    have hs := Sift.of_swp (s := r) (by omega) (by omega) (by omega) hb
    unfold bReject
    simp only
    rw [if_neg (by omega), hb]
    refine ⟨_, rfl, rfl, hh', hj, by simp only; omega, by simp only; omega, hb1, ?_⟩
    intro u hu
    exact ht u (hs.take_perm.mem_iff.mp hu)
  unfold bBody
  simp only [rd_eq_ok.mpr htj, bind_ok]
  obtain ⟨o0, q0⟩ := bEdge_total st.cycle st.head (t.get 0) (t.get 1) r (by rw [hst]; omega) (by rw [hst]; exact hv) (by omega)
  obtain ⟨o1, q1⟩ := bEdge_total st.cycle st.head (t.get 1) (t.get 2) r (by rw [hst]; omega) (by rw [hst]; exact hv) (by omega)
  obtain ⟨o2, q2⟩ := bEdge_total st.cycle st.head (t.get 2) (t.get 3) r (by rw [hst]; omega) (by rw [hst]; exact hv) (by omega)
  rw [q0]
  simp only [bind_ok]
  cases o0 with
  | none => left; exact ⟨st, rfl⟩
  | some s0 =>
  simp only [q1, bind_ok]
  cases o1 with
  | none => left; exact ⟨st, rfl⟩
  | some s1 =>
  simp only [q2, bind_ok]
  cases o2 with
  | none => left; exact ⟨st, rfl⟩
  | some s2 =>
  by_cases hjs : st.j = st.swapj
  · left; exact ⟨st, by simp [hjs]⟩
  right
  simp only [if_neg hjs]
  generalize vbyte s0 s1 s2 = byte
  split
  · obtain ⟨st', k1, k2⟩ := rejec st.head hh hjs
    refine ⟨st', ?_, k2⟩
    have : ({ st with cycle := c, head := st.head } : BState) = st := by rw [← hst]
    rw [this] at k1; rw [k1]; rfl
  · generalize sharedPosition byte = k
    generalize nsharedEdges byte = ns
    have e3 : t.get (k + 3) = t.get (k + 0) := by unfold Tri.get; simp
    rw [e3]
    have g0 := Tri.get_lt htv (k + 0)
    have g1 := Tri.get_lt htv (k + 1)
    have g2 := Tri.get_lt htv (k + 2)
    generalize t.get (k + 0) = e0 at *
    generalize t.get (k + 1) = e1 at *
    generalize t.get (k + 2) = e2 at *
    rw [hst]
    have hrd : ∀ x, x ≤ 255 → ∃ y, c[x]? = some y ∧ y ≤ 255 := fun x hx =>
      ⟨_, List.getElem?_eq_getElem (by omega), hv _ (List.getElem_mem _)⟩
    obtain ⟨x0, p0, b0⟩ := hrd e0 (by omega)
    obtain ⟨x1, p1, b1⟩ := hrd e1 (by omega)
    obtain ⟨x2, p2, b2⟩ := hrd e2 (by omega)
    obtain ⟨x00, p00, b00⟩ := hrd x0 (by omega)
    simp only [rd_eq_ok.mpr p0, rd_eq_ok.mpr p1, rd_eq_ok.mpr p2, rd_eq_ok.mpr p00, bind_ok]
    split
    · rw [wr_ok (by omega), bind_ok, wr_ok (by simp; omega), bind_ok]
      simp only [pure_eq_ok, bind_ok]
      rw [bDup_wide _ n hn (by simpa using hc) e2 257 0 (by omega) (by omega)
        (by rw [Nat.zero_add, List.getElem?_set_self (by simp; omega)]; simp [bUndefined]; omega)]
      rw [bind_ok, if_pos rfl,
        wr_ok (by simp; omega), bind_ok, wr_ok (by simp; omega), bind_ok, wr_ok (by simp; omega),
        bind_ok, wr_ok (by simp; omega), bind_ok, restore_eq p0 p1 p2 p00]
      obtain ⟨st', k1, k2⟩ := rejec e2 (by omega) hjs
      exact ⟨st', by rw [k1]; rfl, k2⟩
    · split
      · rw [wr_ok (by omega), bind_ok, wr_ok (by simp; omega), bind_ok]
        simp only [pure_eq_ok, bind_ok]
        rw [bDup_wide _ n hn (by simpa using hc) e0 257 0 (by omega) (by omega)
          (by rw [Nat.zero_add, List.getElem?_set_self (by simp; omega)]; simp [bUndefined]; omega)]
        rw [bind_ok, if_pos rfl,
          wr_ok (by simp; omega), bind_ok, wr_ok (by simp; omega), bind_ok, wr_ok (by simp; omega),
          bind_ok, wr_ok (by simp; omega), bind_ok, restore_two p0 p1 p2 p00]
        obtain ⟨st', k1, k2⟩ := rejec e0 (by omega) hjs
        exact ⟨st', by rw [k1]; rfl, k2⟩
      · simp only [pure_eq_ok, bind_ok]
        obtain ⟨i, hi, hiu⟩ := hd
        rw [bDup_wide _ n hn hc i 257 0 (by omega) (by omega) (by simpa using hiu)]
        rw [bind_ok, if_pos rfl,
          wr_ok (by omega), bind_ok, wr_ok (by simp; omega), bind_ok, wr_ok (by simp; omega),
          bind_ok, wr_ok (by simp; omega), bind_ok, restore_three p0 p1 p2 p00]
        obtain ⟨st', k1, k2⟩ := rejec st.head (by omega) hjs
        exact ⟨st', by rw [k1]; rfl, k2⟩

theorem bLoop_wide (c : List Nat) (n : Nat) (r : Nat) (hn : 256 ≤ n)
    (hc : c.length = n) (hv : ∀ x ∈ c, x ≤ 255) (hd : ∃ i, i < 256 ∧ c[i]? ≠ some bUndefined)
    (h2 : 2 ≤ r) :
    ∀ (fuel : Nat) (st : BState), st.cycle = c → st.head < 255 → st.j = 1 → 1 ≤ st.swapj →
      st.swapj ≤ r → r ≤ st.R.length → (∀ t ∈ st.R.take r, t.a < 255 ∧ t.b < 255 ∧ t.c < 255) →
      st.swapj < fuel → ∃ st', bLoop id n r fuel st = .ok (.unreachable, st') := by
  intro fuel
  induction fuel with
  | zero => intro st _ _ _ _ _ _ _ h; omega
  | succ fuel ih =>
    intro st k1 k2 k3 k4 k5 k6 k7 k8
    unfold bLoop
    rw [if_pos (by omega)]
    rcases bBody_wide c n r st hn hc hv hd k1 k2 k3 k4 k5 h2 k6 k7 with ⟨st', h⟩ | ⟨st', h, l1, l2, l3, l4, l5, l6, l7⟩
    · exact ⟨st', by rw [h]; rfl⟩
    · rw [h]
      exact ih st' l1 l2 l3 l5 (by omega) (by omega) l7 (by omega)

/-- C18: with 256 or more planes per cell, the boundary of two or more triangles is never
found, whatever the triangles are (255 is the reserved marker, so it is no plane number). -/
theorem C18_wide_limit (c : List Nat) (n : Nat) (R : List Tri) (r : Nat) (hn : 256 ≤ n)
    (hc : c.length = n) (hv : ∀ x ∈ c, x ≤ 255) (h2 : 2 ≤ r) (hR : r ≤ R.length)
    (ht : ∀ t ∈ R.take r, t.a < 255 ∧ t.b < 255 ∧ t.c < 255) :
    ∃ st, bCompute c n R r = .ok (.unreachable, st) := by
  obtain ⟨t, htj⟩ : ∃ t, R[0]? = some t := ⟨_, List.getElem?_eq_getElem (by omega : 0 < R.length)⟩
  have htm : t ∈ R.take r := by
    refine List.mem_iff_getElem?.mpr ⟨0, ?_⟩
    rw [List.getElem?_take, if_pos (by omega)]; exact htj
  have htv := ht t htm
  unfold bCompute
  rw [rd_eq_ok.mpr htj]
  simp only [bind_ok]
  unfold bInit
  rw [wr_ok (by omega), bind_ok, wr_ok (by simp; omega), bind_ok, wr_ok (by simp; omega)]
  simp only [bind_ok, pure_eq_ok]
  refine bLoop_wide _ n r hn (by simpa using hc) ?_ ?_ h2 _ _ rfl (by simp only; omega) rfl
    (by simp only; omega) (Nat.le_refl _) hR ht ?_
  · intro x hx
    rcases List.mem_or_eq_of_mem_set hx with hx | rfl
    · rcases List.mem_or_eq_of_mem_set hx with hx | rfl
      · rcases List.mem_or_eq_of_mem_set hx with hx | rfl
        · exact hv x hx
        · omega
      · omega
    · omega
  · refine ⟨t.c, by omega, ?_⟩
    rw [List.getElem?_set_self (by simp; omega)]; simp [bUndefined]; omega
  · have : r ≤ (r + 2) * r := Nat.le_mul_of_pos_left _ (by omega)
    have e : (r + 2) * (r + 2) = (r + 2) * r + 2 * (r + 2) := by grind
    simp only [bFuel]; omega

/-! ### concrete cases -/

/-- two triangles with a common edge -/
def twoTris : List Tri := [⟨0, 1, 2⟩, ⟨1, 0, 3⟩]

theorem twoTris_valid : ValidTris 5 twoTris := ⟨by decide, by decide⟩

theorem twoTris_open : NoClosedPart twoTris := by
  intro S hS hsub hcl
  obtain ⟨t, ht⟩ := List.exists_mem_of_ne_nil S hS
  have h2 : ∀ e, e ∈ triEdges S → e ∈ triEdges twoTris := by
    intro e he
    obtain ⟨u, hu, hue⟩ := mem_triEdges.mp he
    exact mem_triEdges.mpr ⟨u, hsub u hu, hue⟩
  have htt := hsub t ht
  simp only [twoTris, List.mem_cons, List.not_mem_nil, or_false] at htt
  rcases htt with rfl | rfl
  · have := h2 _ (hcl (1, 2) (mem_triEdges.mpr ⟨_, ht, by decide⟩))
    revert this; decide
  · have := h2 _ (hcl (0, 3) (mem_triEdges.mpr ⟨_, ht, by decide⟩))
    revert this; decide

example : FreshRow 5 (List.replicate 5 255) := ⟨by decide, by decide⟩

/-- the loop 0 → 3 → 1 → 2 → 0 -/
example : bCompute (List.replicate 5 255) 5 twoTris 2
    = .ok (.success, ⟨[3, 2, 0, 1, 255], 3, twoTris, 2, 2⟩) := by decide +kernel

/-- the same triangles with a table of 256 entries: failure -/
example : (bCompute (List.replicate 256 255) 256 twoTris 2).map (·.1) = .ok .unreachable := by
  decide +kernel

end Votess
