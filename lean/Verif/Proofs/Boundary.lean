import Verif.Model.Boundary
import Verif.Proofs.Basic
import Verif.Proofs.Heap
import Verif.Proofs.Loop
/-! Lemmas on the boundary computation. -/
namespace Votess

/-! ### the traversal -/

theorem bWalk_spec (cw : Nat → Nat) (c : List Nat) (first te0 te1 rsize y : Nat)
    (hcw : ∀ n, n ≤ rsize + 1 → cw n = n) :
    ∀ (B : List Nat) (fuel counter : Nat) (hit : Bool) (x : Nat), first ∉ B →
      (∀ e ∈ pathEdges (B ++ [first, y]), c[e.1]? = some e.2) →
      (B ++ [first]).head? = some x → counter + B.length ≤ rsize + 1 → B.length < fuel →
      bWalk cw c first te0 te1 rsize fuel x counter hit
        = .ok (some (hit || decide ((te1, te0) ∈ pathEdges (B ++ [first, y])))) := by
  intro B
  induction B with
  | nil =>
    intro fuel counter hit x _ hc hx _ hf
    obtain ⟨fuel, rfl⟩ : ∃ f, fuel = f + 1 := ⟨fuel - 1, by simp at hf; omega⟩
    simp only [List.nil_append, List.head?_cons, Option.some.injEq] at hx
    subst hx
    have h1 : rd c first = .ok y := rd_eq_ok.mpr (hc (first, y) (by simp [pathEdges]))
    simp only [bWalk, h1, bind_ok, if_true, pure_eq_ok]
    congr 3
    simp [pathEdges, eq_comm, Bool.beq_eq_decide_eq]
  | cons b B ih =>
    intro fuel counter hit x hB hc hx hk hf
    obtain ⟨fuel, rfl⟩ : ∃ f, fuel = f + 1 := ⟨fuel - 1, by simp at hf; omega⟩
    simp only [List.cons_append, List.head?_cons, Option.some.injEq] at hx
    subst hx
    obtain ⟨z, hz⟩ : ∃ z, (B ++ [first]).head? = some z := by cases B <;> simp
    have hp : pathEdges (b :: B ++ [first, y]) = (b, z) :: pathEdges (B ++ [first, y]) := by
      cases B with
      | nil => simp at hz; subst hz; rfl
      | cons w B => simp at hz; subst hz; rfl
    have h1 : rd c b = .ok z := rd_eq_ok.mpr (hc (b, z) (by rw [hp]; simp))
    have hb : b ≠ first := by rintro rfl; simp at hB
    simp only [List.length_cons] at hk hf
    simp only [bWalk, h1, bind_ok, if_neg hb, if_neg (show ¬ counter > rsize by omega)]
    rw [hcw _ (by omega)]
    rw [ih fuel (counter + 1) _ z (by simp at hB; exact hB.2)
      (fun e he => hc e (by rw [hp]; exact List.mem_cons_of_mem _ he)) hz (by omega) (by omega)]
    rw [hp]
    congr 2
    have : ((te1, te0) ∈ (b, z) :: pathEdges (B ++ [first, y])) ↔
        ((b = te1 ∧ z = te0) ∨ (te1, te0) ∈ pathEdges (B ++ [first, y])) := by
      simp only [List.mem_cons, Prod.mk.injEq]
      constructor <;> (rintro (⟨rfl, rfl⟩ | h) <;> simp [*])
    simp only [this, Bool.decide_or, Bool.decide_and, Bool.or_assoc]; rfl

theorem bEdge_spec (cw : Nat → Nat) {ud : Nat} {c L : List Nat} (hL : IsLoop ud c L)
    (first te0 te1 rsize : Nat) (hcw : ∀ n, n ≤ rsize + 1 → cw n = n)
    (hf : first ∈ L) (hlen : L.length ≤ rsize + 2) :
    bEdge cw c first te0 te1 rsize = .ok (some (decide ((te1, te0) ∈ loopEdges L))) := by
  obtain ⟨y, hy⟩ := loopEdges_of_fst hf
  obtain ⟨A, p1, p2⟩ := loop_rotate_edge hL.nodup hy (hL.edge_ne hy)
  have hn := p1.nodup_iff.mpr hL.nodup
  have e1 : pathEdges (y :: A ++ [first, y]) = loopEdges (y :: A ++ [first]) := by
    simp [loopEdges]
  unfold bEdge
  rw [rd_eq_ok.mpr (hL.next _ hy)]
  simp only [bind_ok]
  have hlen' := p1.length_eq
  simp at hlen'
  rw [bWalk_spec cw c first te0 te1 rsize y hcw (y :: A) (rsize + 3) 0 false y]
  · rw [e1]; simp only [p2.mem_iff, Bool.false_or]
  · intro hx; exact (List.nodup_append.mp hn).2.2 _ hx _ (by simp) rfl
  · intro e he; rw [e1] at he; exact hL.next e (p2.mem_iff.mp he)
  · rfl
  · simp; omega
  · simp; omega

/-! ### the duplicate check -/

theorem bDupInner_spec (c : List Nat) (dr ei : Nat) (hc : c.length = dr) (hdr : dr ≤ 255)
    (hei : ei < dr) :
    ∀ (fuel ej : Nat), ej ≤ dr → dr - ej < fuel → ∃ b, bDupInner c dr ei fuel ej = .ok b ∧
      (b = true ↔ ∃ j, ej ≤ j ∧ j < dr ∧ c[j]? ≠ some bUndefined ∧ c[ei]? = c[j]?) := by
  intro fuel
  induction fuel with
  | zero => intro ej _ h; omega
  | succ fuel ih =>
    intro ej hej hf
    unfold bDupInner
    by_cases h : ej < dr
    · rw [if_pos h, rd_ok (by omega : ej < c.length)]
      simp only [bind_ok]
      have hcj : c[ej]? = some c[ej] := List.getElem?_eq_getElem (by omega)
      have hci : c[ei]? = some c[ei] := List.getElem?_eq_getElem (by omega)
      rw [Nat.mod_eq_of_lt (by omega : ej + 1 < 256)]
      obtain ⟨b, hb, hb'⟩ := ih (ej + 1) (by omega) (by omega)
      split
      · rename_i hu
        refine ⟨b, hb, hb'.trans ⟨?_, ?_⟩⟩
        · rintro ⟨j, h1, h2⟩; exact ⟨j, by omega, h2⟩
        · rintro ⟨j, h1, h2, h3, h4⟩
          refine ⟨j, ?_, h2, h3, h4⟩
          rcases Nat.lt_or_ge ej j with h5 | h5
          · omega
          · obtain rfl : j = ej := by omega
            rw [hcj, hu] at h3; exact absurd rfl h3
      · rename_i hu
        rw [rd_ok (by omega : ei < c.length)]
        simp only [bind_ok]
        split
        · rename_i he
          exact ⟨true, rfl, by simp; exact ⟨ej, by omega, by omega, by rw [hcj]; simpa using hu, by rw [hcj, hci, he]⟩⟩
        · rename_i he
          refine ⟨b, hb, hb'.trans ⟨?_, ?_⟩⟩
          · rintro ⟨j, h1, h2⟩; exact ⟨j, by omega, h2⟩
          · rintro ⟨j, h1, h2, h3, h4⟩
            refine ⟨j, ?_, h2, h3, h4⟩
            rcases Nat.lt_or_ge ej j with h5 | h5
            · omega
            · obtain rfl : j = ej := by omega
              rw [hcj, hci] at h4; simp at h4; exact absurd h4 he
    · rw [if_neg h]
      refine ⟨false, rfl, ?_⟩
      simp; intro j h1 h2; omega

theorem bDup_spec (c : List Nat) (dr : Nat) (hc : c.length = dr) (hdr : dr ≤ 255) :
    ∀ (fuel ei : Nat), ei ≤ dr → dr - ei < fuel → ∃ b, bDup c dr fuel ei = .ok b ∧
      (b = true ↔ ∃ i j, ei ≤ i ∧ i < j ∧ j < dr ∧ c[j]? ≠ some bUndefined ∧ c[i]? = c[j]?) := by
  intro fuel
  induction fuel with
  | zero => intro ej _ h; omega
  | succ fuel ih =>
    intro ei hei hf
    unfold bDup
    by_cases h : ei < dr
    · rw [if_pos h, rd_ok (by omega : ei < c.length)]
      simp only [bind_ok]
      have hci : c[ei]? = some c[ei] := List.getElem?_eq_getElem (by omega)
      rw [Nat.mod_eq_of_lt (by omega : ei + 1 < 256)]
      obtain ⟨b, hb, hb'⟩ := ih (ei + 1) (by omega) (by omega)
      split
      · rename_i hu
        refine ⟨b, hb, hb'.trans ⟨?_, ?_⟩⟩
        · rintro ⟨i, j, h1, h2⟩; exact ⟨i, j, by omega, h2⟩
        · rintro ⟨i, j, h1, h2, h3, h4, h5⟩
          refine ⟨i, j, ?_, h2, h3, h4, h5⟩
          rcases Nat.lt_or_ge ei i with h6 | h6
          · omega
          · obtain rfl : i = ei := by omega
            rw [hci, hu] at h5; exact absurd h5.symm h4
      · rename_i hu
        obtain ⟨d, hd, hd'⟩ := bDupInner_spec c dr ei hc hdr h 257 (ei + 1) (by omega) (by omega)
        rw [hd]
        simp only [bind_ok]
        cases d with
        | true =>
          obtain ⟨j, h1, h2, h3, h4⟩ := hd'.mp rfl
          exact ⟨true, rfl, by simp; exact ⟨ei, by omega, j, by omega, h2, h3, h4⟩⟩
        | false =>
          refine ⟨b, by simpa using hb, hb'.trans ⟨?_, ?_⟩⟩
          · rintro ⟨i, j, h1, h2⟩; exact ⟨i, j, by omega, h2⟩
          · rintro ⟨i, j, h1, h2, h3, h4, h5⟩
            refine ⟨i, j, ?_, h2, h3, h4, h5⟩
            rcases Nat.lt_or_ge ei i with h6 | h6
            · omega
            · obtain rfl : i = ei := by omega
              have := hd'.mpr ⟨j, h2, h3, h4, h5⟩
              cases this
    · rw [if_neg h]
      refine ⟨false, rfl, ?_⟩
      simp; intro i h1 j h2; omega

theorem bDup_loop {c L : List Nat} {dr : Nat} (hL : IsLoop bUndefined c L) (hc : c.length = dr)
    (hdr : dr ≤ 255) : bDup c dr 257 0 = .ok false := by
  obtain ⟨b, hb, hb'⟩ := bDup_spec c dr hc hdr 257 0 (by omega) (by omega)
  cases b with
  | false => exact hb
  | true =>
    obtain ⟨i, j, _, hij, hj, hu, he⟩ := hb'.mp rfl
    have hcj : c[j]? = some c[j] := List.getElem?_eq_getElem (by omega)
    have := hL.inj (i := i) (j := j) (v := c[j]) (by rw [he, hcj]) hcj (by rw [hcj] at hu; simpa using hu)
    omega

theorem bDup_insert {c L : List Nat} {dr e0 e1 e2 : Nat} (hL : IsLoop bUndefined c L)
    (hc : c.length = dr) (hdr : dr ≤ 255) (he : (e1, e0) ∈ loopEdges L) (h2 : e2 ∈ L)
    (h20 : e2 ≠ e0) (h21 : e2 ≠ e1) :
    bDup ((c.set e1 e2).set e2 e0) dr 257 0 = .ok true := by
  obtain ⟨b, hb, hb'⟩ := bDup_spec ((c.set e1 e2).set e2 e0) dr (by simpa using hc) hdr 257 0
    (by omega) (by omega)
  rw [hb]
  congr 1
  rw [hb']
  obtain ⟨q, hq⟩ := loopEdges_of_snd h2
  have hq1 : q ≠ e1 := by
    rintro rfl; exact h20 (loopEdges_fst_inj hL.nodup hq he)
  have hq2 : q ≠ e2 := hL.edge_ne hq
  have l1 : e1 < c.length := hL.lt (loopEdges_fst_mem he)
  have l2 : e2 < c.length := hL.lt h2
  have lq : q < c.length := hL.lt (loopEdges_fst_mem hq)
  have v1 : ((c.set e1 e2).set e2 e0)[e1]? = some e2 := by
    rw [List.getElem?_set_ne h21, List.getElem?_set_self l1]
  have vq : ((c.set e1 e2).set e2 e0)[q]? = some e2 := by
    rw [List.getElem?_set_ne (Ne.symm hq2), List.getElem?_set_ne (Ne.symm hq1)]
    exact hL.next _ hq
  have hu : e2 ≠ bUndefined := by unfold bUndefined; omega
  rcases Nat.lt_or_gt_of_ne hq1 with h | h
  · exact ⟨q, e1, by omega, h, by omega, by rw [v1]; simpa using hu, by rw [v1, vq]⟩
  · exact ⟨e1, q, by omega, h, by omega, by rw [vq]; simpa using hu, by rw [v1, vq]⟩

/-! ### the loop over the triangles -/

theorem Sift.take_perm {α : Type} {s : Nat} {h h' : List α} (p : Sift s h h') :
    (h'.take s).Perm (h.take s) := by
  have e : h'.drop s = h.drop s := by
    apply List.ext_getElem?
    intro m
    rw [List.getElem?_drop, List.getElem?_drop]
    exact p.frame _ (by omega)
  have := p.perm
  rw [← List.take_append_drop s h', ← List.take_append_drop s h, e] at this
  exact (List.perm_append_right_iff _).mp this

theorem ValidTris.perm {n : Nat} {R R' : List Tri} (h : ValidTris n R) (p : R'.Perm R) :
    ValidTris n R' :=
  ⟨fun t ht => h.tri t (p.mem_iff.mp ht), (p.flatMap_right Tri.edges).nodup_iff.mpr h.nodup⟩

theorem mem_triEdges {R : List Tri} {e : Nat × Nat} :
    e ∈ triEdges R ↔ ∃ t ∈ R, e ∈ t.edges := by
  simp [triEdges]

theorem triEdges_append (R S : List Tri) : triEdges (R ++ S) = triEdges R ++ triEdges S := by
  simp [triEdges]

theorem triEdges_singleton (t : Tri) : triEdges [t] = t.edges := by simp [triEdges]

/-- a triangle written from another corner -/
def RotOf (t : Tri) (e0 e1 e2 : Nat) : Prop :=
  (e0 = t.a ∧ e1 = t.b ∧ e2 = t.c) ∨ (e0 = t.b ∧ e1 = t.c ∧ e2 = t.a) ∨
  (e0 = t.c ∧ e1 = t.a ∧ e2 = t.b)

theorem RotOf.edges {t : Tri} {e0 e1 e2 : Nat} (h : RotOf t e0 e1 e2) (e : Nat × Nat) :
    e ∈ t.edges ↔ e = (e0, e1) ∨ e = (e1, e2) ∨ e = (e2, e0) := by
  rcases h with ⟨rfl, rfl, rfl⟩ | ⟨rfl, rfl, rfl⟩ | ⟨rfl, rfl, rfl⟩ <;>
    simp only [Tri.edges, List.mem_cons, List.not_mem_nil, or_false] <;> grind

/-- the triangle cannot be merged with the loop: each edge it shares is its only shared edge,
and the opposite corner is already on the loop -/
def Rejects (L : List Nat) (t : Tri) : Prop :=
  ∀ e0 e1 e2, RotOf t e0 e1 e2 → (e1, e0) ∈ loopEdges L →
    e2 ∈ L ∧ (e2, e1) ∉ loopEdges L ∧ (e0, e2) ∉ loopEdges L

/-- what is known before each iteration; `L` is the current loop -/
structure BInv (dr rsize : Nat) (R0 : List Tri) (st : BState) (L : List Nat) : Prop where
  clen : st.cycle.length = dr
  loop : IsLoop bUndefined st.cycle L
  head : st.head ∈ L
  sift : Sift rsize R0 st.R
  j1 : 1 ≤ st.j
  jr : st.j ≤ rsize
  js : st.j ≤ st.swapj
  sr : st.swapj ≤ rsize
  llen : L.length ≤ st.j + 2
  sub : ∀ e ∈ loopEdges L, e ∈ triEdges (st.R.take st.j)
  bd : (∀ e, e ∈ loopEdges L ↔ Unmatched (st.R.take st.j) e) ∨
    ∃ m, 0 < m ∧ m ≤ st.j ∧ ClosedTris (st.R.take m)
  rej : ∀ m t, st.swapj ≤ m → m < rsize → st.R[m]? = some t → Rejects L t

theorem take_eq_of_frame {α : Type} {a b : List α} {j : Nat} (h : ∀ m, m < j → b[m]? = a[m]?) :
    b.take j = a.take j := by
  apply List.ext_getElem?
  intro m
  rw [List.getElem?_take, List.getElem?_take]
  split
  · exact h m ‹_›
  · rfl

theorem bReject_spec {dr rsize : Nat} {R0 : List Tri} {st : BState} {L : List Nat}
    (hi : BInv dr rsize R0 st L) (hR : rsize ≤ R0.length) (hj : st.j < st.swapj)
    (hrej : ∀ t, st.R[st.j]? = some t → Rejects L t) (c : List Nat) (hc : c = st.cycle) (h : Nat) (hh : h ∈ L) :
    ∃ st', bReject { st with cycle := c, head := h } = .ok st' ∧ BInv dr rsize R0 st' L ∧
      st'.j = st.j ∧ st'.swapj + 1 = st.swapj := by
  subst hc
  have hlen := hi.sift.len
  have h1 := hi.sr
  obtain ⟨b, hb, hb1, hb2, hb3, hb4, hb5⟩ := swp_spec (a := st.R) (i := st.j) (j := st.swapj - 1)
    (by omega) (by omega)
  have hs := Sift.of_swp (s := rsize) (by omega) (by omega) (by omega) hb
  unfold bReject
  simp only
  rw [if_neg (by omega), hb]
  simp only [bind_ok, pure_eq_ok]
  have htk : ∀ m, m ≤ st.j → b.take m = st.R.take m := fun m hm =>
    take_eq_of_frame (fun i hi => hb5 i (by omega) (by omega))
  refine ⟨_, rfl, ⟨hi.clen, hi.loop, hh, hi.sift.trans hs, hi.j1, hi.jr, ?_, ?_, hi.llen, ?_, ?_, ?_⟩,
    rfl, ?_⟩
  · simp only; omega
  · simp only; omega
  · simp only; rw [htk _ (Nat.le_refl _)]; exact hi.sub
  · simp only
    rw [htk _ (Nat.le_refl _)]
    refine hi.bd.imp id ?_
    rintro ⟨m, h1, h2, h3⟩
    exact ⟨m, h1, h2, by rw [htk m h2]; exact h3⟩
  · simp only
    intro m t h1 h2 h3
    by_cases e1 : m = st.swapj - 1
    · subst e1; rw [hb4] at h3; exact hrej t h3
    · rw [hb5 m (by omega) e1] at h3
      exact hi.rej m t (by omega) h2 h3
  · simp only; omega

theorem take_succ_of {α : Type} {a : List α} {j : Nat} {t : α} (h : a[j]? = some t) :
    a.take (j + 1) = a.take j ++ [t] := by
  rw [List.take_add_one, h]; rfl

/-- the new boundary after adding triangle `t` (with its rotation `e0 e1 e2`) -/
theorem nodup_take {α : Type} {a : List α} {m n : Nat} (h : m ≤ n) : (a.take m).Sublist (a.take n) := by
  have : a.take m = (a.take n).take m := by rw [List.take_take, Nat.min_eq_left h]
  rw [this]; exact List.take_sublist _ _

theorem triEdges_sublist {R S : List Tri} (h : R.Sublist S) : (triEdges R).Sublist (triEdges S) := by
  induction h with
  | slnil => exact .slnil
  | cons a _ ih =>
    simp only [triEdges, List.flatMap_cons] at *
    exact (List.sublist_append_of_sublist_right ih)
  | cons_cons a _ ih =>
    simp only [triEdges, List.flatMap_cons] at *
    exact List.Sublist.append (List.Sublist.refl _) ih

/-- facts about adding one valid triangle to the merged ones -/
structure AddTri (dr : Nat) (M : List Tri) (t : Tri) (e0 e1 e2 : Nat) : Prop where
  edges : ∀ e, e ∈ triEdges (M ++ [t]) ↔ e ∈ triEdges M ∨ e = (e0, e1) ∨ e = (e1, e2) ∨ e = (e2, e0)
  new0 : (e0, e1) ∉ triEdges M
  new1 : (e1, e2) ∉ triEdges M
  new2 : (e2, e0) ∉ triEdges M
  n01 : e0 ≠ e1
  n12 : e1 ≠ e2
  n20 : e2 ≠ e0
  l0 : e0 < dr
  l1 : e1 < dr
  l2 : e2 < dr

theorem AddTri.mk' {dr : Nat} {M : List Tri} {t : Tri} {e0 e1 e2 : Nat} (hr : RotOf t e0 e1 e2)
    (hv : ValidTris dr (M ++ [t])) : AddTri dr M t e0 e1 e2 := by
  have ht := hv.tri t (by simp)
  have hn := hv.nodup
  rw [triEdges_append, triEdges_singleton, List.nodup_append] at hn
  have he := hr.edges
  have hnew : ∀ e, e ∈ t.edges → e ∉ triEdges M := fun e h1 h2 => hn.2.2 e h2 e h1 rfl
  refine ⟨?_, hnew _ ((he _).mpr (by simp)), hnew _ ((he _).mpr (by simp)),
    hnew _ ((he _).mpr (by simp)), ?_, ?_, ?_, ?_, ?_, ?_⟩
  · intro e; rw [triEdges_append, triEdges_singleton, List.mem_append, he]
  all_goals
    rcases hr with ⟨rfl, rfl, rfl⟩ | ⟨rfl, rfl, rfl⟩ | ⟨rfl, rfl, rfl⟩ <;> omega

/-- one successful merge -/
theorem BInv.accept {dr rsize : Nat} {R0 : List Tri} {st : BState} {L L' : List Nat} {t : Tri}
    (hi : BInv dr rsize R0 st L) (hjlt : st.j < rsize) (ht : st.R[st.j]? = some t)
    (c : List Nat) (h : Nat) (hc : c.length = dr) (hL : IsLoop bUndefined c L') (hh : h ∈ L')
    (hlen : L'.length ≤ L.length + 1)
    (hsub : ∀ e ∈ loopEdges L', e ∈ loopEdges L ∨ e ∈ t.edges)
    (hbd : (∀ e, e ∈ loopEdges L ↔ Unmatched (st.R.take st.j) e) →
      (∀ e, e ∈ loopEdges L' ↔ Unmatched (st.R.take st.j ++ [t]) e) ∨
      ClosedTris (st.R.take st.j ++ [t])) (sw : Nat) (hsw : sw = rsize) :
    BInv dr rsize R0 { st with cycle := c, head := h, j := st.j + 1, swapj := sw } L' := by
  have e := take_succ_of ht
  subst hsw
  refine ⟨hc, hL, hh, hi.sift, by simp only; omega, by simp only; omega, by simp only; omega,
    by simp only; omega, ?_, ?_, ?_, fun m t h1 h2 _ => absurd h1 (by simp only; omega)⟩
  · have := hi.llen; simp only; omega
  · intro x hx
    simp only [e, triEdges_append, triEdges_singleton, List.mem_append]
    exact (hsub x hx).imp (hi.sub x) id
  · simp only
    rcases hi.bd with hb | ⟨m, h1, h2, h3⟩
    · rcases hbd hb with hb | hb
      · left; rw [e]; exact hb
      · right; exact ⟨st.j + 1, by omega, by omega, by rw [e]; exact hb⟩
    · right; exact ⟨m, h1, by omega, h3⟩

/-- two edges determine the rest of the 1-shared case -/
theorem merge_one {dr rsize : Nat} {R0 : List Tri} {st : BState} {L : List Nat} {t : Tri}
    {e0 e1 e2 : Nat} (hdr : dr ≤ 255) (hi : BInv dr rsize R0 st L) (hjlt : st.j < rsize)
    (ht : st.R[st.j]? = some t) (hr : RotOf t e0 e1 e2) (hv : ValidTris dr (st.R.take st.j ++ [t]))
    (he : (e1, e0) ∈ loopEdges L) (hn1 : (e2, e1) ∉ loopEdges L) (hn2 : (e0, e2) ∉ loopEdges L)
    (h2 : e2 ∉ L) (sw : Nat) (hsw : sw = rsize) :
    bDup ((st.cycle.set e1 e2).set e2 e0) dr 257 0 = .ok false ∧
    ∃ L', BInv dr rsize R0 { st with cycle := (st.cycle.set e1 e2).set e2 e0, head := e2, j := st.j + 1, swapj := sw } L' := by
  have ha := AddTri.mk' hr hv
  obtain ⟨L', hL', hlen, hm, hmem, hE⟩ := hi.loop.insert he h2 (by rw [hi.clen]; exact ha.l2)
  refine ⟨bDup_loop hL' (by simpa using hi.clen) hdr, L', ?_⟩
  refine hi.accept hjlt ht _ _ (by simpa using hi.clen) hL' hm (by omega) ?_ ?_ sw hsw
  · intro e he'
    rw [hr.edges]
    rcases (hE e).mp he' with h | h | h
    · exact Or.inl h.1
    · right; right; left; exact h
    · right; right; right; exact h
  · intro hb
    left
    have n21 : (e2, e1) ∉ triEdges (st.R.take st.j) := fun h => hn1 ((hb _).mpr ⟨h, ha.new1⟩)
    have n02 : (e0, e2) ∉ triEdges (st.R.take st.j) := fun h => hn2 ((hb _).mpr ⟨h, ha.new2⟩)
    have h10 := (hb _).mp he
    intro e
    rw [hE, hb]
    simp only [Unmatched, ha.edges]
    have := ha.n01; have := ha.n12; have := ha.n20; have := ha.new0; have := ha.new1; have := ha.new2
    obtain ⟨u, v⟩ := e
    simp only [Unmatched] at h10
    constructor
    · rintro (⟨⟨h1, h2⟩, h3⟩ | h | h)
      · refine ⟨Or.inl h1, ?_⟩
        rintro (h | h | h | h)
        · exact h2 h
        · simp at h h3; obtain ⟨rfl, rfl⟩ := h; exact h3 rfl rfl
        · simp at h; obtain ⟨rfl, rfl⟩ := h; exact n21 h1
        · simp at h; obtain ⟨rfl, rfl⟩ := h; exact n02 h1
      · simp at h; obtain ⟨rfl, rfl⟩ := h
        refine ⟨by simp, ?_⟩
        rintro (h | h | h | h)
        · exact n21 h
        all_goals (simp at h; omega)
      · simp at h; obtain ⟨rfl, rfl⟩ := h
        refine ⟨by simp, ?_⟩
        rintro (h | h | h | h)
        · exact n02 h
        all_goals (simp at h; omega)
    · rintro ⟨h1 | h1 | h1 | h1, h2⟩
      · refine Or.inl ⟨⟨h1, fun h => h2 (Or.inl h)⟩, ?_⟩
        intro h; simp at h; obtain ⟨rfl, rfl⟩ := h; exact h2 (by simp)
      · exfalso; simp at h1; obtain ⟨rfl, rfl⟩ := h1; exact h2 (Or.inl h10.1)
      · exact Or.inr (Or.inl h1)
      · exact Or.inr (Or.inr h1)

theorem merge_two {dr rsize : Nat} {R0 : List Tri} {st : BState} {L : List Nat} {t : Tri}
    {e0 e1 e2 : Nat} (hdr : dr ≤ 255) (hi : BInv dr rsize R0 st L) (hjlt : st.j < rsize)
    (ht : st.R[st.j]? = some t) (hr : RotOf t e0 e1 e2) (hv : ValidTris dr (st.R.take st.j ++ [t]))
    (h02 : (e0, e2) ∈ loopEdges L) (h21 : (e2, e1) ∈ loopEdges L) (h10 : (e1, e0) ∉ loopEdges L)
    (sw : Nat) (hsw : sw = rsize) :
    bDup ((st.cycle.set e2 bUndefined).set e0 e1) dr 257 0 = .ok false ∧
    ∃ L', BInv dr rsize R0 { st with cycle := (st.cycle.set e2 bUndefined).set e0 e1, head := e0, j := st.j + 1, swapj := sw } L' := by
  have ha := AddTri.mk' hr hv
  obtain ⟨L', hL', hlen, hm, hmem, hE⟩ := hi.loop.shortcut h02 h21 h10 ha.n01
  refine ⟨bDup_loop hL' (by simpa using hi.clen) hdr, L', ?_⟩
  refine hi.accept hjlt ht _ _ (by simpa using hi.clen) hL' hm (by omega) ?_ ?_ sw hsw
  · intro e he'
    rw [hr.edges]
    rcases (hE e).mp he' with h | h
    · exact Or.inl h.1
    · right; left; exact h
  · intro hb
    left
    have n10 : (e1, e0) ∉ triEdges (st.R.take st.j) := fun h => h10 ((hb _).mpr ⟨h, ha.new0⟩)
    have m02 := (hb _).mp h02
    have m21 := (hb _).mp h21
    simp only [Unmatched] at m02 m21
    intro e
    rw [hE, hb]
    simp only [Unmatched, ha.edges]
    have := ha.n01; have := ha.n12; have := ha.n20; have := ha.new0; have := ha.new1; have := ha.new2
    obtain ⟨u, v⟩ := e
    constructor
    · rintro (⟨⟨h1, h2⟩, h3, h4⟩ | h)
      · refine ⟨Or.inl h1, ?_⟩
        rintro (h | h | h | h)
        · exact h2 h
        · simp at h; obtain ⟨rfl, rfl⟩ := h; exact n10 h1
        · simp at h h4; obtain ⟨rfl, rfl⟩ := h; exact h4 rfl rfl
        · simp at h h3; obtain ⟨rfl, rfl⟩ := h; exact h3 rfl rfl
      · simp at h; obtain ⟨rfl, rfl⟩ := h
        refine ⟨by simp, ?_⟩
        rintro (h | h | h | h)
        · exact n10 h
        all_goals (simp at h; omega)
    · rintro ⟨h1 | h1 | h1 | h1, h2⟩
      · refine Or.inl ⟨⟨h1, fun h => h2 (Or.inl h)⟩, ?_, ?_⟩
        · intro h; simp at h; obtain ⟨rfl, rfl⟩ := h; exact h2 (by simp)
        · intro h; simp at h; obtain ⟨rfl, rfl⟩ := h; exact h2 (by simp)
      · exact Or.inr h1
      · exfalso; simp at h1; obtain ⟨rfl, rfl⟩ := h1; exact h2 (Or.inl m21.1)
      · exfalso; simp at h1; obtain ⟨rfl, rfl⟩ := h1; exact h2 (Or.inl m02.1)

theorem merge_three {dr rsize : Nat} {R0 : List Tri} {st : BState} {L : List Nat} {t : Tri}
    {e0 e1 e2 : Nat} (hi : BInv dr rsize R0 st L) (hjlt : st.j < rsize)
    (ht : st.R[st.j]? = some t) (hr : RotOf t e0 e1 e2) (hv : ValidTris dr (st.R.take st.j ++ [t]))
    (h02 : (e0, e2) ∈ loopEdges L) (h21 : (e2, e1) ∈ loopEdges L) (h10 : (e1, e0) ∈ loopEdges L)
    (sw : Nat) (hsw : sw = rsize) :
    BInv dr rsize R0 { st with j := st.j + 1, swapj := sw } L := by
  have ha := AddTri.mk' hr hv
  refine hi.accept hjlt ht _ _ hi.clen hi.loop hi.head (by omega) (fun e he => Or.inl he) ?_ sw hsw
  intro hb
  right
  intro e he
  rw [ha.edges] at he ⊢
  rcases he with h | rfl | rfl | rfl
  · by_cases h' : (e.2, e.1) ∈ triEdges (st.R.take st.j)
    · exact Or.inl h'
    · right
      have := hi.loop.triangle h02 h21 h10 e ((hb e).mpr ⟨h, h'⟩)
      rcases this with rfl | rfl | rfl <;> simp
  · exact Or.inl (hi.sub _ h10)
  · exact Or.inl (hi.sub _ h21)
  · exact Or.inl (hi.sub _ h02)


theorem RotOf.rd {t : Tri} {e0 e1 e2 : Nat} (h : RotOf t e0 e1 e2) {dr : Nat}
    (hv : t.a ≠ t.b ∧ t.b ≠ t.c ∧ t.c ≠ t.a ∧ t.a < dr ∧ t.b < dr ∧ t.c < dr) :
    e0 ≠ e1 ∧ e1 ≠ e2 ∧ e2 ≠ e0 ∧ e0 < dr ∧ e1 < dr ∧ e2 < dr := by
  rcases h with ⟨rfl, rfl, rfl⟩ | ⟨rfl, rfl, rfl⟩ | ⟨rfl, rfl, rfl⟩ <;> omega

/-- one iteration ends with `st'`: the triangle was put back, or merged -/
def BNext (rsize : Nat) (st st' : BState) : Prop :=
  (st'.j = st.j ∧ st'.swapj + 1 = st.swapj) ∨ (st'.j = st.j + 1 ∧ st'.swapj = rsize)

/-- writing back what was there -/
theorem set_back {c : List Nat} {i x : Nat} (h : c[i]? = some x) : c.set i x = c := by
  apply List.ext_getElem?
  intro m
  by_cases e : i = m
  · subst e
    rw [List.getElem?_set_self (List.getElem?_eq_some_iff.mp h).1, h]
  · rw [List.getElem?_set_ne e]

theorem restore_eq {c : List Nat} {e0 e1 e2 o0 o1 o2 o00 w1 w2 : Nat} (h0 : c[e0]? = some o0)
    (h1 : c[e1]? = some o1) (h2 : c[e2]? = some o2) (h00 : c[o0]? = some o00) :
    (((((c.set e1 w1).set e2 w2).set e0 o0).set e1 o1).set e2 o2).set o0 o00 = c := by
  have hl : ∀ {i x : Nat}, c[i]? = some x → i < c.length := fun h =>
    (List.getElem?_eq_some_iff.mp h).1
  have l0 := hl h0; have l1 := hl h1; have l2 := hl h2; have l00 := hl h00
  apply List.ext_getElem?
  intro m
  simp only [List.getElem?_set, List.length_set]
  grind

section
variable {dr rsize : Nat} {R0 : List Tri} {st : BState} {L : List Nat} {t : Tri} {e0 e1 e2 : Nat}
  (hdr : dr ≤ 255) (hR : rsize ≤ R0.length) (hi : BInv dr rsize R0 st L) (hjlt : st.j < rsize)
  (hjs : st.j < st.swapj) (ht : st.R[st.j]? = some t) (hr : RotOf t e0 e1 e2)
  (hv : ValidTris dr (st.R.take st.j ++ [t])) {cr : Nat} (hcr : cr = rsize)
include hdr hR hi hjlt hjs ht hr hv hcr

theorem body_one (h10 : (e1, e0) ∈ loopEdges L) (h21 : (e2, e1) ∉ loopEdges L)
    (h02 : (e0, e2) ∉ loopEdges L) (hrej : e2 ∈ L → Rejects L t) :
    ∃ st' L', (do
      let old0 ← rd st.cycle e0
      let old1 ← rd st.cycle e1
      let old2 ← rd st.cycle e2
      let old00 ← rd st.cycle old0
      let c ← wr st.cycle e1 e2
      let c ← wr c e2 e0
      let dup ← bDup c dr 257 0
      if dup = true then do
        let c ← wr c e0 old0
        let c ← wr c e1 old1
        let c ← wr c e2 old2
        let c ← wr c old0 old00
        let st ← bReject { cycle := c, head := e2, R := st.R, j := st.j, swapj := st.swapj }
        Except.ok (BStep.next st)
      else Except.ok (BStep.next
        { cycle := c, head := e2, R := st.R, j := st.j + 1, swapj := cr })) =
        (Except.ok (BStep.next st') : M BStep) ∧ BInv dr rsize R0 st' L' ∧ BNext rsize st st' := by
  have ha := AddTri.mk' hr hv
  have hrd : ∀ x, x < dr → ∃ y, st.cycle[x]? = some y := fun x hx =>
    ⟨_, List.getElem?_eq_getElem (by rw [hi.clen]; exact hx)⟩
  have m0 : e0 ∈ L := loopEdges_snd_mem h10
  obtain ⟨o0, ho0⟩ := loopEdges_of_fst m0
  have m00 := loopEdges_snd_mem ho0
  have ho0' := hi.loop.next _ ho0
  obtain ⟨o00, ho00⟩ := loopEdges_of_fst m00
  have ho00' := hi.loop.next _ ho00
  have ho1' := hi.loop.next _ h10
  obtain ⟨o2, ho2'⟩ := hrd e2 ha.l2
  have l0 := ha.l0; have l1 := ha.l1; have l2 := ha.l2
  have l00 : o0 < dr := by rw [← hi.clen]; exact hi.loop.lt m00
  have hcl := hi.clen
  simp only [rd_eq_ok.mpr ho0', rd_eq_ok.mpr ho1', rd_eq_ok.mpr ho2', rd_eq_ok.mpr ho00', bind_ok]
  rw [wr_ok (by omega), bind_ok, wr_ok (by simp; omega), bind_ok]
  by_cases h2 : e2 ∈ L
  · rw [bDup_insert hi.loop hi.clen hdr h10 h2 ha.n20 (Ne.symm ha.n12), bind_ok, if_pos rfl,
      wr_ok (by simp; omega), bind_ok, wr_ok (by simp; omega), bind_ok, wr_ok (by simp; omega),
      bind_ok, wr_ok (by simp; omega), bind_ok, restore_eq ho0' ho1' ho2' ho00']
    obtain ⟨st', h1, h3, h4, h5⟩ := bReject_spec hi hR hjs
      (fun t' ht' => by rw [ht] at ht'; cases ht'; exact hrej h2) st.cycle rfl e2 h2
    exact ⟨st', L, by rw [h1]; rfl, h3, Or.inl ⟨h4, h5⟩⟩
  · obtain ⟨h1, L', hL'⟩ := merge_one hdr hi hjlt ht hr hv h10 h21 h02 h2 cr hcr
    rw [h1]
    exact ⟨_, L', rfl, hL', Or.inr ⟨rfl, hcr⟩⟩

omit hR hjs in
theorem body_two (h10 : (e1, e0) ∉ loopEdges L) (h21 : (e2, e1) ∈ loopEdges L)
    (h02 : (e0, e2) ∈ loopEdges L) :
    ∃ st' L', (do
      let old0 ← rd st.cycle e0
      let old1 ← rd st.cycle e1
      let old2 ← rd st.cycle e2
      let old00 ← rd st.cycle old0
      let h ← rd st.cycle e0
      let c ← wr st.cycle h bUndefined
      let c ← wr c e0 e1
      let dup ← bDup c dr 257 0
      if dup = true then do
        let c ← wr c e0 old0
        let c ← wr c e1 old1
        let c ← wr c e2 old2
        let c ← wr c old0 old00
        let st ← bReject { cycle := c, head := e0, R := st.R, j := st.j, swapj := st.swapj }
        Except.ok (BStep.next st)
      else Except.ok (BStep.next
        { cycle := c, head := e0, R := st.R, j := st.j + 1, swapj := cr })) =
        (Except.ok (BStep.next st') : M BStep) ∧ BInv dr rsize R0 st' L' ∧ BNext rsize st st' := by
  have ha := AddTri.mk' hr hv
  have hrd : ∀ x, x < dr → ∃ y, st.cycle[x]? = some y := fun x hx =>
    ⟨_, List.getElem?_eq_getElem (by rw [hi.clen]; exact hx)⟩
  obtain ⟨o1, ho1'⟩ := hrd e1 ha.l1
  have ho0' := hi.loop.next _ h02
  have ho2' := hi.loop.next _ h21
  have l0 := ha.l0; have l1 := ha.l1; have l2 := ha.l2
  have hcl := hi.clen
  simp only [rd_eq_ok.mpr ho0', rd_eq_ok.mpr ho1', rd_eq_ok.mpr ho2', bind_ok]
  rw [wr_ok (by omega), bind_ok, wr_ok (by simp; omega), bind_ok]
  obtain ⟨h1, L', hL'⟩ := merge_two hdr hi hjlt ht hr hv h02 h21 h10 cr hcr
  rw [h1]
  exact ⟨_, L', rfl, hL', Or.inr ⟨rfl, hcr⟩⟩

omit hR hjs in
theorem body_three (h10 : (e1, e0) ∈ loopEdges L) (h21 : (e2, e1) ∈ loopEdges L)
    (h02 : (e0, e2) ∈ loopEdges L) :
    ∃ st' L', (do
      let old0 ← rd st.cycle e0
      let old1 ← rd st.cycle e1
      let old2 ← rd st.cycle e2
      let old00 ← rd st.cycle old0
      let dup ← bDup st.cycle dr 257 0
      if dup = true then do
        let c ← wr st.cycle e0 old0
        let c ← wr c e1 old1
        let c ← wr c e2 old2
        let c ← wr c old0 old00
        let st ← bReject { cycle := c, head := st.head, R := st.R, j := st.j, swapj := st.swapj }
        Except.ok (BStep.next st)
      else Except.ok (BStep.next
        { cycle := st.cycle, head := st.head, R := st.R, j := st.j + 1, swapj := cr })) =
        (Except.ok (BStep.next st') : M BStep) ∧ BInv dr rsize R0 st' L' ∧ BNext rsize st st' := by
  have ho0' := hi.loop.next _ h02
  have ho1' := hi.loop.next _ h10
  have ho2' := hi.loop.next _ h21
  simp only [rd_eq_ok.mpr ho0', rd_eq_ok.mpr ho1', rd_eq_ok.mpr ho2', bind_ok]
  rw [bDup_loop hi.loop hi.clen hdr]
  exact ⟨_, L, rfl, merge_three hi hjlt ht hr hv h02 h21 h10 cr hcr, Or.inr ⟨rfl, hcr⟩⟩

end

theorem bBody_spec {dr rsize : Nat} {R0 : List Tri} {st : BState} {L : List Nat}
    (cw : Nat → Nat) (hcw : ∀ n, n ≤ rsize + 1 → cw n = n) (hdr : dr ≤ 255)
    (hR : rsize ≤ R0.length) (hv : ValidTris dr (R0.take rsize)) (hi : BInv dr rsize R0 st L)
    (hjlt : st.j < rsize) :
    (st.j = st.swapj ∧ bBody cw dr rsize st = .ok (.ret .unreachable st)) ∨
    ∃ st' L', bBody cw dr rsize st = .ok (.next st') ∧ BInv dr rsize R0 st' L' ∧
      BNext rsize st st' := by
  have hlen := hi.sift.len
  obtain ⟨t, ht⟩ : ∃ t, st.R[st.j]? = some t :=
    ⟨_, List.getElem?_eq_getElem (by omega : st.j < st.R.length)⟩
  have hvs := hv.perm hi.sift.take_perm
  have hvj : ValidTris dr (st.R.take st.j ++ [t]) := by
    rw [← take_succ_of ht]
    have hsl := nodup_take (a := st.R) (show st.j + 1 ≤ rsize by omega)
    exact ⟨fun u hu => hvs.tri u (hsl.subset hu), hvs.nodup.sublist (triEdges_sublist hsl)⟩
  have htv := hvj.tri t (by simp)
  have hll := hi.llen
  have hedge : ∀ a b, bEdge cw st.cycle st.head a b rsize
      = .ok (some (decide ((b, a) ∈ loopEdges L))) := fun a b =>
    bEdge_spec cw hi.loop st.head a b rsize hcw hi.head (by omega)
  unfold bBody
  simp only [rd_eq_ok.mpr ht, bind_ok, hedge, Tri.get, Nat.reduceMod, pure_eq_ok]
  by_cases hjs : st.j = st.swapj
  · left; exact ⟨hjs, by rw [if_pos hjs]⟩
  right
  have hjs' : st.j < st.swapj := by have := hi.js; omega
  rw [if_neg hjs]
  have hcr : cw rsize = rsize := hcw _ (by omega)
  have rej1 : ∀ e0 e1 e2, RotOf t e0 e1 e2 → (e1, e0) ∈ loopEdges L → (e2, e1) ∉ loopEdges L →
      (e0, e2) ∉ loopEdges L → e2 ∈ L → Rejects L t := by
    rintro e0 e1 e2 hr h10 h21 h02 h2 f0 f1 f2 hr' hf
    obtain ⟨q1, q2, q3, q4, q5, q6⟩ := htv
    rcases hr with ⟨rfl, rfl, rfl⟩ | ⟨rfl, rfl, rfl⟩ | ⟨rfl, rfl, rfl⟩ <;>
      rcases hr' with ⟨rfl, rfl, rfl⟩ | ⟨rfl, rfl, rfl⟩ | ⟨rfl, rfl, rfl⟩ <;>
      first
        | exact ⟨h2, h21, h02⟩
        | exact absurd hf h21
        | exact absurd hf h02
  by_cases s0 : (t.b, t.a) ∈ loopEdges L <;> by_cases s1 : (t.c, t.b) ∈ loopEdges L <;>
    by_cases s2 : (t.a, t.c) ∈ loopEdges L <;>
    simp only [s0, s1, s2, decide_true, decide_false, vbyte, if_true, if_false, Nat.reduceAdd,
      nsharedEdges, sharedPosition, Bool.false_eq_true, Nat.reduceEqDiff, Nat.reduceMod]
  · exact body_three hdr hi hjlt ht (Or.inl ⟨rfl, rfl, rfl⟩) hvj hcr s0 s1 s2
  · exact body_two hdr hi hjlt ht (Or.inr (Or.inr ⟨rfl, rfl, rfl⟩)) hvj hcr s2 s0 s1
  · exact body_two hdr hi hjlt ht (Or.inr (Or.inl ⟨rfl, rfl, rfl⟩)) hvj hcr s1 s2 s0
  · exact body_one hdr hR hi hjlt hjs' ht (Or.inl ⟨rfl, rfl, rfl⟩) hvj hcr s0 s1 s2
      (rej1 _ _ _ (Or.inl ⟨rfl, rfl, rfl⟩) s0 s1 s2)
  · exact body_two hdr hi hjlt ht (Or.inl ⟨rfl, rfl, rfl⟩) hvj hcr s0 s1 s2
  · exact body_one hdr hR hi hjlt hjs' ht (Or.inr (Or.inl ⟨rfl, rfl, rfl⟩)) hvj hcr s1 s2 s0
      (rej1 _ _ _ (Or.inr (Or.inl ⟨rfl, rfl, rfl⟩)) s1 s2 s0)
  · exact body_one hdr hR hi hjlt hjs' ht (Or.inr (Or.inr ⟨rfl, rfl, rfl⟩)) hvj hcr s2 s0 s1
      (rej1 _ _ _ (Or.inr (Or.inr ⟨rfl, rfl, rfl⟩)) s2 s0 s1)
  · obtain ⟨st', h1, h3, h4, h5⟩ := bReject_spec hi hR hjs'
      (fun t' ht' => by
        rw [ht] at ht'; cases ht'
        rintro f0 f1 f2 (⟨rfl, rfl, rfl⟩ | ⟨rfl, rfl, rfl⟩ | ⟨rfl, rfl, rfl⟩) hf
        · exact absurd hf s0
        · exact absurd hf s1
        · exact absurd hf s2) st.cycle rfl st.head hi.head
    exact ⟨st', L, by rw [show ({ st with cycle := st.cycle, head := st.head } : BState) = st from rfl] at h1; rw [h1]; rfl, h3, Or.inl ⟨h4, h5⟩⟩

/-- what the loop over the triangles returns -/
theorem bLoop_spec {dr rsize : Nat} {R0 : List Tri} (cw : Nat → Nat)
    (hcw : ∀ n, n ≤ rsize + 1 → cw n = n) (hdr : dr ≤ 255)
    (hR : rsize ≤ R0.length) (hv : ValidTris dr (R0.take rsize)) :
    ∀ (fuel : Nat) (st : BState) (L : List Nat), BInv dr rsize R0 st L →
      (rsize - st.j) * (rsize + 1) + st.swapj < fuel →
      ∃ b st' L', bLoop cw dr rsize fuel st = .ok (b, st') ∧ BInv dr rsize R0 st' L' ∧
        ((b = .success ∧ st'.j = rsize) ∨
         (b = .unreachable ∧ st'.j < rsize ∧ st'.j = st'.swapj)) := by
  intro fuel
  induction fuel with
  | zero => intro st L _ h; omega
  | succ fuel ih =>
    intro st L hi hf
    unfold bLoop
    by_cases hj : st.j < rsize
    · rw [if_pos hj]
      rcases bBody_spec cw hcw hdr hR hv hi hj with ⟨h1, h2⟩ | ⟨st1, L1, h1, h2, h3⟩
      · rw [h2]
        exact ⟨_, _, L, rfl, hi, Or.inr ⟨rfl, hj, h1⟩⟩
      · rw [h1]
        simp only [bind_ok]
        refine ih st1 L1 h2 ?_
        rcases h3 with ⟨h4, h5⟩ | ⟨h4, h5⟩
        · rw [h4]; omega
        · rw [h4, h5]
          have e : (rsize - st.j) * (rsize + 1) = (rsize - (st.j + 1)) * (rsize + 1) + (rsize + 1) := by
            obtain ⟨d, hd⟩ : ∃ d, rsize - st.j = d + 1 := ⟨rsize - st.j - 1, by omega⟩
            rw [hd, show rsize - (st.j + 1) = d by omega, Nat.add_mul, Nat.one_mul]
          omega
    · rw [if_neg hj]
      exact ⟨_, _, L, rfl, hi, Or.inl ⟨rfl, by have := hi.jr; omega⟩⟩

theorem bInit_inv {c : List Nat} {dr rsize : Nat} {R : List Tri} (hc : c.length = dr)
    (hu : ∀ x ∈ c, x = bUndefined) (h1 : 1 ≤ rsize) (hR : rsize ≤ R.length)
    (hv : ValidTris dr (R.take rsize)) :
    ∃ t c', R[0]? = some t ∧ bInit c t = .ok (c', t.c) ∧
      BInv dr rsize R { cycle := c', head := t.c, R := R, j := 1, swapj := rsize } [t.a, t.b, t.c] := by
  obtain ⟨t, ht⟩ : ∃ t, R[0]? = some t := ⟨_, List.getElem?_eq_getElem (by omega : 0 < R.length)⟩
  have htk : R.take 1 = [t] := by
    cases R with
    | nil => simp at ht
    | cons x R => simp at ht; simp [ht]
  have htm : t ∈ R.take rsize := (nodup_take h1).subset (by rw [htk]; simp)
  obtain ⟨q1, q2, q3, q4, q5, q6⟩ := hv.tri t htm
  refine ⟨t, ((c.set t.a t.b).set t.b t.c).set t.c t.a, ht, ?_, ?_⟩
  · unfold bInit
    rw [wr_ok (by omega), bind_ok, wr_ok (by simp; omega), bind_ok, wr_ok (by simp; omega)]
    rfl
  · refine ⟨by simpa using hc, ⟨?_, by simp, ?_, ?_⟩, by simp, Sift.refl _ _, by simp, h1, h1,
      Nat.le_refl _, by simp, ?_, ?_, fun m t h1 h2 _ => absurd h1 (by simp only; omega)⟩
    · simp; omega
    · intro e he
      simp only [loopEdges, List.cons_append, List.nil_append, pathEdges, List.mem_cons,
        List.not_mem_nil, or_false] at he
      rcases he with rfl | rfl | rfl <;> simp only [List.getElem?_set, List.length_set] <;> grind
    · intro v hv' hvL
      simp only [List.length_set] at hv'
      simp only [List.mem_cons, List.not_mem_nil, or_false, not_or] at hvL
      rw [List.getElem?_set_ne (Ne.symm hvL.2.2), List.getElem?_set_ne (Ne.symm hvL.2.1),
        List.getElem?_set_ne (Ne.symm hvL.1), List.getElem?_eq_getElem hv']
      exact congrArg some (hu _ (List.getElem_mem hv'))
    · intro e he
      simp only [htk, triEdges_singleton]
      simpa [loopEdges, pathEdges, Tri.edges] using he
    · left
      intro e
      simp only [htk, Unmatched, triEdges_singleton]
      have : e ∈ loopEdges [t.a, t.b, t.c] ↔ e ∈ t.edges := by
        simp [loopEdges, pathEdges, Tri.edges]
      rw [this]
      refine ⟨fun he => ⟨he, ?_⟩, fun h => h.1⟩
      obtain ⟨u, v⟩ := e
      simp only [Tri.edges, List.mem_cons, Prod.mk.injEq, List.not_mem_nil, or_false] at he ⊢
      omega

/-- `boundary::compute` for the CPU (`cw = id`) -/
theorem bCompute_inv {c : List Nat} {dr rsize : Nat} {R : List Tri} (hc : c.length = dr)
    (hu : ∀ x ∈ c, x = bUndefined) (hdr : dr ≤ 255) (h1 : 1 ≤ rsize) (hR : rsize ≤ R.length)
    (hv : ValidTris dr (R.take rsize)) :
    ∃ b st L, bCompute c dr R rsize = .ok (b, st) ∧ BInv dr rsize R st L ∧
        ((b = .success ∧ st.j = rsize) ∨ (b = .unreachable ∧ st.j < rsize ∧ st.j = st.swapj)) := by
  obtain ⟨t, c', ht, hi, hinv⟩ := bInit_inv hc hu h1 hR hv
  unfold bCompute
  rw [rd_eq_ok.mpr ht]
  simp only [bind_ok, hi]
  refine bLoop_spec id (fun _ _ => rfl) hdr hR hv _ _ _ hinv ?_
  simp only [bFuel]
  have : (rsize - 1) * (rsize + 1) ≤ (rsize + 1) * (rsize + 1) := Nat.mul_le_mul_right _ (by omega)
  have e : (rsize + 2) * (rsize + 2) = (rsize + 1) * (rsize + 1) + 2 * rsize + 3 := by grind
  omega

end Votess
