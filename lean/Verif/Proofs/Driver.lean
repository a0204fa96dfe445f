import Verif.Proofs.Frame
import Verif.Props.Cell
import Verif.Spec.Driver
/-!
The CPU driver: what threads, chunks and stale work buffers leave behind.  Any arithmetic.
-/
set_option linter.unusedSectionVars false
namespace Votess

open FP

variable {F D : Type} [FP F D]

/-- requirements for the computation of every cell: sizes in range, and a neighbour search that
returns valid ids -/
structure Ready (S : Sorted F) (gr : Int) (a : CCArgs) : Prop where
  pm6 : 6 ≤ a.pm
  pm255 : a.pm ≤ 255
  tm8 : 8 ≤ a.tm
  tm : a.tm < 32768
  k : a.k < 65536
  knn : ∀ index, index < S.xyz.length → ∃ row,
    knnCompute S.xyz S.id S.offset (index : Nat) a.k gr (List.replicate a.k ((0 : Int), dinf F)) = .ok row ∧
      row.length = a.k ∧ ∀ e ∈ row, 0 ≤ e.1 ∧ e.1 < S.xyz.length

/-- rows of the right sizes -/
structure WF (a : CCArgs) (rows : Nat) (b : Bufs F D) : Prop where
  hlen : b.heap.length = rows
  heap : ∀ r ∈ b.heap, r.length = a.k
  dklen : b.dknn.length = rows
  dknn : ∀ r ∈ b.dknn, r.length = a.k
  plen : b.P.length = rows
  P : ∀ r ∈ b.P, r.length = a.pm
  tlen : b.T.length = rows
  T : ∀ r ∈ b.T, r.length = a.tm
  dlen : b.dR.length = rows
  dR : ∀ r ∈ b.dR, r.length = a.pm

theorem mem_set_length {α : Type} {l : List (List α)} {i n : Nat} {x : List α}
    (h : ∀ r ∈ l, r.length = n) (hx : x.length = n) : ∀ r ∈ l.set i x, r.length = n := by
  intro r hr
  rcases List.mem_or_eq_of_mem_set hr with h' | rfl
  · exact h r h'
  · exact hx

theorem WF.alloc (a : CCArgs) (rows : Nat) : WF a rows (Bufs.alloc rows a.k a.pm a.tm : Bufs F D) := by
  constructor <;> simp [Bufs.alloc]

theorem WF.refill {a : CCArgs} {rows : Nat} {b : Bufs F D} (h : WF a rows b) : WF a rows b.refill := by
  refine ⟨?_, ?_, ?_, ?_, h.plen, h.P, h.tlen, h.T, h.dlen, h.dR⟩
  · simpa [Bufs.refill] using h.hlen
  · intro r hr
    simp only [Bufs.refill, List.mem_map] at hr
    obtain ⟨r', h1, rfl⟩ := hr
    simpa using h.heap r' h1
  · simpa [Bufs.refill] using h.dklen
  · intro r hr
    simp only [Bufs.refill, List.mem_map] at hr
    obtain ⟨r', h1, rfl⟩ := hr
    simpa using h.dknn r' h1

/-- row `idx` is as initialised -/
def FreshHeap (a : CCArgs) (b : Bufs F D) (idx : Nat) : Prop :=
  b.heap[idx]? = some (List.replicate a.k ((0 : Int), dinf F)) ∧
    b.dknn[idx]? = some (List.replicate a.k kUndefined)

theorem map_const_eq {α β : Type} (l : List α) (b : β) : (l.map fun _ => b) = List.replicate l.length b := by
  induction l with
  | nil => rfl
  | cons x l ih => simp [List.replicate_succ, ih]

theorem FreshHeap.alloc (a : CCArgs) (rows idx : Nat) (h : idx < rows) :
    FreshHeap a (Bufs.alloc rows a.k a.pm a.tm : Bufs F D) idx := by
  simp [FreshHeap, Bufs.alloc, h]

theorem FreshHeap.refill {a : CCArgs} {rows : Nat} {b : Bufs F D} (h : WF a rows b) (idx : Nat)
    (hi : idx < rows) : FreshHeap a b.refill idx := by
  have h1 := h.hlen; have h2 := h.dklen
  have e1 := h.heap b.heap[idx] (List.getElem_mem (by omega))
  have e2 := h.dknn b.dknn[idx] (List.getElem_mem (by omega))
  constructor
  · simp only [Bufs.refill, List.getElem?_map, map_const_eq]
    rw [List.getElem?_eq_getElem (by omega)]
    simp [e1]
  · simp only [Bufs.refill, List.getElem?_map, map_const_eq]
    rw [List.getElem?_eq_getElem (by omega)]
    simp [e2]

/-- the solo computation succeeds -/
theorem Ready.solo {S : Sorted F} {gr : Int} {a : CCArgs} (h : Ready S gr a) {index : Nat}
    (hi : index < S.xyz.length) {row : List (Int × D)}
    (hrow : knnCompute S.xyz S.id S.offset (index : Nat) a.k gr (List.replicate a.k ((0 : Int), dinf F)) = .ok row)
    (st : State) {P : List (Plane F)} {T : List Tri} {dR : List Nat} (hP : P.length = a.pm)
    (hT : T.length = a.tm) (hd : dR.length = a.pm) :
    ∃ o, ccCompute a S.xyz index st P T dR (row.map (·.1)) (List.replicate a.k kUndefined) = .ok o ∧
      soloCell S gr a index = .ok (soloOf S gr a index) ∧
      o.knn = (soloOf S gr a index).1 ∧ StSub st (stateOf S gr a index) o.s.state ∧ Sizes a o.s ∧
      o.knn.length = a.k := by
  obtain ⟨row', e1, e2, e3⟩ := h.knn index hi
  rw [hrow] at e1; cases e1
  have hin : CellInput a S.xyz index
      (List.replicate a.pm ⟨ofInt 0, ofInt 0, ofInt 0, ofInt 0⟩)
      (List.replicate a.tm ⟨0, 0, 0⟩) (List.replicate a.pm 0) (row.map (·.1))
      (List.replicate a.k kUndefined) :=
    ⟨h.pm6, h.pm255, h.tm8, h.tm, h.k, by omega, by
      intro v hv
      obtain ⟨e, h1, rfl⟩ := List.mem_map.mp hv
      exact e3 e h1, by simpa using e2, by simp, by simp, by simp, by simp⟩
  have hpre := hin.pre
  obtain ⟨p, hp⟩ := hpre.self
  obtain ⟨o1, o2, f1, f2, f3, f4, f5⟩ := ccCompute_rel (P2 := P) (T2 := T) (dR2 := dR) st hpre.ctx
    hpre.fits hpre.pm6 hpre.tm8 hp hin.plen hP hin.tlen hT hin.dlen hd hin.dklen
  obtain ⟨o', g1, -, -, -, -, g2⟩ := C21_cell_safe hin
  rw [g1] at f1; cases f1
  have hs : soloCell S gr a index = .ok (o1.knn, o1.s.state) := by
    unfold soloCell
    simp [hrow, g1]
  have hc : soloOf S gr a index = (o1.knn, o1.s.state) := by
    unfold soloOf; rw [hs]
  refine ⟨o2, f2, by rw [hc, hs], by rw [hc, ← f3], ?_, f5, ?_⟩
  · unfold stateOf; rw [hc]; exact f4
  · rw [← f3, g2, List.length_map, e2]

/-- one task -/
theorem runTask_spec {S : Sorted F} {gr : Int} {a : CCArgs} (h : Ready S gr a) {indices : List Int}
    {rows idx index : Nat} {b : Bufs F D} {states : List State} {st : State} (hw : WF a rows b)
    (hidx : idx < rows) (hf : FreshHeap a b idx) (hx : indices[idx]? = some (index : Int))
    (hi : index < S.xyz.length) (hst : states[index]? = some st)
    (hgood : st = .init ∨ st = stateOf S gr a index) :
    ∃ b' hrow dk P T dR, runTask S gr a indices idx (b, states)
        = .ok (b', states.set index (stateOf S gr a index)) ∧
      b' = { heap := b.heap.set idx hrow, dknn := b.dknn.set idx dk, P := b.P.set idx P,
             T := b.T.set idx T, dR := b.dR.set idx dR } ∧
      hrow.map (·.1) = (soloOf S gr a index).1 ∧ WF a rows b' := by
  obtain ⟨row, e1, e2, e3⟩ := h.knn index hi
  have hP : ∃ P, b.P[idx]? = some P ∧ P.length = a.pm := by
    have := hw.plen
    exact ⟨b.P[idx], List.getElem?_eq_getElem (by omega), hw.P _ (List.getElem_mem _)⟩
  have hT : ∃ T, b.T[idx]? = some T ∧ T.length = a.tm := by
    have := hw.tlen
    exact ⟨b.T[idx], List.getElem?_eq_getElem (by omega), hw.T _ (List.getElem_mem _)⟩
  have hd : ∃ dR, b.dR[idx]? = some dR ∧ dR.length = a.pm := by
    have := hw.dlen
    exact ⟨b.dR[idx], List.getElem?_eq_getElem (by omega), hw.dR _ (List.getElem_mem _)⟩
  obtain ⟨P, hP1, hP2⟩ := hP
  obtain ⟨T, hT1, hT2⟩ := hT
  obtain ⟨dR, hd1, hd2⟩ := hd
  obtain ⟨o, f1, f2, f3, f4, f5, f6⟩ := h.solo hi e1 st hP2 hT2 hd2
  have hsl : index < states.length := (List.getElem?_eq_some_iff.mp hst).1
  have hstate : o.s.state = stateOf S gr a index := by
    rcases hgood with rfl | rfl
    · exact (StSub.eq_of_init f4).symm
    · exact (StSub.eq_of_self f4).symm
  have l1 := hw.hlen; have l2 := hw.dklen; have l3 := hw.plen; have l4 := hw.tlen; have l5 := hw.dlen
  have hz : (o.knn.zip (row.map (·.2))).map (·.1) = (soloOf S gr a index).1 := by
    rw [← f3]
    apply List.map_fst_zip
    rw [List.length_map, e2, f6]
  refine ⟨_, o.knn.zip (row.map (·.2)), o.s.dknn, o.s.P, o.s.T, o.s.dR, ?_, rfl, hz, ?_⟩
  · unfold runTask
    simp only [rd_eq_ok.mpr hx, rd_eq_ok.mpr hf.1, bind_ok, e1, rdI_natCast, rd_eq_ok.mpr hst,
      rd_eq_ok.mpr hP1, rd_eq_ok.mpr hT1, rd_eq_ok.mpr hd1, rd_eq_ok.mpr hf.2, f1, wrI_natCast]
    rw [wr_ok (by omega : idx < b.heap.length), wr_ok (by omega : idx < b.dknn.length),
      wr_ok (by omega : idx < b.P.length), wr_ok (by omega : idx < b.T.length),
      wr_ok (by omega : idx < b.dR.length), wr_ok hsl]
    simp only [bind_ok, pure_eq_ok, hstate]
  · refine ⟨by simpa using l1, ?_, by simpa using l2, ?_, by simpa using l3, ?_, by simpa using l4,
      ?_, by simpa using l5, ?_⟩
    · exact mem_set_length hw.heap (by simp [f6, e2])
    · exact mem_set_length hw.dknn f5.klen
    · exact mem_set_length hw.P f5.plen
    · exact mem_set_length hw.T f5.tlen
    · exact mem_set_length hw.dR f5.dlen

/-- all states are either untouched or final -/
def Good (S : Sorted F) (gr : Int) (a : CCArgs) (states : List State) : Prop :=
  states.length = S.xyz.length ∧
    ∀ (i : Nat) st, states[i]? = some st → st = .init ∨ st = stateOf S gr a i

theorem Good.set {S : Sorted F} {gr : Int} {a : CCArgs} {states : List State} (h : Good S gr a states)
    (i : Nat) : Good S gr a (states.set i (stateOf S gr a i)) := by
  refine ⟨by simpa using h.1, fun j st hj => ?_⟩
  rw [List.getElem?_set] at hj
  split at hj
  · rename_i e
    subst e
    split at hj
    · cases hj; exact Or.inr rfl
    · cases hj
  · exact h.2 j st hj

/-- all tasks of one run, in the order of `l` -/
theorem tasks_spec {S : Sorted F} {gr : Int} {a : CCArgs} (h : Ready S gr a) {indices : List Int}
    {rows : Nat} {ixs : List Nat} (hix : indices = ixs.map (fun i : Nat => (i : Int)))
    (hil : ixs.length = rows) (hin : ∀ i ∈ ixs, i < S.xyz.length) {l : List Nat} (hl : l.Nodup)
    (hlr : ∀ idx ∈ l, idx < rows) {b : Bufs F D} (hw : WF a rows b)
    (hf : ∀ idx, idx < rows → FreshHeap a b idx) {states : List State} (hs : Good S gr a states) :
    ∃ b' states', l.foldlM (fun st idx => runTask S gr a indices idx st) (b, states)
        = .ok (b', states') ∧ WF a rows b' ∧
      (∀ idx index, idx ∈ l → ixs[idx]? = some index → ∃ hrow, b'.heap[idx]? = some hrow ∧
        hrow.map (·.1) = (soloOf S gr a index).1) ∧
      Good S gr a states' ∧
      (∀ idx index, idx ∈ l → ixs[idx]? = some index →
        states'[index]? = some (stateOf S gr a index)) ∧
      ∀ j : Nat, (∀ idx ∈ l, ixs[idx]? ≠ some j) ∨ states[j]? = some (stateOf S gr a j) →
        states'[j]? = states[j]? := by
  subst hix
  obtain ⟨⟨b', states'⟩, h1, h2, h3, h4, h5, h6, h7⟩ := foldlM_inv
    (fun (done : List Nat) (st : Bufs F D × List State) => WF a rows st.1 ∧
      (∀ idx, idx < rows → idx ∉ done → FreshHeap a st.1 idx) ∧
      (∀ idx index, idx ∈ done → ixs[idx]? = some index → ∃ hrow, st.1.heap[idx]? = some hrow ∧
        hrow.map (·.1) = (soloOf S gr a index).1) ∧
      Good S gr a st.2 ∧
      (∀ idx index, idx ∈ done → ixs[idx]? = some index →
        st.2[index]? = some (stateOf S gr a index)) ∧
      ∀ j : Nat, (∀ idx ∈ done, ixs[idx]? ≠ some j) ∨ states[j]? = some (stateOf S gr a j) →
        st.2[j]? = states[j]?)
    l (fun st idx => runTask S gr a (ixs.map (fun i : Nat => (i : Int))) idx st) (b, states)
    ⟨hw, fun idx hi _ => hf idx hi, fun _ _ h => (by cases h), hs, fun _ _ h => (by cases h),
      fun _ _ => rfl⟩ (by
      rintro done idx rest ⟨b1, s1⟩ hsplit ⟨g1, g2, g3, g4, g5, g6⟩
      simp only at g1 g2 g3 g4 g5 g6
      have hidx : idx < rows := hlr idx (by rw [hsplit]; simp)
      have hnd : idx ∉ done := by
        rw [hsplit, List.nodup_append] at hl
        intro hd
        exact hl.2.2 idx hd idx (List.mem_cons_self) rfl
      have hx : ixs[idx]? = some ixs[idx] := List.getElem?_eq_getElem (by omega)
      generalize hxe : ixs[idx] = index at hx
      have hlt : index < S.xyz.length := hin index (List.mem_of_getElem? hx)
      have hst : s1[index]? = some (s1[index]'(by rw [g4.1]; exact hlt)) :=
        List.getElem?_eq_getElem _
      obtain ⟨b', hrow, dk, P, T, dR, r1, r2, r3, r4⟩ := runTask_spec h (indices := ixs.map (fun i : Nat => (i : Int))) g1 hidx
        (g2 idx hidx hnd) (by rw [List.getElem?_map, hx]; rfl) hlt hst (g4.2 _ _ hst)
      refine ⟨_, r1, r4, ?_, ?_, g4.set index, ?_, ?_⟩
      · intro i hi hni
        have hne : idx ≠ i := by rintro rfl; exact hni (by simp)
        have := g2 i hi (fun hd => hni (by simp [hd]))
        simp only [FreshHeap, r2]
        rw [List.getElem?_set_ne hne, List.getElem?_set_ne hne]
        exact this
      · intro i index' hi hx'
        simp only [r2]
        by_cases e : idx = i
        · subst e
          rw [hx] at hx'; cases hx'
          exact ⟨hrow, by rw [List.getElem?_set_self (by have := g1.hlen; omega)], r3⟩
        · rw [List.getElem?_set_ne e]
          refine g3 i index' ?_ hx'
          rcases List.mem_append.mp hi with hi | hi
          · exact hi
          · rw [List.mem_singleton] at hi; exact absurd hi.symm e
      · intro i index' hi hx'
        simp only
        rw [List.getElem?_set]
        by_cases e : index = index'
        · subst e
          simp [g4.1, hlt]
        · rw [if_neg e]
          refine g5 i index' ?_ hx'
          rcases List.mem_append.mp hi with hi | hi
          · exact hi
          · rw [List.mem_singleton] at hi; subst hi
            rw [hx] at hx'; cases hx'; exact absurd rfl e
      · intro j hj
        simp only
        rw [List.getElem?_set]
        by_cases e : index = j
        · subst e
          rcases hj with hj | hj
          · exact absurd hx (hj idx (by simp))
          · simp [g4.1, hlt, hj]
        · rw [if_neg e]
          refine g6 j (hj.imp (fun hj i hi => hj i (by simp [hi])) id))
  exact ⟨b', states', h1, h2, h4, h5, h6, h7⟩

/-! ### the rows of the threads -/

theorem mem_threadRows {nth ts sub i x : Nat} : x ∈ threadRows nth ts sub i ↔
    i * ts ≤ x ∧ x < if i ≠ nth - 1 then i * ts + ts else sub := by
  unfold threadRows
  dsimp only
  generalize (if i ≠ nth - 1 then i * ts + ts else sub) = e
  simp only [List.mem_map, List.mem_range]
  constructor
  · rintro ⟨j, hj, rfl⟩; omega
  · rintro ⟨h1, h2⟩; exact ⟨x - i * ts, by omega, by omega⟩

theorem threadRows_nodup (nth ts sub i : Nat) : (threadRows nth ts sub i).Nodup := by
  unfold threadRows
  exact List.Pairwise.map _ (fun a b h h' => h (by omega)) List.nodup_range

theorem threadRows_disjoint {nth ts sub i j x : Nat} (hij : i < j) (hj : j < nth)
    (h1 : x ∈ threadRows nth ts sub i) (h2 : x ∈ threadRows nth ts sub j) : False := by
  rw [mem_threadRows] at h1 h2
  rw [if_pos (by omega)] at h1
  have h3 : (i + 1) * ts ≤ j * ts := Nat.mul_le_mul_right _ hij
  rw [Nat.add_mul, Nat.one_mul] at h3
  omega

theorem allRows_nodup (nth ts sub : Nat) : (allRows nth ts sub).Nodup := by
  unfold allRows List.Nodup
  rw [List.pairwise_flatMap]
  refine ⟨fun i _ => threadRows_nodup nth ts sub i, ?_⟩
  have : (List.range nth).Pairwise (fun i j => i < j ∧ j < nth) := by
    rw [List.pairwise_iff_getElem]
    intro i j hi hj hij
    simp only [List.getElem_range]
    simp at hj
    exact ⟨hij, hj⟩
  exact this.imp (fun {i j} h x hx y hy e => by
    subst e; exact threadRows_disjoint h.1 h.2 hx hy)

theorem allRows_lt {nth old sub rows x : Nat} (h1 : old ≤ rows) (h2 : sub ≤ rows)
    (hx : x ∈ allRows nth (old / nth) sub) : x < rows := by
  unfold allRows at hx
  obtain ⟨i, hi, hx⟩ := List.mem_flatMap.mp hx
  rw [mem_threadRows] at hx
  split at hx
  · have h3 : (i + 1) * (old / nth) ≤ nth * (old / nth) :=
      Nat.mul_le_mul_right _ (List.mem_range.mp hi)
    have := Nat.mul_div_le old nth
    rw [Nat.add_mul, Nat.one_mul] at h3
    omega
  · omega

theorem allRows_cover {nth ts sub x : Nat} (h : 1 ≤ nth) (hx : x < sub) :
    x ∈ allRows nth ts sub := by
  unfold allRows
  rw [List.mem_flatMap]
  by_cases hlast : (nth - 1) * ts ≤ x
  · exact ⟨nth - 1, by simp; omega, mem_threadRows.mpr ⟨hlast, by simpa using hx⟩⟩
  · have hts : 0 < ts := by
      rcases Nat.eq_zero_or_pos ts with rfl | h
      · simp at hlast
      · exact h
    have hlt : x / ts < nth - 1 := by
      rw [Nat.div_lt_iff_lt_mul hts]; omega
    refine ⟨x / ts, by simp; omega, mem_threadRows.mpr ⟨Nat.div_mul_le_self x ts, ?_⟩⟩
    rw [if_pos (by omega)]
    exact Nat.lt_div_mul_add hts

/-! ### copying the rows -/

theorem tmpnnFill_spec {E : Type} {S : Sorted F} {gr : Int} {a : CCArgs} {ixs : List Nat} {size : Nat}
    {heap : List (List (Int × E))} {tmpnn : List (List Int)} (hsz : size ≤ ixs.length)
    (hin : ∀ i ∈ ixs, i < tmpnn.length)
    (hrow : ∀ idx index, idx < size → ixs[idx]? = some index → ∃ hrow, heap[idx]? = some hrow ∧
        hrow.map (·.1) = (soloOf S gr a index).1) :
    ∃ t', tmpnnFill (ixs.map (fun i : Nat => (i : Int))) size heap tmpnn = .ok t' ∧
      t'.length = tmpnn.length ∧
      (∀ idx index, idx < size → ixs[idx]? = some index → t'[index]? = some (rowOf S gr a index)) ∧
      ∀ j : Nat, (∀ idx, idx < size → ixs[idx]? ≠ some j) → t'[j]? = tmpnn[j]? := by
  unfold tmpnnFill
  exact forN_inv
    (fun i (t : List (List Int)) => t.length = tmpnn.length ∧
      (∀ idx index, idx < i → ixs[idx]? = some index → t[index]? = some (rowOf S gr a index)) ∧
      ∀ j : Nat, (∀ idx, idx < i → ixs[idx]? ≠ some j) → t[j]? = tmpnn[j]?) size
    (fun i tmpnn => do
      let index ← rd (ixs.map (fun i : Nat => (i : Int))) i
      let row ← rd heap i
      wrI tmpnn index (tmpnnRow (row.map (·.1)))) tmpnn
    ⟨rfl, fun _ _ h => by omega, fun _ _ => rfl⟩ (by
      rintro i t hi ⟨g1, g2, g3⟩
      have hx : ixs[i]? = some ixs[i] := List.getElem?_eq_getElem (by omega)
      generalize hxe : ixs[i] = index at hx
      obtain ⟨hr, r1, r2⟩ := hrow i index hi hx
      have hlt : index < t.length := by rw [g1]; exact hin index (List.mem_of_getElem? hx)
      have hx' : (ixs.map (fun i : Nat => (i : Int)))[i]? = some (index : Int) := by
        rw [List.getElem?_map, hx]; rfl
      refine ⟨t.set index (rowOf S gr a index), ?_, by simpa using g1, ?_, ?_⟩
      · rw [rd_eq_ok.mpr hx', bind_ok, rd_eq_ok.mpr r1, bind_ok, wrI_natCast, wr_ok hlt, r2]
        rfl
      · intro idx index' hidx hx''
        rw [List.getElem?_set]
        by_cases e : index = index'
        · subst e; simp [hlt]
        · rw [if_neg e]
          by_cases e2 : idx = i
          · subst e2; rw [hx] at hx''; cases hx''; exact absurd rfl e
          · exact g2 idx index' (by omega) hx''
      · intro j hj
        rw [List.getElem?_set, if_neg (fun e => hj i (by omega) (by rw [hx, e]))]
        exact g3 j (fun idx h => hj idx (by omega)))

/-! ### runs -/

theorem fill_indices (c : Nat) {sub : Nat} {ixs : List Nat} (h : sub ≤ ixs.length) :
    forN sub (fun i ind => wr ind i ((c + i : Nat) : Int)) (ixs.map (fun i : Nat => (i : Int)))
      = .ok (((List.range sub).map (c + ·) ++ ixs.drop sub).map (fun i : Nat => (i : Int))) := by
  obtain ⟨l, h1, h2⟩ := forN_inv
    (fun i l => l = ((List.range i).map (c + ·) ++ ixs.drop i).map (fun i : Nat => (i : Int))) sub
    (fun i ind => wr ind i ((c + i : Nat) : Int)) (ixs.map (fun i : Nat => (i : Int))) (by simp) (by
      intro i l hi hl
      refine ⟨_, wr_ok (by rw [hl]; simp; omega) _, ?_⟩
      have e3 : ixs.drop i = ixs[i] :: ixs.drop (i + 1) := List.drop_eq_getElem_cons (by omega)
      rw [hl, e3, List.map_append, List.set_append, if_neg (by simp), List.range_succ]
      simp only [List.map_cons, List.map_append, List.length_map, List.length_range, Nat.sub_self,
        List.set_cons_zero, List.map_nil, List.append_assoc, List.cons_append,
        List.nil_append])
  rw [h1, h2]

/-- state of the driver when the points below `c` are done -/
structure RunInv (S : Sorted F) (gr : Int) (a : CCArgs) (rows : Nat) (tmpnn0 : List (List Int))
    (states0 : List State) (c : Nat) (r : RunState F D) : Prop where
  wf : WF a rows r.bufs
  good : Good S gr a r.states
  ind : ∃ ixs : List Nat, r.indices = ixs.map (fun i : Nat => (i : Int)) ∧ ixs.length = rows ∧
    ∀ i ∈ ixs, i < S.xyz.length
  tlen : r.tmpnn.length = S.xyz.length
  sub : r.subsize ≤ rows
  done : ∀ j, j < c → r.tmpnn[j]? = some (rowOf S gr a j) ∧ r.states[j]? = some (stateOf S gr a j)
  todo : ∀ j, c ≤ j → r.tmpnn[j]? = tmpnn0[j]?

theorem cpuRun_spec {S : Sorted F} {gr : Int} {a : CCArgs} (h : Ready S gr a) {rows c : Nat}
    {tmpnn0 : List (List Int)} {states0 : List State} {r : RunState F D}
    (hi : RunInv S gr a rows tmpnn0 states0 c r) {nth : Nat} (hn : 1 ≤ nth) (nruns : Nat)
    (chunksize : Int) (run : Nat) {c' : Nat} (hc : ((run : Int) * chunksize).toNat = c)
    (hc' : (if run = nruns - 1 then S.xyz.length else ((c : Int) + chunksize).toNat) = c')
    (hcc : c ≤ c') (hr : c' - c ≤ rows) (hcn : c' ≤ S.xyz.length) :
    ∃ r', cpuRun S gr a nth nruns chunksize run r = .ok r' ∧
      RunInv S gr a rows tmpnn0 states0 c' r' := by
  obtain ⟨ixs, i1, i2, i3⟩ := hi.ind
  have hfill := fill_indices c (sub := c' - c) (ixs := ixs) (by omega)
  generalize hix' : (List.range (c' - c)).map (c + ·) ++ ixs.drop (c' - c) = ixs' at hfill
  have hl' : ixs'.length = rows := by rw [← hix']; simp; omega
  have hin' : ∀ i ∈ ixs', i < S.xyz.length := by
    intro i hi'
    rw [← hix'] at hi'
    rcases List.mem_append.mp hi' with hm | hm
    · simp only [List.mem_map, List.mem_range] at hm
      obtain ⟨j, hj, rfl⟩ := hm
      omega
    · exact i3 i (List.mem_of_mem_drop hm)
  have hget : ∀ idx, idx < c' - c → ixs'[idx]? = some (c + idx) := by
    intro idx hidx
    rw [← hix', List.getElem?_append_left (by simpa using hidx)]
    simp [hidx]
  obtain ⟨b', states', t1, t2, t3, t4, t5, t6⟩ := tasks_spec h
    (indices := ixs'.map (fun i : Nat => (i : Int))) rfl hl' hin'
    (allRows_nodup nth (r.subsize / nth) (c' - c))
    (fun idx hx => allRows_lt hi.sub hr hx) hi.wf.refill
    (fun idx hx => FreshHeap.refill hi.wf idx hx) hi.good
  obtain ⟨tmp', u1, u2, u3, u4⟩ := tmpnnFill_spec (S := S) (gr := gr) (a := a) (ixs := ixs')
    (size := c' - c) (heap := b'.heap) (tmpnn := r.tmpnn) (by omega)
    (fun i hi' => by rw [hi.tlen]; exact hin' i hi')
    (fun idx index hidx hx => t3 idx index (allRows_cover hn hidx) hx)
  refine ⟨⟨b', states', ixs'.map (fun i : Nat => (i : Int)), tmp', c' - c⟩, ?_, t2, t4,
    ⟨ixs', rfl, hl', hin'⟩, by rw [u2, hi.tlen], hr, ?_, ?_⟩
  · unfold cpuRun
    simp only [chunkEnd, chunkStart, hc]
    rw [if_neg (by omega), hc', i1, hfill]
    simp only [bind_ok]
    rw [t1]
    simp only [bind_ok]
    rw [u1]
    rfl
  · intro j hj
    simp only
    by_cases hjc : j < c
    · have hd := hi.done j hjc
      refine ⟨?_, ?_⟩
      · rw [u4 j]
        · exact hd.1
        · intro idx hidx e
          rw [hget idx hidx] at e; cases e; omega
      · rw [t6 j (Or.inr hd.2)]; exact hd.2
    · have hg := hget (j - c) (by omega)
      rw [show c + (j - c) = j by omega] at hg
      exact ⟨u3 (j - c) j (by omega) hg, t5 (j - c) j (allRows_cover hn (by omega)) hg⟩
  · intro j hj
    simp only
    rw [u4 j]
    · exact hi.todo j (by omega)
    · intro idx hidx e
      rw [hget idx hidx] at e; cases e; omega

/-- number of threads used -/
def nthOf (hw : Nat) (prm : Params) : Nat := if prm.nthreads ≠ 0 then prm.nthreads else hw

theorem eq_map_range {α : Type} {l : List α} {n : Nat} {f : Nat → α} (hl : l.length = n)
    (h : ∀ j, j < n → l[j]? = some (f j)) : l = (List.range n).map f := by
  apply List.ext_getElem?
  intro j
  by_cases hj : j < n
  · rw [h j hj]; simp [hj]
  · rw [List.getElem?_eq_none (by omega), List.getElem?_eq_none (by simp; omega)]

/-- `__cpu__tesellate`: whatever the chunks and threads, every point gets the row and the status
it would get on its own -/
theorem cpuTesellate_spec {S : Sorted F} {prm : Params} {a : CCArgs}
    (ha : ccArgs prm.k prm.pm prm.tm = .ok a) (h : Ready S prm.gr a) (hw : Nat)
    (hn : 1 ≤ nthOf hw prm) {tmpnn : List (List Int)} {states : List State}
    (ht : tmpnn.length = S.xyz.length) (hs : Good S prm.gr a states) :
    cpuTesellate hw prm S tmpnn states
      = .ok ((List.range S.xyz.length).map (rowOf S prm.gr a),
             (List.range S.xyz.length).map (stateOf S prm.gr a)) := by
  unfold cpuTesellate
  simp only [ha, bind_ok, chunkRuns, chunkRows]
  generalize hcs : (if prm.useChunking then prm.chunksize else ((S.xyz.length : Int) + 1)) = cs
  by_cases hch : 0 < cs ∧ cs < (S.xyz.length : Int)
  · have e : (decide (0 < cs) && decide (cs < (S.xyz.length : Int))) = true := by simp [hch]
    simp only [e, if_true]
    obtain ⟨m, rfl⟩ : ∃ m : Nat, cs = m := ⟨cs.toNat, by omega⟩
    simp only [Int.toNat_natCast]
    have hm : 0 < m := by omega
    have hdiv : S.xyz.length / m * m ≤ S.xyz.length := Nat.div_mul_le_self _ _
    have hmod : S.xyz.length < S.xyz.length / m * m + m := Nat.lt_div_mul_add hm
    generalize S.xyz.length / m = q at hdiv hmod ⊢
    obtain ⟨r, h1, h2⟩ := forN_inv
      (fun i (r : RunState F D) => RunInv S prm.gr a m tmpnn states
        (if i = q + 1 then S.xyz.length else i * m) r)
      (q + 1)
      (cpuRun S prm.gr a (nthOf hw prm) (q + 1) (m : Int))
      { bufs := Bufs.alloc m a.k a.pm a.tm, states := states,
        indices := List.replicate m 0, tmpnn := tmpnn, subsize := m }
      (by
        rw [if_neg (by omega), Nat.zero_mul]
        refine ⟨WF.alloc a m, hs, ⟨List.replicate m 0, by simp, by simp, ?_⟩, ht, Nat.le_refl _,
          fun j hj => by omega, fun _ _ => rfl⟩
        intro i hi
        rw [List.eq_of_mem_replicate hi]; omega)
      (by
        intro i r hi hr
        rw [if_neg (by omega)] at hr
        have hmul : i * m ≤ q * m := Nat.mul_le_mul_right _ (by omega)
        have hcast : ((i : Int) * (m : Int)).toNat = i * m := by
          rw [← Int.natCast_mul]; rfl
        by_cases hl : i = q
        · rw [if_pos (by omega : i + 1 = q + 1)]
          refine cpuRun_spec h hr hn _ _ i hcast (by rw [if_pos (by omega)]) ?_ ?_ ?_
          · omega
          · subst hl; omega
          · omega
        · have hmul2 : (i + 1) * m ≤ q * m := Nat.mul_le_mul_right _ (by omega)
          rw [Nat.add_mul, Nat.one_mul] at hmul2
          have e2 : (i + 1) * m = i * m + m := by rw [Nat.add_mul, Nat.one_mul]
          rw [if_neg (by omega : ¬ i + 1 = q + 1), e2]
          exact cpuRun_spec h hr hn _ _ i hcast (by rw [if_neg (by omega)]; omega) (by omega)
            (by omega) (by omega))
    rw [if_pos rfl] at h2
    unfold nthOf at h1
    rw [h1]
    simp only [bind_ok, pure_eq_ok]
    rw [eq_map_range h2.tlen (fun j hj => (h2.done j hj).1),
      eq_map_range h2.good.1 (fun j hj => (h2.done j hj).2)]
  · have e : (decide (0 < cs) && decide (cs < (S.xyz.length : Int))) = false := by
      rw [← Bool.not_eq_true]; simpa using hch
    simp only [e, Bool.false_eq_true, if_false]
    rw [forN_succ]
    simp only [forN_zero, bind_ok]
    obtain ⟨r, h1, h2⟩ := cpuRun_spec (rows := S.xyz.length) (c := 0) (c' := S.xyz.length)
      (tmpnn0 := tmpnn) (states0 := states)
      (r := { bufs := Bufs.alloc S.xyz.length a.k a.pm a.tm, states := states,
              indices := List.replicate S.xyz.length 0, tmpnn := tmpnn, subsize := S.xyz.length })
      h (by
        refine ⟨WF.alloc a _, hs, ⟨List.replicate S.xyz.length 0, by simp, by simp, ?_⟩, ht, Nat.le_refl _,
          fun j hj => by omega, fun _ _ => rfl⟩
        intro i hi
        rw [List.mem_replicate] at hi
        omega) hn 1 cs 0 (by simp) (by simp) (by omega) (by omega) (by omega)
    unfold nthOf at h1
    rw [h1]
    simp only [bind_ok, pure_eq_ok]
    rw [eq_map_range h2.tlen (fun j hj => (h2.done j hj).1),
      eq_map_range h2.good.1 (fun j hj => (h2.done j hj).2)]

end Votess
