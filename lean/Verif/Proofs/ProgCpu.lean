import Verif.Proofs.ProgSim
import Verif.Proofs.Driver
/-!
# CPU tasks in the shared memory
-/
set_option linter.unusedSectionVars false

namespace Votess

open FP

variable {F D : Type} [FP F D]

theorem Safe.alloc {E α : Type} {R W : Loc → Prop} {p : Prog F E α} {m m' : Mem F E} {n : Nat}
    {a : α} (h : Safe R W p m n a m') (l : Loc) : m' l = none ↔ m l = none := by
  induction p generalizing m n with
  | ret c => rw [h.2.2]
  | err e => exact h.elim
  | get l k ih =>
    obtain ⟨v, n', e, h1, h2, h3⟩ := h
    exact ih v h3
  | put l' v k ih =>
    obtain ⟨w, n', e, h1, h2, h3⟩ := h
    rw [ih h3]
    unfold Mem.set
    split
    · next e => subst e; simp [h2]
    · rfl

/-- locations written by task `idx` for point `index` -/
def Own (a : CCArgs) (idx index : Nat) : Loc → Prop
  | (.hid, x) => x / a.k = idx
  | (.hpq, x) => x / a.k = idx
  | (.dknn, x) => x / a.k = idx
  | (.P, x) => x / (4 * a.pm) = idx
  | (.T, x) => x / (3 * a.tm) = idx
  | (.dR, x) => x / a.pm = idx
  | (.state, x) => x = index
  | _ => False

/-- the data all tasks read and none writes -/
def Shared : Loc → Prop
  | (.xyz, _) => True
  | (.gid, _) => True
  | (.goff, _) => True
  | (.ind, _) => True
  | _ => False

/-- position inside the row -/
def cpuLocal (a : CCArgs) : Loc → Loc
  | (.hid, x) => (.hid, x % a.k)
  | (.hpq, x) => (.hpq, x % a.k)
  | (.dknn, x) => (.dknn, x % a.k)
  | (.P, x) => (.P, x % (4 * a.pm))
  | (.T, x) => (.T, x % (3 * a.tm))
  | (.dR, x) => (.dR, x % a.pm)
  | (.state, _) => (.state, 0)
  | l => l

theorem Own.lay {a : CCArgs} {idx index : Nat} {l : Loc} (h : Own a idx index l) :
    cpuLay a idx index (cpuLocal a l) = l := by
  obtain ⟨b, x⟩ := l
  cases b <;> simp only [Own] at h <;> try exact h.elim
  all_goals subst h
  all_goals simp only [cpuLocal, cpuLay, Nat.div_add_mod]

theorem Own.writable {a : CCArgs} {idx index : Nat} {l : Loc} (h : Own a idx index l) :
    (cpuLocal a l).1.writable = true := by
  obtain ⟨b, x⟩ := l
  cases b <;> first | rfl | exact h.elim

/-- `r` are the rows of task `idx` for point `index` -/
structure IsRows (a : CCArgs) (S : Sorted F) (b : Bufs F D) (states : List State) (idx index : Nat)
    (r : Rows F D) : Prop where
  heap : b.heap[idx]? = some r.heap
  dknn : b.dknn[idx]? = some r.dknn
  P : b.P[idx]? = some r.P
  T : b.T[idx]? = some r.T
  dR : b.dR[idx]? = some r.dR
  state : states[index]? = some r.state
  xyz : r.xyz = S.xyz
  id : r.id = S.id
  offset : r.offset = S.offset
  lheap : r.heap.length = a.k
  ldknn : r.dknn.length = a.k
  lP : r.P.length = a.pm
  lT : r.T.length = a.tm
  ldR : r.dR.length = a.pm

/-- result without the reason of failure -/
def opt {α : Type} : M α → Option α
  | .ok a => some a
  | .error _ => none

theorem opt_rd {α β : Type} (l : List α) (i : Nat) (f : α → β) :
    opt (rd l i >>= fun x => .ok (f x)) = l[i]?.map f := by
  unfold rd
  cases l[i]? <;> rfl

theorem IsRows.own {a : CCArgs} {S : Sorted F} {b : Bufs F D} {states : List State}
    {idx index : Nat} {r : Rows F D} (h : IsRows a S b states idx index r) (indices : List Int)
    {l : Loc} (ho : Own a idx index l) :
    cpuMem a S indices b states l = opt (rowGet r (cpuLocal a l)) := by
  obtain ⟨bf, x⟩ := l
  cases bf <;> simp only [Own] at ho <;> try exact ho.elim
  · simp only [cpuMem, cpuLocal, rowGet, ho, h.heap, Option.bind_some, opt_rd]
  · simp only [cpuMem, cpuLocal, rowGet, ho, h.heap, Option.bind_some, opt_rd]
  · simp only [cpuMem, cpuLocal, rowGet, ho, h.dknn, Option.bind_some, opt_rd]
  · simp only [cpuMem, cpuLocal, rowGet, ho, h.P, Option.bind_some, opt_rd]
  · simp only [cpuMem, cpuLocal, rowGet, ho, h.T, Option.bind_some, opt_rd]
  · simp only [cpuMem, cpuLocal, rowGet, ho, h.dR, Option.bind_some, opt_rd]
  · simp only [cpuMem, cpuLocal, rowGet, ho, h.state, Option.map_some, opt]

theorem has_rd {α β : Type} {l : List α} {i : Nat} {f : α → β} {v : β}
    (h : (rd l i >>= fun x => (.ok (f x) : M β)) = .ok v) : i < l.length := by
  rw [bind_eq_ok] at h
  obtain ⟨x, hx, _⟩ := h
  exact rd_lt hx

theorem lay_local {w idx m : Nat} (h : m < w) : (w * idx + m) / w = idx ∧ (w * idx + m) % w = m := by
  have hw : 0 < w := by omega
  constructor
  · rw [Nat.mul_add_div hw, Nat.div_eq_of_lt h, Nat.add_zero]
  · rw [Nat.mul_add_mod, Nat.mod_eq_of_lt h]

theorem IsRows.lay {a : CCArgs} {S : Sorted F} {b : Bufs F D} {states : List State}
    {idx index : Nat} {r : Rows F D} (h : IsRows a S b states idx index r) {l : Loc}
    (hl : r.Has l) (hw : l.1.writable = true) :
    Own a idx index (cpuLay a idx index l) ∧ cpuLocal a (cpuLay a idx index l) = l := by
  obtain ⟨v, hv⟩ := hl
  obtain ⟨bf, x⟩ := l
  cases bf <;> try cases hw
  · have hx : x < a.k := h.lheap ▸ has_rd hv
    simp only [Own, cpuLay, cpuLocal, lay_local hx, and_self]
  · have hx : x < a.k := h.lheap ▸ has_rd hv
    simp only [Own, cpuLay, cpuLocal, lay_local hx, and_self]
  · have hx : x < a.k := h.ldknn ▸ has_rd hv
    simp only [Own, cpuLay, cpuLocal, lay_local hx, and_self]
  · have hx : x / 4 < a.pm := h.lP ▸ has_rd hv
    have hx : x < 4 * a.pm := by omega
    simp only [Own, cpuLay, cpuLocal, lay_local hx, and_self]
  · have hx : x / 3 < a.tm := h.lT ▸ has_rd hv
    have hx : x < 3 * a.tm := by omega
    simp only [Own, cpuLay, cpuLocal, lay_local hx, and_self]
  · have hx : x < a.pm := h.ldR ▸ has_rd hv
    simp only [Own, cpuLay, cpuLocal, lay_local hx, and_self]
  · cases x with
    | zero => simp only [Own, cpuLay, cpuLocal, and_self]
    | succ x => cases hv

theorem IsRows.rep {a : CCArgs} {S : Sorted F} {b : Bufs F D} {states : List State}
    {idx index : Nat} {r : Rows F D} (h : IsRows a S b states idx index r) (indices : List Int) :
    Rep (cpuLay a idx index) r (cpuMem a S indices b states) := by
  intro l v hv
  by_cases hw : l.1.writable = true
  · obtain ⟨h1, h2⟩ := h.lay ⟨v, hv⟩ hw
    rw [h.own indices h1, h2, hv]; rfl
  · have e : opt (rowGet r l) = some v := by rw [hv]; rfl
    obtain ⟨bf, x⟩ := l
    cases bf <;> first | exact absurd rfl hw | skip
    · simp only [rowGet, opt_rd] at e
      simp only [cpuLay, cpuMem, ← h.xyz, e]
    · simp only [rowGet, opt_rd] at e
      simp only [cpuLay, cpuMem, ← h.xyz, e]
    · simp only [rowGet, opt_rd] at e
      simp only [cpuLay, cpuMem, ← h.id, e]
    · simp only [rowGet, opt_rd] at e
      simp only [cpuLay, cpuMem, ← h.offset, e]
    · cases hv

/-- what task `idx` may read -/
def Reads (a : CCArgs) (idx index : Nat) (l : Loc) : Prop := Shared l ∨ Own a idx index l

theorem IsRows.reads {a : CCArgs} {S : Sorted F} {b : Bufs F D} {states : List State}
    {idx index : Nat} {r : Rows F D} (h : IsRows a S b states idx index r) {l : Loc}
    (hl : r.Has l) : Reads a idx index (cpuLay a idx index l) := by
  by_cases hw : l.1.writable = true
  · exact .inr (h.lay hl hw).1
  · left
    obtain ⟨bf, x⟩ := l
    cases bf <;> first | exact absurd rfl hw | trivial

theorem IsRows.inj {a : CCArgs} {S : Sorted F} {b : Bufs F D} {states : List State}
    {idx index : Nat} {r : Rows F D} (h : IsRows a S b states idx index r) (l l' : Loc)
    (hl : r.Has l) (hl' : r.Has l') (hw : l.1.writable = true)
    (e : cpuLay a idx index l' = cpuLay a idx index l) : l' = l := by
  have hw' : l'.1.writable = true := by
    obtain ⟨bf, x⟩ := l
    obtain ⟨bf', x'⟩ := l'
    cases bf <;> cases bf' <;> first | rfl | exact Bool.noConfusion hw | (simp [cpuLay] at e)
  rw [← (h.lay hl hw).2, ← (h.lay hl' hw').2, e]

/-- a task program that maps its rows `r` to `r'` maps the memories with these rows to each other -/
theorem task_mem {a : CCArgs} {S : Sorted F} {b b' : Bufs F D} {states states' : List State}
    {idx index : Nat} {r r' : Rows F D} {indices : List Int}
    (h' : IsRows a S b' states' idx index r')
    (hsame : ∀ l, r'.Has l ↔ r.Has l) (h : IsRows a S b states idx index r)
    (hoff : ∀ l, ¬ Own a idx index l →
      cpuMem a S indices b' states' l = cpuMem a S indices b states l)
    {α : Type} {p : Prog F D α} {m' : Mem F D} {n : Nat} {x : α} {R : Loc → Prop}
    (hs : Safe R (Own a idx index) p (cpuMem a S indices b states) n x m')
    (hrep : Rep (cpuLay a idx index) r' m') : m' = cpuMem a S indices b' states' := by
  funext l
  by_cases ho : Own a idx index l
  · rw [h'.own indices ho]
    cases hg : rowGet r' (cpuLocal a l) with
    | ok v =>
      have := hrep _ _ hg
      rw [ho.lay] at this
      rw [this]; rfl
    | error e =>
      show m' l = none
      rw [hs.alloc l, h.own indices ho]
      cases hg' : rowGet r (cpuLocal a l) with
      | error e => rfl
      | ok v =>
        obtain ⟨w, hw⟩ := (hsame _).mpr ⟨v, hg'⟩
        rw [hg] at hw; cases hw
  · rw [hs.frame ho, hoff l ho]

theorem cpuMem_off {a : CCArgs} {S : Sorted F} {indices : List Int} {b : Bufs F D}
    {states : List State} {idx index : Nat} (h : List (Int × D)) (dk : List Int) (P : List (Plane F))
    (T : List Tri) (dR : List Nat) (s : State) (l : Loc) (hl : ¬ Own a idx index l) :
    cpuMem a S indices ⟨b.heap.set idx h, b.dknn.set idx dk, b.P.set idx P, b.T.set idx T,
      b.dR.set idx dR⟩ (states.set index s) l = cpuMem a S indices b states l := by
  obtain ⟨bf, x⟩ := l
  cases bf <;> simp only [Own] at hl <;> try rfl
  all_goals simp only [cpuMem]
  all_goals rw [List.getElem?_set_ne (fun e => hl e.symm)]

theorem Safe.gInt {E : Type} {R W : Loc → Prop} {m : Mem F E} {bf : Buf} {i : Nat} {v : Int}
    (hR : R (bf, i)) (hm : m (bf, i) = some (.int v)) :
    Safe R W (Prog.gInt bf i) m 1 v m :=
  ⟨.int v, 0, rfl, hR, hm, rfl, rfl, rfl⟩

theorem IsRows.length {a : CCArgs} {rows : Nat} {b : Bufs F D} (hw : WF a rows b) {idx : Nat} :
    (∀ r, b.heap[idx]? = some r → r.length = a.k) ∧ (∀ r, b.dknn[idx]? = some r → r.length = a.k) ∧
    (∀ r, b.P[idx]? = some r → r.length = a.pm) ∧ (∀ r, b.T[idx]? = some r → r.length = a.tm) ∧
    (∀ r, b.dR[idx]? = some r → r.length = a.pm) :=
  ⟨fun r h => hw.heap r (List.mem_of_getElem? h), fun r h => hw.dknn r (List.mem_of_getElem? h),
   fun r h => hw.P r (List.mem_of_getElem? h), fun r h => hw.T r (List.mem_of_getElem? h),
   fun r h => hw.dR r (List.mem_of_getElem? h)⟩

theorem has_lt {α β : Type} {l : List α} {i : Nat} {f : α → β} (h : i < l.length) :
    ∃ v, (rd l i >>= fun x => (.ok (f x) : M β)) = .ok v :=
  ⟨f l[i], by rw [rd_ok h]; rfl⟩

theorem length_of_has {α β : Type} {l l' : List α} {f : α → β}
    (h : ∀ i, (∃ v, (rd l' i >>= fun x => (.ok (f x) : M β)) = .ok v) ↔
      ∃ v, (rd l i >>= fun x => (.ok (f x) : M β)) = .ok v) : l'.length = l.length := by
  apply Nat.le_antisymm
  · apply Nat.le_of_not_lt
    intro hlt
    obtain ⟨v, hv⟩ := (h l.length).mp (has_lt hlt)
    exact Nat.lt_irrefl _ (has_rd hv)
  · apply Nat.le_of_not_lt
    intro hlt
    obtain ⟨v, hv⟩ := (h l'.length).mpr (has_lt hlt)
    exact Nat.lt_irrefl _ (has_rd hv)

theorem Rows.lengths {r r' : Rows F D} (h : ∀ l, r'.Has l ↔ r.Has l) :
    r'.heap.length = r.heap.length ∧ r'.dknn.length = r.dknn.length ∧ r'.P.length = r.P.length ∧
      r'.T.length = r.T.length ∧ r'.dR.length = r.dR.length := by
  refine ⟨length_of_has fun i => h (.hid, i), length_of_has fun i => h (.dknn, i), ?_, ?_,
    length_of_has fun i => h (.dR, i)⟩
  · have e (r : Rows F D) (i : Nat) : r.Has (.P, 4 * i) ↔
        ∃ v, (rd r.P i >>= fun x => (.ok (x.ent 0) : M F)) = .ok v := by
      simp only [Rows.Has, rowGet, show 4 * i / 4 = i by omega, show 4 * i % 4 = 0 by omega, bind_eq_ok,
        Except.ok.injEq]
      constructor
      · rintro ⟨_, x, hx, _⟩; exact ⟨_, x, hx, rfl⟩
      · rintro ⟨_, x, hx, _⟩; exact ⟨_, x, hx, rfl⟩
    exact length_of_has (f := fun x => x.ent 0) fun i => by rw [← e, ← e]; exact h (.P, 4 * i)
  · have e (r : Rows F D) (i : Nat) : r.Has (.T, 3 * i) ↔
        ∃ v, (rd r.T i >>= fun x => (.ok (x.ent 0) : M Nat)) = .ok v := by
      simp only [Rows.Has, rowGet, show 3 * i / 3 = i by omega, show 3 * i % 3 = 0 by omega, bind_eq_ok,
        Except.ok.injEq]
      constructor
      · rintro ⟨_, x, hx, _⟩; exact ⟨_, x, hx, rfl⟩
      · rintro ⟨_, x, hx, _⟩; exact ⟨_, x, hx, rfl⟩
    exact length_of_has (f := fun x => x.ent 0) fun i => by rw [← e, ← e]; exact h (.T, 3 * i)

theorem wrI_eq_ok {α : Type} {l l' : List α} {i : Int} {x : α} (h : wrI l i x = .ok l') :
    0 ≤ i ∧ i.toNat < l.length ∧ l' = l.set i.toNat x := by
  unfold wrI at h
  split at h
  · rw [wr_eq_ok] at h
    exact ⟨by assumption, h.1, h.2⟩
  · cases h

/-- one task in the shared memory -/
theorem runTask_safe {S : Sorted F} {gr : Int} {a : CCArgs} {indices : List Int} {idx rows : Nat}
    {b b' : Bufs F D} {states states' : List State} (hw : WF a rows b)
    (h : runTask S gr a indices idx (b, states) = .ok (b', states')) :
    ∃ (index : Nat) (n : Nat), indices[idx]? = some (index : Int) ∧ WF a rows b' ∧
      Safe (Reads a idx index) (Own a idx index) (cpuTaskProg gr a idx)
        (cpuMem a S indices b states) n () (cpuMem a S indices b' states') := by
  unfold runTask at h
  simp only [bind_eq_ok, pure_eq_ok, Except.ok.injEq, Prod.mk.injEq] at h
  obtain ⟨index, hindex, row, hrow, row1, hknn, state, hstate, P, hP, T, hT, dR, hdR, dknn, hdknn,
    o, ho, heap', hheap', dknn', hdknn', P', hP', T', hT', dR', hdR', st', hst', rfl, rfl⟩ := h
  have hpos : 0 ≤ index := (wrI_eq_ok hst').1
  obtain ⟨index, rfl⟩ := Int.eq_ofNat_of_zero_le hpos
  obtain ⟨_, hsl, rfl⟩ := wrI_eq_ok hst'
  rw [wr_eq_ok] at hheap' hdknn' hP' hT' hdR'
  obtain ⟨l1, rfl⟩ := hheap'
  obtain ⟨l2, rfl⟩ := hdknn'
  obtain ⟨l3, rfl⟩ := hP'
  obtain ⟨l4, rfl⟩ := hT'
  obtain ⟨l5, rfl⟩ := hdR'
  rw [rd_eq_ok] at hindex hrow hP hT hdR hdknn
  simp only [rdI_natCast, rd_eq_ok, Int.toNat_natCast] at hstate hsl ⊢
  obtain ⟨w1, w2, w3, w4, w5⟩ := IsRows.length hw (idx := idx)
  -- the rows before, between and after
  let r : Rows F D := ⟨row, dknn, P, T, dR, state, S.xyz, S.id, S.offset⟩
  have hr : IsRows a S b states idx index r :=
    ⟨hrow, hdknn, hP, hT, hdR, hstate, rfl, rfl, rfl, w1 _ hrow, w2 _ hdknn, w3 _ hP, w4 _ hT, w5 _ hdR⟩
  have run1 : rrun (Prog.knnCompute (index : Int) a.k gr) r = .ok ((), { r with heap := row1 }) := by
    rw [knnCompute_run (xyz := S.xyz) (ids := S.id) (offset := S.offset) (index : Int) a.k gr r rfl rfl
      rfl, show knnCompute S.xyz S.id S.offset (index : Int) a.k gr r.heap = .ok row1 from hknn]
    rfl
  obtain ⟨n1, m1, s1, rep1, has1⟩ := sim (R := Reads a idx index) (W := Own a idx index)
    (fun l hl => hr.reads hl) (fun l hl hl' => (hr.lay hl hl').1) hr.inj _ (fun _ => Iff.rfl)
    (hr.rep indices) run1
  have run2 : rrun (Prog.ccCompute id false a (index : Int)) ({ r with heap := row1 } : Rows F D) =
      .ok ((), ccRows { r with heap := row1 } o) :=
    ccCompute_prog (B := max a.tm 8) (fun _ _ => rfl) false index _
      (cellCutsAtMost_tm (by omega) (by omega) _ _ _ _ _ _ _ _) ho
  obtain ⟨n2, m2, s2, rep2, has2⟩ := sim (R := Reads a idx index) (W := Own a idx index)
    (fun l hl => hr.reads hl) (fun l hl hl' => (hr.lay hl hl').1) hr.inj _ has1 rep1 run2
  -- the memory afterwards
  obtain ⟨e1, e2, e3, e4, e5⟩ := Rows.lengths has2
  have hr2 : IsRows a S ⟨b.heap.set idx (o.knn.zip (row1.map (·.2))), b.dknn.set idx o.s.dknn,
      b.P.set idx o.s.P, b.T.set idx o.s.T, b.dR.set idx o.s.dR⟩ (states.set index o.s.state) idx index
      (ccRows { r with heap := row1 } o) :=
    ⟨List.getElem?_set_self l1, List.getElem?_set_self l2, List.getElem?_set_self l3,
     List.getElem?_set_self l4, List.getElem?_set_self l5, List.getElem?_set_self hsl, rfl, rfl, rfl,
     e1.trans hr.lheap, e2.trans hr.ldknn, e3.trans hr.lP, e4.trans hr.lT, e5.trans hr.ldR⟩
  have hind (l : Loc) (hl : Own a idx index l) : l ≠ (.ind, idx) := by
    rintro rfl; exact hl
  have g0 : Safe (Reads a idx index) (Own a idx index) (Prog.gInt .ind idx)
      (cpuMem a S indices b states) 1 (index : Int) (cpuMem a S indices b states) :=
    Safe.gInt (.inl trivial) (by simp only [cpuMem, hindex, Option.map_some])
  have g1 : Safe (Reads a idx index) (Own a idx index) (Prog.gInt .ind idx) m1 1 (index : Int) m1 := by
    refine Safe.gInt (.inl trivial) ?_
    rw [s1.frame (l := (.ind, idx)) (fun h => h)]
    simp only [cpuMem, hindex, Option.map_some]
  have all : Safe (Reads a idx index) (Own a idx index) (cpuTaskProg gr a idx)
      (cpuMem a S indices b states) (1 + (n1 + (1 + n2))) () m2 := by
    unfold cpuTaskProg
    exact g0.bind (s1.bind (g1.bind s2))
  have em := task_mem (indices := indices) hr2 has2 hr (cpuMem_off _ _ _ _ _ _) all rep2
  refine ⟨index, _, hindex, ?_, em ▸ all⟩
  exact ⟨by simpa using hw.hlen, mem_set_length hw.heap hr2.lheap, by simpa using hw.dklen,
    mem_set_length hw.dknn hr2.ldknn, by simpa using hw.plen, mem_set_length hw.P hr2.lP,
    by simpa using hw.tlen, mem_set_length hw.T hr2.lT, by simpa using hw.dlen,
    mem_set_length hw.dR hr2.ldR⟩

/-- what a thread with the tasks `l` may write -/
def OwnAll (a : CCArgs) (indices : List Int) (l : List Nat) (x : Loc) : Prop :=
  ∃ idx ∈ l, ∃ index : Nat, indices[idx]? = some (index : Int) ∧ Own a idx index x

/-- what a thread with the tasks `l` may read -/
def ReadsAll (a : CCArgs) (indices : List Int) (l : List Nat) (x : Loc) : Prop :=
  Shared x ∨ OwnAll a indices l x

/-- one thread in the shared memory -/
theorem thread_safe {S : Sorted F} {gr : Int} {a : CCArgs} {indices : List Int} {rows : Nat}
    (l : List Nat) {b b' : Bufs F D} {states states' : List State} (hw : WF a rows b)
    (h : l.foldlM (fun st idx => runTask S gr a indices idx st) (b, states) = .ok (b', states')) :
    ∃ n, WF a rows b' ∧ Safe (ReadsAll a indices l) (OwnAll a indices l) (cpuThreadProg gr a l)
        (cpuMem a S indices b states) n () (cpuMem a S indices b' states') := by
  suffices hg : ∀ l', (∀ x ∈ l', x ∈ l) → ∀ {b : Bufs F D} {states}, WF a rows b →
      l'.foldlM (fun st idx => runTask S gr a indices idx st) (b, states) = .ok (b', states') →
      ∃ n, WF a rows b' ∧ Safe (ReadsAll a indices l) (OwnAll a indices l) (cpuThreadProg gr a l')
        (cpuMem a S indices b states) n () (cpuMem a S indices b' states') from hg l (fun _ h => h) hw h
  intro l'
  induction l' with
  | nil =>
    intro _ b states hw h
    simp only [List.foldlM_nil, pure_eq_ok, Except.ok.injEq, Prod.mk.injEq] at h
    obtain ⟨rfl, rfl⟩ := h
    exact ⟨0, hw, rfl, rfl, rfl⟩
  | cons idx l' ih =>
    intro hsub b states hw h
    simp only [List.foldlM_cons, bind_eq_ok] at h
    obtain ⟨⟨b1, states1⟩, h1, h2⟩ := h
    obtain ⟨index, n1, hix, hw1, s1⟩ := runTask_safe hw h1
    obtain ⟨n2, hw2, s2⟩ := ih (fun x hx => hsub x (by simp [hx])) hw1 h2
    refine ⟨n1 + n2, hw2, ?_⟩
    have s1' : Safe (ReadsAll a indices l) (OwnAll a indices l) (cpuTaskProg gr a idx)
        (cpuMem a S indices b states) n1 () (cpuMem a S indices b1 states1) :=
      s1.mono (fun x hx => hx.elim .inl fun ho => .inr ⟨idx, hsub idx (by simp), index, hix, ho⟩)
        (fun x ho => ⟨idx, hsub idx (by simp), index, hix, ho⟩)
    exact s1'.bind s2

end Votess
