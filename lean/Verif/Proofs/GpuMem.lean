import Verif.Model.Gpu
import Verif.Proofs.GpuKnn
import Verif.Proofs.ProgCpu
/-!
# Work items in the device memory, without chunking
-/
set_option linter.unusedSectionVars false

namespace Votess

open FP

variable {F D : Type} [FP F D]

theorem col_lt {n k m i : Nat} (hm : m < k) (hi : i < n) : n * m + i < n * k := by
  have : n * (m + 1) ≤ n * k := Nat.mul_le_mul_left n hm
  rw [Nat.mul_add, Nat.mul_one] at this
  omega

theorem row_lt {w n m i : Nat} (hm : m < w) (hi : i < n) : w * i + m < w * n := col_lt hi hm

theorem P_pos (n m i : Nat) : 4 * n * (m / 4) + n * (m % 4) + i = n * m + i := by
  have h : n * m = n * (4 * (m / 4) + m % 4) := by rw [Nat.div_add_mod]
  rw [h, Nat.mul_add, ← Nat.mul_assoc, Nat.mul_comm n 4]

theorem dR_pos (pm nd i m : Nat) : pm * nd * (i / nd) + (pm * (i % nd) + m) = pm * i + m := by
  have h : pm * i = pm * (nd * (i / nd) + i % nd) := by rw [Nat.div_add_mod]
  rw [h, Nat.mul_add, Nat.mul_assoc]
  omega

/-- the rows work item `i` finds -/
def startRows (a : CCArgs) (S : Sorted F) (g : Garbage F) (i : Nat) : Rows F F where
  heap := List.replicate a.k (0, ofInt 128)
  dknn := List.replicate a.k kUndefined
  P := (List.range a.pm).map fun j => ⟨g.P (S.xyz.length * (4 * j + 0) + i),
    g.P (S.xyz.length * (4 * j + 1) + i), g.P (S.xyz.length * (4 * j + 2) + i),
    g.P (S.xyz.length * (4 * j + 3) + i)⟩
  T := (List.range a.tm).map fun j => ⟨g.T (3 * a.tm * i + (3 * j + 0)),
    g.T (3 * a.tm * i + (3 * j + 1)), g.T (3 * a.tm * i + (3 * j + 2))⟩
  dR := (List.range a.pm).map fun j => g.dR (a.pm * i + j)
  state := g.st i
  xyz := S.xyz
  id := S.id
  offset := S.offset

/-- positions inside the rows of a work item -/
def InRow (a : CCArgs) : Loc → Prop
  | (.hid, m) => m < a.k
  | (.hpq, m) => m < a.k
  | (.dknn, m) => m < a.k
  | (.P, m) => m < 4 * a.pm
  | (.T, m) => m < 3 * a.tm
  | (.dR, m) => m < a.pm
  | (.state, m) => m = 0
  | _ => False

theorem startRows_has {a : CCArgs} {S : Sorted F} {g : Garbage F} {i : Nat} {l : Loc}
    (h : (startRows a S g i).Has l) (hw : l.1.writable = true) : InRow a l := by
  obtain ⟨v, hv⟩ := h
  obtain ⟨b, m⟩ := l
  cases b <;> try cases hw
  · have := has_rd hv; simpa [startRows, InRow] using this
  · have := has_rd hv; simpa [startRows, InRow] using this
  · have := has_rd hv; simpa [startRows, InRow] using this
  · have : m / 4 < a.pm := by have := has_rd hv; simpa [startRows] using this
    show m < 4 * a.pm
    omega
  · have : m / 3 < a.tm := by have := has_rd hv; simpa [startRows] using this
    show m < 3 * a.tm
    omega
  · have := has_rd hv; simpa [startRows, InRow] using this
  · cases m with
    | zero => rfl
    | succ m => cases hv

/-- different entries are at different places -/
theorem gpuLay_inj {a : CCArgs} {n nd i j : Nat} {l l' : Loc} (hi : i < n) (hj : j < n)
    (h : InRow a l) (h' : InRow a l') (e : gpuLay a n n nd i i l = gpuLay a n n nd j j l') :
    i = j ∧ l = l' := by
  obtain ⟨b, m⟩ := l
  obtain ⟨b', m'⟩ := l'
  have key (w x y x' y' : Nat) (hx : x < w) (hx' : x' < w) (e : w * y + x = w * y' + x') :
      x = x' ∧ y = y' := by
    obtain ⟨d1, r1⟩ := lay_local (idx := y) hx
    obtain ⟨d2, r2⟩ := lay_local (idx := y') hx'
    rw [e] at d1 r1
    exact ⟨r1.symm.trans r2, d1.symm.trans d2⟩
  cases b <;> first | exact h.elim | skip
  all_goals cases b' <;> first | exact h'.elim | (simp only [gpuLay, Prod.mk.injEq, reduceCtorEq, false_and] at e)
  all_goals simp only [true_and, P_pos, dR_pos] at e
  · obtain ⟨e1, e2⟩ := key _ _ _ _ _ hi hj e; exact ⟨e1, by rw [e2]⟩
  · obtain ⟨e1, e2⟩ := key _ _ _ _ _ hi hj e; exact ⟨e1, by rw [e2]⟩
  · obtain ⟨e1, e2⟩ := key _ _ _ _ _ hi hj e; exact ⟨e1, by rw [e2]⟩
  · obtain ⟨e1, e2⟩ := key _ _ _ _ _ hi hj e; exact ⟨e1, by rw [e2]⟩
  · obtain ⟨e1, e2⟩ := key _ _ _ _ _ h h' e; exact ⟨e2, by rw [e1]⟩
  · obtain ⟨e1, e2⟩ := key _ _ _ _ _ h h' e; exact ⟨e2, by rw [e1]⟩
  · exact ⟨e, by rw [show m = 0 from h, show m' = 0 from h']⟩

theorem start_rep (a : CCArgs) (S : Sorted F) (nd : Nat) (g : Garbage F) {i : Nat}
    (hi : i < S.xyz.length) :
    Rep (gpuLay a S.xyz.length S.xyz.length nd i i) (startRows a S g i)
      (gpuStart a S S.xyz.length S.xyz.length 0 g) := by
  intro l v hv
  obtain ⟨b, m⟩ := l
  cases b
  · have hm : m < a.k := by simpa [startRows] using has_rd hv
    simp only [rowGet, startRows] at hv
    rw [rd_ok (by simpa using hm)] at hv
    cases hv
    simp only [gpuLay, gpuStart, inRange, if_pos (col_lt hm hi), List.getElem_replicate]
  · have hm : m < a.k := by simpa [startRows] using has_rd hv
    simp only [rowGet, startRows] at hv
    rw [rd_ok (by simpa using hm)] at hv
    cases hv
    simp only [gpuLay, gpuStart, inRange, if_pos (col_lt hm hi), List.getElem_replicate]
  · have hm : m < a.k := by simpa [startRows] using has_rd hv
    simp only [rowGet, startRows] at hv
    rw [rd_ok (by simpa using hm)] at hv
    cases hv
    simp only [gpuLay, gpuStart, inRange, if_pos (col_lt hm hi), List.getElem_replicate]
  · have hm : m / 4 < a.pm := by simpa [startRows] using has_rd hv
    have hm' : m < a.pm * 4 := by omega
    simp only [rowGet, startRows] at hv
    rw [rd_ok (by simpa using hm)] at hv
    have hp : S.xyz.length * a.pm * 4 = S.xyz.length * (a.pm * 4) := Nat.mul_assoc _ _ _
    simp only [gpuLay, gpuStart, inRange, P_pos, hp, if_pos (col_lt hm' hi)]
    simp only [bind_ok, Except.ok.injEq, List.getElem_map, List.getElem_range] at hv
    subst hv
    have e : m = 4 * (m / 4) + m % 4 := (Nat.div_add_mod m 4).symm
    have h4 : m % 4 < 4 := Nat.mod_lt _ (by omega)
    generalize m % 4 = c at *
    generalize m / 4 = j at *
    subst e
    rcases (show c = 0 ∨ c = 1 ∨ c = 2 ∨ c = 3 by omega) with rfl | rfl | rfl | rfl <;> rfl
  · have hm : m / 3 < a.tm := by simpa [startRows] using has_rd hv
    have hm' : m < 3 * a.tm := by omega
    simp only [rowGet, startRows] at hv
    rw [rd_ok (by simpa using hm)] at hv
    have hp : S.xyz.length * a.tm * 3 = 3 * a.tm * S.xyz.length := by
      rw [Nat.mul_comm, Nat.mul_comm S.xyz.length, Nat.mul_assoc]
    simp only [gpuLay, gpuStart, inRange, hp, if_pos (row_lt hm' hi)]
    simp only [bind_ok, Except.ok.injEq, List.getElem_map, List.getElem_range] at hv
    subst hv
    have e : m = 3 * (m / 3) + m % 3 := (Nat.div_add_mod m 3).symm
    have h4 : m % 3 < 3 := Nat.mod_lt _ (by omega)
    generalize m % 3 = c at *
    generalize m / 3 = j at *
    subst e
    rcases (show c = 0 ∨ c = 1 ∨ c = 2 by omega) with rfl | rfl | rfl <;> rfl
  · have hm : m < a.pm := by simpa [startRows] using has_rd hv
    simp only [rowGet, startRows] at hv
    rw [rd_ok (by simpa using hm)] at hv
    have hp : S.xyz.length * a.pm = a.pm * S.xyz.length := Nat.mul_comm _ _
    simp only [gpuLay, gpuStart, inRange, dR_pos, hp, if_pos (row_lt hm hi)]
    simp only [bind_ok, Except.ok.injEq, List.getElem_map, List.getElem_range] at hv
    rw [← hv]
  · cases m with
    | zero =>
      cases hv
      simp only [gpuLay, gpuStart, inRange, if_pos hi, startRows]
    | succ m => cases hv
  · have hm : m / 3 < S.xyz.length := by simpa [startRows] using has_rd hv
    have h3 : m % 3 < 3 := Nat.mod_lt _ (by omega)
    simp only [rowGet, startRows] at hv
    rw [rd_ok hm] at hv
    simp only [bind_ok, Except.ok.injEq] at hv
    obtain ⟨e1, e2⟩ := lay_local (idx := m % 3) hm
    have hlt : S.xyz.length * (m % 3) + m / 3 < 3 * S.xyz.length := by
      have := col_lt (n := S.xyz.length) (k := 3) h3 hm
      omega
    simp only [gpuLay, gpuStart, e1, e2, if_pos hlt, List.getElem?_eq_getElem hm, Option.map_some, ← hv]
  · have hm : m / 3 < S.xyz.length := by simpa [startRows] using has_rd hv
    have h3 : m % 3 < 3 := Nat.mod_lt _ (by omega)
    simp only [rowGet, startRows] at hv
    rw [rd_ok hm] at hv
    simp only [bind_ok, Except.ok.injEq] at hv
    obtain ⟨e1, e2⟩ := lay_local (idx := m % 3) hm
    have hlt : S.xyz.length * (m % 3) + m / 3 < 3 * S.xyz.length := by
      have := col_lt (n := S.xyz.length) (k := 3) h3 hm
      omega
    simp only [gpuLay, gpuStart, e1, e2, if_pos hlt, List.getElem?_eq_getElem hm, Option.map_some, ← hv]
  · have hm : m < S.id.length := has_rd hv
    simp only [rowGet, startRows] at hv
    rw [rd_ok hm] at hv
    cases hv
    simp only [gpuLay, gpuStart, List.getElem?_eq_getElem hm, Option.map_some]
  · have hm : m < S.offset.length := has_rd hv
    simp only [rowGet, startRows] at hv
    rw [rd_ok hm] at hv
    cases hv
    simp only [gpuLay, gpuStart, List.getElem?_eq_getElem hm, Option.map_some]
  · cases hv

/-- locations written by work item `i` -/
def GWrites (a : CCArgs) (n nd i : Nat) (l : Loc) : Prop :=
  ∃ l', InRow a l' ∧ gpuLay a n n nd i i l' = l

/-- locations read by work item `i` -/
def GReads (a : CCArgs) (n nd i : Nat) (l : Loc) : Prop := Shared l ∨ GWrites a n nd i l

theorem GWrites.not_shared {a : CCArgs} {n nd i : Nat} {l : Loc} (h : GWrites a n nd i l) :
    ¬ Shared l := by
  obtain ⟨⟨b, m⟩, h1, rfl⟩ := h
  cases b <;> first | exact fun h => h | exact h1.elim

theorem gpu_disjoint {a : CCArgs} {n nd i j : Nat} {l : Loc} (hi : i < n) (hj : j < n) (hij : i ≠ j)
    (h : GWrites a n nd i l) : ¬ GReads a n nd j l := by
  rintro (hs | ⟨l2, h3, h4⟩)
  · exact h.not_shared hs
  · obtain ⟨l1, h1, h2⟩ := h
    exact hij (gpuLay_inj hi hj h1 h3 (h2.trans h4.symm)).1

/-- one work item in the device memory -/
theorem gpuItem_safe {S : Sorted F} {gr : Int} {a : CCArgs} {nd : Nat} {g : Garbage F} {i : Nat}
    (hi : i < S.xyz.length) {row : List (Int × F)}
    (hk : gpuKnnL S.xyz S.id S.offset i a.k gr (List.replicate a.k (0, ofInt 128)) = .ok row)
    {o : CCOut F}
    (hcut : CellCutsAtMost 254 a S.xyz i (g.st i) (startRows a S g i).P (startRows a S g i).T
      (startRows a S g i).dR (row.map (·.1)) (List.replicate a.k kUndefined))
    (hc : ccCompute a S.xyz i (g.st i) (startRows a S g i).P (startRows a S g i).T
      (startRows a S g i).dR (row.map (·.1)) (List.replicate a.k kUndefined) = .ok o) :
    ∃ n m', Safe (GReads a S.xyz.length nd i) (GWrites a S.xyz.length nd i)
        (gpuItem gr a S.xyz.length S.xyz.length nd i)
        (gpuStart a S S.xyz.length S.xyz.length 0 g) n () m' ∧
      Rep (gpuLay a S.xyz.length S.xyz.length nd i i)
        (ccRows { startRows a S g i with heap := row } o) m' := by
  have hW (l : Loc) (hl : (startRows a S g i).Has l) (hw : l.1.writable = true) :
      GWrites a S.xyz.length nd i (gpuLay a S.xyz.length S.xyz.length nd i i l) :=
    ⟨l, startRows_has hl hw, rfl⟩
  have hR (l : Loc) (hl : (startRows a S g i).Has l) :
      GReads a S.xyz.length nd i (gpuLay a S.xyz.length S.xyz.length nd i i l) := by
    by_cases hw : l.1.writable = true
    · exact .inr (hW l hl hw)
    · left
      obtain ⟨bf, x⟩ := l
      cases bf <;> first | exact absurd rfl hw | trivial
  have hinj (l l' : Loc) (hl : (startRows a S g i).Has l) (hl' : (startRows a S g i).Has l')
      (hw : l.1.writable = true)
      (e : gpuLay a S.xyz.length S.xyz.length nd i i l' = gpuLay a S.xyz.length S.xyz.length nd i i l) :
      l' = l := by
    have hw' : l'.1.writable = true := by
      obtain ⟨bf, x⟩ := l
      obtain ⟨bf', x'⟩ := l'
      cases bf <;> cases bf' <;> first | rfl | exact Bool.noConfusion hw | (simp [gpuLay] at e)
    exact (gpuLay_inj hi hi (startRows_has hl' hw') (startRows_has hl hw) e).2
  have run1 : rrun (Prog.gpuKnnCompute (i : Int) a.k gr) (startRows a S g i) =
      .ok ((), { startRows a S g i with heap := row }) := by
    rw [gpuKnnCompute_run (xyz := S.xyz) (ids := S.id) (offset := S.offset) (i : Int) a.k gr
      (startRows a S g i) rfl rfl rfl]
    show (gpuKnnL S.xyz S.id S.offset i a.k gr (List.replicate a.k (0, ofInt 128)) >>= _) = _
    rw [hk]; rfl
  obtain ⟨n1, m1, s1, rep1, has1⟩ := sim hR hW hinj _ (fun _ => Iff.rfl) (start_rep a S nd g hi) run1
  have run2 : rrun (Prog.ccCompute (· % 256) true a (i : Int))
      ({ startRows a S g i with heap := row } : Rows F F) =
      .ok ((), ccRows { startRows a S g i with heap := row } o) :=
    ccCompute_prog (B := 254) (fun m hm => Nat.mod_eq_of_lt (by omega)) true i _ hcut hc
  obtain ⟨n2, m2, s2, rep2, has2⟩ := sim hR hW hinj _ has1 rep1 run2
  have g0 : Safe (GReads a S.xyz.length nd i) (GWrites a S.xyz.length nd i) (Prog.gInt .ind i)
      (gpuStart a S S.xyz.length S.xyz.length 0 g) 1 (i : Int)
      (gpuStart a S S.xyz.length S.xyz.length 0 g) := by
    refine Safe.gInt (.inl trivial) ?_
    simp only [gpuStart, inRange, if_pos hi, Nat.zero_add]
  have g1 : Safe (GReads a S.xyz.length nd i) (GWrites a S.xyz.length nd i) (Prog.gInt .ind i) m1 1
      (i : Int) m1 := by
    refine Safe.gInt (.inl trivial) ?_
    rw [s1.frame (l := (.ind, i)) (fun h => h.not_shared trivial)]
    simp only [gpuStart, inRange, if_pos hi, Nat.zero_add]
  refine ⟨1 + (n1 + (1 + n2)), m2, ?_, rep2⟩
  unfold gpuItem
  exact g0.bind (s1.bind (g1.bind s2))

theorem setIds_get {E : Type} {h : List (Int × E)} {ids : List Int} {j : Nat} {v : Int}
    (hl : ids.length = h.length) (hv : ids[j]? = some v) :
    ∃ e, (setIds h ids)[j]? = some (v, e) := by
  have h1 := (List.getElem?_eq_some_iff.mp hv).1
  refine ⟨(h[j]'(by omega)).2, ?_⟩
  unfold setIds
  rw [List.getElem?_zip_eq_some]
  exact ⟨hv, by rw [List.getElem?_map, List.getElem?_eq_getElem (by omega)]; rfl⟩

/-- all work items of the launch -/
theorem gpu_settles {S : Sorted F} {gr : Int} {a : CCArgs} (nd : Nat) (g : Garbage F)
    (row : Nat → List (Int × F)) (o : Nat → CCOut F)
    (hk : ∀ i, i < S.xyz.length →
      gpuKnnL S.xyz S.id S.offset i a.k gr (List.replicate a.k (0, ofInt 128)) = .ok (row i))
    (hlen : ∀ i, i < S.xyz.length → (row i).length = a.k ∧ (o i).knn.length = a.k)
    (hcut : ∀ i, i < S.xyz.length →
      CellCutsAtMost 254 a S.xyz i (g.st i) (startRows a S g i).P (startRows a S g i).T
        (startRows a S g i).dR ((row i).map (·.1)) (List.replicate a.k kUndefined))
    (hc : ∀ i, i < S.xyz.length →
      ccCompute a S.xyz i (g.st i) (startRows a S g i).P (startRows a S g i).T
        (startRows a S g i).dR ((row i).map (·.1)) (List.replicate a.k kUndefined) = .ok (o i)) :
    ∃ m total, Sys.Settles ⟨gpuStart a S S.xyz.length S.xyz.length 0 g,
        gpuItems gr a S.xyz.length S.xyz.length nd⟩ m total ∧
      (∀ i j v, i < S.xyz.length → (o i).knn[j]? = some v →
        m (.hid, S.xyz.length * j + i) = some (.int v)) ∧
      (∀ i, i < S.xyz.length → m (.state, i) = some (.st (o i).s.state)) ∧
      ∀ x, m (.ind, x) = gpuStart a S S.xyz.length S.xyz.length 0 g (.ind, x) := by
  have hall (i : Nat) : ∃ n m', i < S.xyz.length →
      Safe (GReads a S.xyz.length nd i) (GWrites a S.xyz.length nd i)
        (gpuItem gr a S.xyz.length S.xyz.length nd i)
        (gpuStart a S S.xyz.length S.xyz.length 0 g) n () m' ∧
      Rep (gpuLay a S.xyz.length S.xyz.length nd i i)
        (ccRows { startRows a S g i with heap := row i } (o i)) m' := by
    by_cases hi : i < S.xyz.length
    · obtain ⟨n, m', h1, h2⟩ := gpuItem_safe (nd := nd) hi (hk i hi) (hcut i hi) (hc i hi)
      exact ⟨n, m', fun _ => ⟨h1, h2⟩⟩
    · exact ⟨0, fun _ => none, fun h => absurd h hi⟩
  choose ns mi hs using hall
  obtain ⟨mf, h1, h2, h3⟩ := parallel (N := S.xyz.length)
    (R := GReads a S.xyz.length nd) (W := GWrites a S.xyz.length nd)
    (gpuStart a S S.xyz.length S.xyz.length 0 g) mi (gpuItem gr a S.xyz.length S.xyz.length nd) ns
    (fun i l h => .inr h) (fun i j l hi hj hij h => gpu_disjoint hi hj hij h)
    (fun i hi => (hs i hi).1)
  refine ⟨mf, _, h1, ?_, ?_, ?_⟩
  · intro i j v hi hv
    obtain ⟨l1, l2⟩ := hlen i hi
    have hj : j < a.k := by have := (List.getElem?_eq_some_iff.mp hv).1; omega
    have hw : GWrites a S.xyz.length nd i (.hid, S.xyz.length * j + i) := ⟨(.hid, j), hj, rfl⟩
    rw [h2 i _ hi hw]
    obtain ⟨e, he⟩ := setIds_get (h := row i) (ids := (o i).knn) (by omega) hv
    exact (hs i hi).2 (.hid, j) (.int v) (by
      show (rd (setIds (row i) (o i).knn) j >>= fun x => Except.ok (Val.int x.1)) = _
      rw [rd_eq_ok.mpr he]; rfl)
  · intro i hi
    have hw : GWrites a S.xyz.length nd i (.state, i) := ⟨(.state, 0), rfl, rfl⟩
    rw [h2 i _ hi hw]
    exact (hs i hi).2 (.state, 0) (.st (o i).s.state) rfl
  · intro x
    exact h3 _ fun i _ h => h.not_shared trivial

end Votess
