import Verif.Model.TaskProg
import Verif.Proofs.Basic
/-!
# Running a task alone on its own rows

`rowStore` is the memory a task sees: its own rows, as the lists used by `Verif.Model.Knn` and
`Verif.Model.CC`.  Running the access-level programs on it gives what those functions compute.
-/
namespace Votess

open FP

/-- the rows of a task and the shared read-only data -/
structure Rows (F E : Type) where
  heap : List (Int × E)
  dknn : List Int
  P : List (Plane F)
  T : List Tri
  dR : List Nat
  state : State
  xyz : List (Pt F)
  id : List Int
  offset : List Int

/-- triangle with entry `c` replaced -/
def Tri.upd (t : Tri) (c v : Nat) : Tri :=
  match c with
  | 0 => { t with a := v }
  | 1 => { t with b := v }
  | _ => { t with c := v }

/-- plane with coefficient `c` replaced -/
def Plane.upd {F : Type} (t : Plane F) (c : Nat) (v : F) : Plane F :=
  match c with
  | 0 => { t with a := v }
  | 1 => { t with b := v }
  | 2 => { t with c := v }
  | _ => { t with d := v }

variable {F D E : Type}

/-- reading a location of the task -/
def rowGet (r : Rows F E) : Loc → M (Val F E)
  | (.hid, m) => rd r.heap m >>= fun x => .ok (.int x.1)
  | (.hpq, m) => rd r.heap m >>= fun x => .ok (.pri x.2)
  | (.dknn, m) => rd r.dknn m >>= fun x => .ok (.int x)
  | (.P, m) => rd r.P (m / 4) >>= fun x => .ok (.flt (x.ent (m % 4)))
  | (.T, m) => rd r.T (m / 3) >>= fun x => .ok (.u8 (x.ent (m % 3)))
  | (.dR, m) => rd r.dR m >>= fun x => .ok (.u8 x)
  | (.state, 0) => .ok (.st r.state)
  | (.state, _ + 1) => .error .oob
  | (.xyz, m) => rd r.xyz (m / 3) >>= fun x => .ok (.flt (x.ent (m % 3)))
  | (.ref, m) => rd r.xyz (m / 3) >>= fun x => .ok (.flt (x.ent (m % 3)))
  | (.gid, m) => rd r.id m >>= fun x => .ok (.int x)
  | (.goff, m) => rd r.offset m >>= fun x => .ok (.int x)
  | (.ind, _) => .error .oob

/-- writing a location of the task -/
def rowPut (r : Rows F E) : Loc → Val F E → M (Rows F E)
  | (.hid, m), .int v => rd r.heap m >>= fun x => .ok { r with heap := r.heap.set m (v, x.2) }
  | (.hpq, m), .pri v => rd r.heap m >>= fun x => .ok { r with heap := r.heap.set m (x.1, v) }
  | (.dknn, m), .int v => rd r.dknn m >>= fun _ => .ok { r with dknn := r.dknn.set m v }
  | (.P, m), .flt v =>
    rd r.P (m / 4) >>= fun x => .ok { r with P := r.P.set (m / 4) (x.upd (m % 4) v) }
  | (.T, m), .u8 v =>
    rd r.T (m / 3) >>= fun x => .ok { r with T := r.T.set (m / 3) (x.upd (m % 3) v) }
  | (.dR, m), .u8 v => rd r.dR m >>= fun _ => .ok { r with dR := r.dR.set m v }
  | (.state, 0), .st v => .ok { r with state := v }
  | _, _ => .error .oob

/-- the rows as a memory -/
def rowStore : Store F E (Rows F E) := ⟨rowGet, rowPut⟩

/-- a program running on the rows of its task -/
abbrev rrun {α : Type} (p : Prog F E α) (r : Rows F E) : M (α × Rows F E) := p.run rowStore r

/-! ## the monad -/

@[simp] theorem rrun_pure {α : Type} (a : α) (r : Rows F E) :
    rrun (pure a : Prog F E α) r = .ok (a, r) := rfl

@[simp] theorem rrun_ret {α : Type} (a : α) (r : Rows F E) :
    rrun (.ret a : Prog F E α) r = .ok (a, r) := rfl

@[simp] theorem rrun_err {α : Type} (e : UB) (r : Rows F E) :
    rrun (.err e : Prog F E α) r = .error e := rfl

theorem run_bind {α β σ : Type} (S : Store F E σ) (p : Prog F E α) (f : α → Prog F E β) (s : σ) :
    (p >>= f).run S s = p.run S s >>= fun x => (f x.1).run S x.2 := by
  show (p.bind f).run S s = _
  induction p generalizing s with
  | ret a => rfl
  | err e => rfl
  | get l k ih =>
    simp only [Prog.bind, Prog.run]
    cases S.get s l with
    | error e => rfl
    | ok v => simp only [bind_ok]; exact ih v s
  | put l v k ih =>
    simp only [Prog.bind, Prog.run]
    cases S.put s l v with
    | error e => rfl
    | ok s' => simp only [bind_ok]; exact ih s'

@[simp] theorem rrun_bind {α β : Type} (p : Prog F E α) (f : α → Prog F E β) (r : Rows F E) :
    rrun (p >>= f) r = rrun p r >>= fun x => rrun (f x.1) x.2 := run_bind rowStore p f r

theorem bind_assoc' {α β γ : Type} (m : M α) (f : α → M β) (g : β → M γ) :
    (m >>= f) >>= g = m >>= fun x => f x >>= g := by cases m <;> rfl

theorem map_bind' {α β γ : Type} (m : M α) (f : α → β) (g : β → M γ) :
    (m.map f) >>= g = m >>= fun x => g (f x) := by cases m <;> rfl

theorem bind_map' {α β γ : Type} (m : M α) (f : α → M β) (g : β → γ) :
    (m >>= f).map g = m >>= fun x => (f x).map g := by cases m <;> rfl

@[simp] theorem ok_map' {α β : Type} (a : α) (f : α → β) :
    (Except.ok a : M α).map f = .ok (f a) := rfl

@[simp] theorem err_map' {α β : Type} (e : UB) (f : α → β) :
    (Except.error e : M α).map f = .error e := rfl

theorem bind_congr' {α β : Type} {m : M α} {f g : α → M β} (h : ∀ x, m = .ok x → f x = g x) :
    (m >>= f) = (m >>= g) := by
  cases m with
  | error e => rfl
  | ok x => exact h x rfl

/-! ## single accesses -/

@[simp] theorem rrun_hid (m : Nat) (r : Rows F E) :
    rrun (Prog.gInt .hid m) r = rd r.heap m >>= fun x => .ok (x.1, r) := by
  simp only [Prog.gInt, Prog.run, rowStore, rowGet]
  cases rd r.heap m <;> rfl

@[simp] theorem rrun_hpq (m : Nat) (r : Rows F E) :
    rrun (Prog.gPri .hpq m) r = rd r.heap m >>= fun x => .ok (x.2, r) := by
  simp only [Prog.gPri, Prog.run, rowStore, rowGet]
  cases rd r.heap m <;> rfl

@[simp] theorem rrun_dknn (m : Nat) (r : Rows F E) :
    rrun (Prog.gInt .dknn m) r = rd r.dknn m >>= fun x => .ok (x, r) := by
  simp only [Prog.gInt, Prog.run, rowStore, rowGet]
  cases rd r.dknn m <;> rfl

@[simp] theorem rrun_dR (m : Nat) (r : Rows F E) :
    rrun (Prog.gU8 .dR m) r = rd r.dR m >>= fun x => .ok (x, r) := by
  simp only [Prog.gU8, Prog.run, rowStore, rowGet]
  cases rd r.dR m <;> rfl

@[simp] theorem rrun_state (r : Rows F E) :
    rrun (Prog.gSt .state 0) r = .ok (r.state, r) := rfl

@[simp] theorem rrun_gid (m : Int) (r : Rows F E) :
    rrun (Prog.gIntI .gid m) r = rdI r.id m >>= fun x => .ok (x, r) := by
  unfold Prog.gIntI rdI
  split
  · simp only [Prog.gInt, Prog.run, rowStore, rowGet]
    cases rd r.id m.toNat <;> rfl
  · rfl

@[simp] theorem rrun_goff (m : Int) (r : Rows F E) :
    rrun (Prog.gIntI .goff m) r = rdI r.offset m >>= fun x => .ok (x, r) := by
  unfold Prog.gIntI rdI
  split
  · simp only [Prog.gInt, Prog.run, rowStore, rowGet]
    cases rd r.offset m.toNat <;> rfl
  · rfl

@[simp] theorem rrun_put_hid (m : Nat) (v : Int) (r : Rows F E) :
    rrun (Prog.wrt .hid m (.int v)) r =
      rd r.heap m >>= fun x => .ok ((), { r with heap := r.heap.set m (v, x.2) }) := by
  simp only [Prog.wrt, Prog.run, rowStore, rowPut]
  cases rd r.heap m <;> rfl

@[simp] theorem rrun_put_hpq (m : Nat) (v : E) (r : Rows F E) :
    rrun (Prog.wrt .hpq m (.pri v)) r =
      rd r.heap m >>= fun x => .ok ((), { r with heap := r.heap.set m (x.1, v) }) := by
  simp only [Prog.wrt, Prog.run, rowStore, rowPut]
  cases rd r.heap m <;> rfl

theorem rd_bind_wr {α β : Type} (a : List α) (m : Nat) (v : α) (f : List α → M β) :
    (rd a m >>= fun _ => f (a.set m v)) = wr a m v >>= f := by
  by_cases h : m < a.length
  · rw [rd_ok h, wr_ok h]; rfl
  · rw [rd_oob (by omega)]; simp [wr, h]

@[simp] theorem rrun_put_dknn (m : Nat) (v : Int) (r : Rows F E) :
    rrun (Prog.wrt .dknn m (.int v)) r =
      wr r.dknn m v >>= fun l => .ok ((), { r with dknn := l }) := by
  rw [← rd_bind_wr]
  simp only [Prog.wrt, Prog.run, rowStore, rowPut]
  cases rd r.dknn m <;> rfl

@[simp] theorem rrun_put_dR (m : Nat) (v : Nat) (r : Rows F E) :
    rrun (Prog.wrt .dR m (.u8 v)) r =
      wr r.dR m v >>= fun l => .ok ((), { r with dR := l }) := by
  rw [← rd_bind_wr]
  simp only [Prog.wrt, Prog.run, rowStore, rowPut]
  cases rd r.dR m <;> rfl

@[simp] theorem rrun_put_state (v : State) (r : Rows F E) :
    rrun (Prog.wrt .state 0 (.st v)) r = .ok ((), { r with state := v }) := rfl

theorem rrun_gxyz (m : Nat) (r : Rows F E) :
    rrun (Prog.gFlt .xyz m) r = rd r.xyz (m / 3) >>= fun x => .ok (x.ent (m % 3), r) := by
  simp only [Prog.gFlt, Prog.run, rowStore, rowGet]
  cases rd r.xyz (m / 3) <;> rfl

theorem rrun_gref (m : Nat) (r : Rows F E) :
    rrun (Prog.gFlt .ref m) r = rd r.xyz (m / 3) >>= fun x => .ok (x.ent (m % 3), r) := by
  simp only [Prog.gFlt, Prog.run, rowStore, rowGet]
  cases rd r.xyz (m / 3) <;> rfl

theorem rrun_point (i : Int) (r : Rows F E) :
    rrun (Prog.point .xyz i) r = rdI r.xyz i >>= fun x => .ok (x, r) := by
  unfold Prog.point rdI
  split
  · generalize i.toNat = j
    simp only [rrun_bind, rrun_gxyz,
      show (3 * j + 0) / 3 = j by omega, show (3 * j + 1) / 3 = j by omega,
      show (3 * j + 2) / 3 = j by omega, show (3 * j + 0) % 3 = 0 by omega,
      show (3 * j + 1) % 3 = 1 by omega, show (3 * j + 2) % 3 = 2 by omega, bind_assoc', bind_ok]
    cases rd r.xyz j <;> rfl
  · rfl

theorem rrun_ref (i : Int) (r : Rows F E) :
    rrun (Prog.point .ref i) r = rdI r.xyz i >>= fun x => .ok (x, r) := by
  unfold Prog.point rdI
  split
  · generalize i.toNat = j
    simp only [rrun_bind, rrun_gref,
      show (3 * j + 0) / 3 = j by omega, show (3 * j + 1) / 3 = j by omega,
      show (3 * j + 2) / 3 = j by omega, show (3 * j + 0) % 3 = 0 by omega,
      show (3 * j + 1) % 3 = 1 by omega, show (3 * j + 2) % 3 = 2 by omega, bind_assoc', bind_ok]
    cases rd r.xyz j <;> rfl
  · rfl

/-! ## heap -/

/-- a program on the heap row that does what a function on lists does -/
def OnHeap (p : Prog F E Unit) (f : List (Int × E) → M (List (Int × E))) : Prop :=
  ∀ r : Rows F E, rrun p r = f r.heap >>= fun h => .ok ((), { r with heap := h })

theorem OnHeap.pure : OnHeap (F := F) (E := E) (Pure.pure ()) (fun h => .ok h) := fun _ => rfl

theorem OnHeap.bind {p q : Prog F E Unit} {f g : List (Int × E) → M (List (Int × E))}
    (hp : OnHeap p f) (hq : OnHeap q g) :
    OnHeap (p >>= fun _ => q) (fun h => f h >>= g) := by
  intro r
  rw [rrun_bind, hp r, bind_assoc', bind_assoc']
  refine bind_congr' fun h _ => ?_
  simp only [bind_ok]
  rw [hq]

theorem heapSwap_run (a b : Nat) :
    OnHeap (F := F) (E := E) (Prog.heapSwap a b) (fun h => swp h a b) := by
  intro r
  unfold Prog.heapSwap
  show _ = swp r.heap a b >>= _
  by_cases ha : a < r.heap.length
  · by_cases hb : b < r.heap.length
    · rw [swp_ok ha hb]
      simp only [rrun_bind, rrun_hid, rrun_hpq, rrun_put_hid, rrun_put_hpq, rd_ok ha, rd_ok hb,
        bind_ok]
      have ha1 : a < (r.heap.set a (r.heap[b].1, r.heap[a].2)).length := by simpa using ha
      rw [rd_ok (by simpa using hb)]
      simp only [bind_ok]
      rw [rd_ok (by simpa using ha)]
      simp only [bind_ok]
      rw [rd_ok (by simpa using hb)]
      simp only [bind_ok]
      rw [rd_ok (by simpa using ha)]
      simp only [bind_ok]
      rw [rd_ok (by simpa using hb)]
      simp only [bind_ok]
      congr 2
      refine congrArg (fun h => ({ r with heap := h } : Rows F E)) ?_
      apply List.ext_getElem
      · simp
      · intro n h1 h2
        simp only [List.getElem_set]
        by_cases hna : a = n <;> by_cases hnb : b = n
        · subst hna; subst hnb; simp
        · subst hna; simp [hnb, Ne.symm hnb]
        · subst hnb; simp [hna, Ne.symm hna]
        · simp [hna, hnb]
    · rw [show swp r.heap a b = .error .oob by
        unfold swp; rw [rd_ok ha, bind_ok, rd_oob (by omega), bind_error]]
      simp only [rrun_bind, rrun_hid, rd_ok ha, rd_oob (show r.heap.length ≤ b by omega), bind_ok,
        bind_error]
  · rw [show swp r.heap a b = .error .oob by
      unfold swp; rw [rd_oob (by omega), bind_error]]
    simp only [rrun_bind, rrun_hid, rd_oob (show r.heap.length ≤ a by omega), bind_error]

theorem heapLargest_run (lt : E → E → Bool) (s i : Nat) (r : Rows F E) :
    rrun (Prog.heapLargest lt s i) r =
      heapLargest lt r.heap s i >>= fun n => .ok (n, r) := by
  unfold Prog.heapLargest heapLargest
  have key : ∀ (n : Nat), rrun (if 2 * i + 2 < s then do
        let a ← Prog.gPri .hpq (2 * i + 2)
        let b ← Prog.gPri .hpq n
        Pure.pure (if lt b a then 2 * i + 2 else n)
      else Pure.pure n : Prog F E Nat) r = (if 2 * i + 2 < s then do
        let a ← rd r.heap (2 * i + 2)
        let b ← rd r.heap n
        Pure.pure (if lt b.2 a.2 then 2 * i + 2 else n)
      else Pure.pure n : M Nat) >>= fun n => .ok (n, r) := by
    intro n
    split
    · simp only [rrun_bind, rrun_hpq, bind_assoc', bind_ok, rrun_pure, pure_eq_ok]
    · rfl
  by_cases hl : 2 * i + 1 < s
  · rw [if_pos hl, if_pos hl]
    simp only [rrun_bind, rrun_hpq, bind_assoc', bind_ok, rrun_pure, pure_eq_ok] at key ⊢
    refine bind_congr' fun a _ => bind_congr' fun b _ => key _
  · rw [if_neg hl, if_neg hl]
    simp only [rrun_bind, bind_ok, rrun_pure, pure_eq_ok] at key ⊢
    exact key _

theorem maxheapifyLoop_run (lt : E → E → Bool) (s fuel i : Nat) :
    OnHeap (F := F) (Prog.maxheapifyLoop lt s fuel i) (fun h => maxheapifyLoop lt s fuel h i) := by
  induction fuel generalizing i with
  | zero => intro r; rfl
  | succ fuel ih =>
    intro r
    simp only [Prog.maxheapifyLoop, maxheapifyLoop, rrun_bind, heapLargest_run, bind_assoc', bind_ok]
    refine bind_congr' fun n _ => ?_
    by_cases hn : i ≠ n
    · rw [if_pos hn, if_pos hn]
      exact OnHeap.bind (heapSwap_run i n) (ih n) r
    · rw [if_neg hn, if_neg hn]; rfl

theorem maxheapify_run (lt : E → E → Bool) (s i : Nat) :
    OnHeap (F := F) (Prog.maxheapify lt s i) (fun h => maxheapify lt h s i) :=
  maxheapifyLoop_run lt s (s + 1) i

theorem heapBuild_run (lt : E → E → Bool) (k n : Nat) :
    OnHeap (F := F) (Prog.heapBuild lt k n) (fun h => heapBuild lt k n h) := by
  induction n with
  | zero => intro r; rfl
  | succ n ih => exact OnHeap.bind (maxheapify_run lt k n) ih

theorem heapDrain_run (lt : E → E → Bool) (n : Nat) :
    OnHeap (F := F) (Prog.heapDrain lt n) (fun h => heapDrain lt n h) := by
  induction n with
  | zero => intro r; rfl
  | succ n ih => exact OnHeap.bind (heapSwap_run 0 n) (OnHeap.bind (maxheapify_run lt n 0) ih)

theorem heapSort_run (lt : E → E → Bool) (k : Nat) :
    OnHeap (F := F) (Prog.heapSort lt k) (fun h => heapSort lt h k) :=
  OnHeap.bind (heapBuild_run lt k (k / 2)) (heapDrain_run lt k)

/-! ## neighbour search -/

/-- like `OnHeap`, for rows with given shared data -/
def OnHeapAt (xyz : List (Pt F)) (id offset : List Int) (p : Prog F E Unit)
    (f : List (Int × E) → M (List (Int × E))) : Prop :=
  ∀ r : Rows F E, r.xyz = xyz → r.id = id → r.offset = offset →
    rrun p r = f r.heap >>= fun h => .ok ((), { r with heap := h })

variable {xyz : List (Pt F)} {ids offset : List Int}

theorem OnHeap.at {p : Prog F E Unit} {f : List (Int × E) → M (List (Int × E))}
    (h : OnHeap p f) : OnHeapAt xyz ids offset p f := fun r _ _ _ => h r

theorem OnHeapAt.bind {p q : Prog F E Unit} {f g : List (Int × E) → M (List (Int × E))}
    (hp : OnHeapAt xyz ids offset p f) (hq : OnHeapAt xyz ids offset q g) :
    OnHeapAt xyz ids offset (p >>= fun _ => q) (fun h => f h >>= g) := by
  intro r h1 h2 h3
  rw [rrun_bind, hp r h1 h2 h3, bind_assoc', bind_assoc']
  refine bind_congr' fun h _ => ?_
  simp only [bind_ok]
  rw [hq { r with heap := h } h1 h2 h3]

theorem OnHeapAt.foldlM {β : Type} (l : List β) {p : β → Prog F E Unit}
    {f : β → List (Int × E) → M (List (Int × E))}
    (hp : ∀ x, OnHeapAt xyz ids offset (p x) (f x)) :
    OnHeapAt xyz ids offset (l.foldlM (fun _ x => p x) ()) (fun h => l.foldlM (fun h x => f x h) h) := by
  induction l with
  | nil => intro r _ _ _; rfl
  | cons x l ih =>
    simp only [List.foldlM_cons]
    exact OnHeapAt.bind (hp x) ih

theorem knnCell_run {cand : Int → Prog F E Unit} {f : Int → List (Int × E) → M (List (Int × E))}
    (hp : ∀ x, OnHeapAt xyz ids offset (cand x) (f x)) (cid : Int) :
    OnHeapAt xyz ids offset (Prog.knnCell cand cid) (fun h => do
      let offs0 ← rdI offset cid
      let offs1 ← rdI offset (cid + 1)
      forI offs0 offs1 f h) := by
  intro r h1 h2 h3
  subst h1 h2 h3
  simp only [Prog.knnCell, rrun_bind, rrun_goff, bind_assoc', bind_ok]
  refine bind_congr' fun o0 _ => bind_congr' fun o1 _ => ?_
  exact OnHeapAt.foldlM (irange o0 o1) hp r rfl rfl rfl

variable [FP F D]

theorem knnPoint_run (index : Int) (q : Pt F) (k : Nat) (p : Int) :
    OnHeapAt xyz ids offset (Prog.knnPoint index q k p : Prog F D Unit)
      (knnPoint xyz index q k p) := by
  intro r h1 h2 h3
  unfold Prog.knnPoint knnPoint
  by_cases hp : p = index
  · rw [if_pos hp, if_pos hp]; rfl
  · rw [if_neg hp, if_neg hp]
    subst h1 h2 h3
    simp only [rrun_bind, rrun_point, bind_assoc', bind_ok]
    refine bind_congr' fun pt _ => ?_
    rw [rrun_hpq, bind_assoc']
    refine bind_congr' fun top ht => ?_
    simp only [bind_ok]
    have h0 := rd_lt ht
    by_cases hlt : dlt F (toD (getDistance pt q)) top.2 = true
    · rw [if_pos hlt, if_pos hlt]
      simp only [rrun_bind, rrun_put_hid, rrun_put_hpq, rd_ok h0, bind_ok]
      rw [rd_ok (by simpa using h0)]
      simp only [bind_ok]
      rw [wr_ok h0]
      rw [maxheapify_run]
      simp
    · rw [if_neg hlt, if_neg hlt]; rfl

theorem knnShell_run (cand : Int → Prog F E Unit) (f : Int → List (Int × E) → M (List (Int × E)))
    (hp : ∀ x, OnHeapAt xyz ids offset (cand x) (f x)) (gr px py pz r : Int) :
    OnHeapAt xyz ids offset (Prog.knnShell cand gr px py pz r) (fun h =>
      (shellCells gr px py pz r).foldlM (fun h c => do
        let offs0 ← rdI offset (gr * gr * c.2.2 + gr * c.2.1 + c.1)
        let offs1 ← rdI offset (gr * gr * c.2.2 + gr * c.2.1 + c.1 + 1)
        forI offs0 offs1 f h) h) :=
  OnHeapAt.foldlM (shellCells gr px py pz r)
    (p := fun c => Prog.knnCell cand (gr * gr * c.2.2 + gr * c.2.1 + c.1))
    (fun _ => knnCell_run hp _)

theorem knnLoop_run (index : Int) (q : Pt F) (k : Nat) (gr px py pz : Int) (gl min : F) (n : Nat) :
    OnHeapAt xyz ids offset
      (Prog.knnLoop (Prog.knnPoint index q k) (fun top x => dlt F top (toD x)) gr px py pz gl min n)
      (knnLoop xyz offset index q k gr px py pz gl min n) := by
  induction n with
  | zero => intro r _ _ _; rfl
  | succ n ih =>
    intro r h1 h2 h3
    simp only [Prog.knnLoop, knnLoop, rrun_bind]
    rw [knnShell_run _ _ (knnPoint_run (xyz := xyz) (ids := ids) (offset := offset) index q k)
      gr px py pz _ r h1 h2 h3]
    unfold knnShell knnCell
    rw [bind_assoc', bind_assoc']
    refine bind_congr' fun h _ => ?_
    simp only [bind_ok, rrun_hpq, bind_assoc']
    refine bind_congr' fun top _ => ?_
    split
    · rfl
    · rw [ih { r with heap := h } h1 h2 h3]

theorem knnCompute_run (index : Int) (k : Nat) (gr : Int) :
    OnHeapAt xyz ids offset (Prog.knnCompute index k gr : Prog F D Unit)
      (knnCompute xyz ids offset index k gr) := by
  intro r h1 h2 h3
  unfold Prog.knnCompute knnCompute
  subst h1 h2 h3
  simp only [rrun_bind, rrun_ref, rrun_gid, bind_assoc', bind_ok]
  refine bind_congr' fun q _ => bind_congr' fun c _ => ?_
  by_cases hgr : gr = 0
  · rw [if_pos hgr, if_pos hgr]; rfl
  · rw [if_neg hgr, if_neg hgr]
    exact OnHeapAt.bind (knnLoop_run index q k gr _ _ _ _ _ _) (heapSort_run (dlt F) k).at r
      rfl rfl rfl

end Votess
