import Verif.Model.ArgsCall
import Verif.Props.Args
import Verif.Props.Int32
import Verif.Props.CliRun
/-!
# C44 — the caller's parameters; parameters as text and sizes as `int` during a call
-/
namespace Votess
set_option linter.unusedSectionVars false

/-! ### objects that a computation cannot change -/

/-- the objects below address `n` are unchanged and no object is left over -/
def Keeps {α : Type} (n : Nat) (x : CallM α) : Prop :=
  ∀ o : Objs, n ≤ o.length → (x o).2.length = o.length ∧ (x o).2.take n = o.take n

namespace Keeps
variable {α β : Type} {n : Nat}

theorem pure (a : α) : Keeps n (Pure.pure a : CallM α) := fun _ _ => ⟨rfl, rfl⟩

theorem lift (x : Except Stop α) : Keeps n (CallM.lift x) := fun _ _ => ⟨rfl, rfl⟩

theorem objGet (a : Nat) : Keeps n (objGet a) := by
  intro o _
  unfold Votess.objGet
  split <;> exact ⟨rfl, rfl⟩

theorem objSet {a : Nat} (h : n ≤ a) (key : String) (v : Txt) : Keeps n (objSet a key v) := by
  intro o _
  unfold Votess.objSet
  split
  · split
    · exact ⟨by simp, by simp [List.take_set_of_le h]⟩
    · exact ⟨rfl, rfl⟩
  · exact ⟨rfl, rfl⟩

theorem bind {x : CallM α} {f : α → CallM β} (hx : Keeps n x) (hf : ∀ a, Keeps n (f a)) :
    Keeps n (x >>= f) := by
  intro o ho
  have h := hx o ho
  show ((CallM.bind x f) o).2.length = _ ∧ ((CallM.bind x f) o).2.take n = _
  unfold CallM.bind
  split
  · rename_i a o' he
    rw [he] at h
    have h' := hf a o' (by simp only at h; omega)
    exact ⟨h'.1.trans h.1, h'.2.trans h.2⟩
  · rename_i e o' he
    rw [he] at h; exact h

end Keeps

/-- a call with by-value parameter leaves the store as it was -/
theorem byValue_store {α : Type} {f : Nat → CallM α} (hf : ∀ a, Keeps a (f a)) (arg : Nat) (o : Objs) :
    (byValue arg f o).2 = o := by
  unfold byValue
  split
  · rename_i m _
    have := (hf o.length (o ++ [m]) (by simp)).2
    simp only at this ⊢
    rw [this]; simp
  · rfl

section any
variable {F D : Type} [FP F D] [Inhabited F]

theorem recRoundA_keeps (S : Sorted F) (nth obj : Nat) (r : RecState) :
    Keeps obj (recRoundA S nth obj r) := by
  unfold recRoundA
  refine .bind (.lift _) fun x => ?_
  obtain ⟨indices, updp, updt⟩ := x
  simp only
  split
  · exact .pure _
  · refine .bind (.lift _) fun k => .bind (.lift _) fun pm => .bind (.lift _) fun tm =>
      .bind (.objSet (le_refl _) _ _) fun _ => .bind (.objSet (le_refl _) _ _) fun _ =>
      .bind (.objSet (le_refl _) _ _) fun _ => .bind (.lift _) fun _ => .bind (.lift _) fun al =>
      .bind (.objGet _) fun args => .bind (.lift _) fun gr => .bind (.lift _) fun ak =>
      .bind (.lift _) fun apm => .bind (.lift _) fun atm => .bind (.lift _) fun a => ?_
    split
    · exact .lift _
    · refine .bind (.lift _) fun y => .bind (.objGet _) fun args => .bind (.lift _) fun _ =>
        .bind (.lift _) fun tmpnn => ?_
      split
      · exact .pure _
      · exact .pure _

theorem recLoopA_keeps (S : Sorted F) (nth obj fuel : Nat) (r : RecState) :
    Keeps obj (recLoopA S nth obj fuel r) := by
  induction fuel generalizing r with
  | zero => exact .lift _
  | succ fuel ih =>
    unfold recLoopA
    refine .bind (recRoundA_keeps S nth obj r) fun o => ?_
    cases o with
    | done r => exact .pure _
    | next r => exact ih r

theorem cpuRecomputeA_keeps (hw : Nat) (S : Sorted F) (tmpnn : List (List Int)) (states : List State)
    (obj : Nat) : Keeps obj (cpuRecomputeA hw S tmpnn states obj) := by
  unfold cpuRecomputeA
  exact .bind (.objGet _) fun args => .bind (.lift _) fun nt => .bind (.lift _) fun k =>
    .bind (.lift _) fun pm => .bind (.lift _) fun tm => .bind (.lift _) fun _ =>
    .bind (recLoopA_keeps S _ obj _ _) fun r => .pure _

theorem byValue_keeps {α : Type} {f : Nat → CallM α} (hf : ∀ a, Keeps a (f a)) (arg n : Nat) :
    Keeps n (byValue arg f) := fun o _ => by
  rw [byValue_store hf]; exact ⟨rfl, rfl⟩

theorem tesellateBody_keeps (nb hw : Nat) (xyz : List (Pt F)) (obj : Nat) :
    Keeps obj (tesellateBody nb hw xyz obj) := by
  unfold tesellateBody
  refine .bind (.objGet _) fun args => .bind (.lift _) fun prm => .bind (.lift _) fun S =>
    .bind (.lift _) fun _ => .bind (.lift _) fun x => ?_
  obtain ⟨tmpnn, states⟩ := x
  simp only
  split
  · exact .bind (byValue_keeps (cpuRecomputeA_keeps hw S tmpnn states) _ _) fun _ => .pure _
  · exact .bind (.pure _) fun _ => .pure _

/-- C44: whatever a call does — return, throw, or recompute with changed `k`, `cc_p_maxsize` and
`cc_t_maxsize` — afterwards all parameter objects of the program are as they were. -/
theorem C44_unchanged (nb hw : Nat) (xyz : List (Pt F)) (caller : Nat) (o : Objs) :
    (tesellateArgs nb hw xyz caller o).2 = o :=
  byValue_store (tesellateBody_keeps nb hw xyz) caller o

/-! ### the parameters of recompute -/

/-- the object used by recompute: the grid resolution reads as `gr`, the keys that are written exist -/
structure RecObj (o : Objs) (obj : Nat) (gr : Int) (m : ArgMap) : Prop where
  at_ : o[obj]? = some m
  gr : m.int "knn_grid_resolution" = .ok gr
  k : (m.find "k").isSome
  pm : (m.find "cc_p_maxsize").isSome
  tm : (m.find "cc_t_maxsize").isSome

theorem find_put (m : ArgMap) (key key' : String) (v : Txt) (h : (m.find key).isSome) :
    (m.put key v).find key' = if key' = key then some v else m.find key' := by
  have := find_step m (key, v)
  obtain ⟨w, hw⟩ := Option.isSome_iff_exists.mp h
  simp only [ArgMap.step, ArgMap.assign, hw] at this
  rw [this]
  unfold specStep
  by_cases e : key' = key
  · subst e; simp [h]
  · simp [e]

theorem objSet_run {o : Objs} {a : Nat} {m : ArgMap} (hm : o[a]? = some m) {key : String}
    (hk : (m.find key).isSome) (v : Txt) : objSet a key v o = (.ok (), o.set a (m.put key v)) := by
  obtain ⟨w, hw⟩ := Option.isSome_iff_exists.mp hk
  unfold objSet
  rw [hm]
  simp only [ArgMap.assign, hw]

theorem int_of_show {m : ArgMap} {key : String} {v : Int} (h : m.find key = some (showInt v))
    (hv : -2 ^ 31 ≤ v ∧ v < 2 ^ 31) : m.int key = .ok v := by
  unfold ArgMap.int ArgMap.get
  rw [h]
  show conv (readInt (showInt v)) = _
  rw [C43_int_roundtrip v hv]; rfl

theorem bind_run_ok {α β : Type} {x : CallM α} {f : α → CallM β} {o o' : Objs} {a : α}
    (h : x o = (.ok a, o')) : (x >>= f) o = f a o' := by
  show CallM.bind x f o = _
  unfold CallM.bind; rw [h]

theorem bind_run_err {α β : Type} {x : CallM α} {f : α → CallM β} {o o' : Objs} {e : Stop}
    (h : x o = (.error e, o')) : (x >>= f) o = (.error e, o') := by
  show CallM.bind x f o = _
  unfold CallM.bind; rw [h]

theorem lift_run_ok {α β : Type} (a : α) (f : α → CallM β) (o : Objs) :
    (CallM.lift (liftM (.ok a)) >>= f) o = f a o := rfl

theorem lift_run_err {α β : Type} (e : UB) (f : α → CallM β) (o : Objs) :
    (CallM.lift (liftM (.error e)) >>= f) o = (.error (.ub e), o) := rfl

theorem liftE_run_ok {α β : Type} (a : α) (f : α → CallM β) (o : Objs) :
    (CallM.lift (liftE (.ok a)) >>= f) o = f a o := rfl

/-- the outcome is that of the computation with unbounded numbers, or signed overflow -/
def Agrees {α : Type} (x : Except Stop α) (y : M α) : Prop :=
  x = liftM y ∨ x = .error (.ub .overflow)

theorem i32_cases (v : Int) :
    (i32 v = .ok v ∧ -2 ^ 31 ≤ v ∧ v < 2 ^ 31) ∨ i32 v = .error .overflow := by
  unfold i32
  by_cases h : -2 ^ 31 ≤ v ∧ v < 2 ^ 31
  · rw [if_pos h]; exact Or.inl ⟨rfl, h⟩
  · rw [if_neg h]; exact Or.inr rfl

theorem nextK32_cases (k n : Int) :
    (nextK32 k n = .ok (if n - 1 < k * 2 then n - 1 else k * 2) ∧
      -2 ^ 31 ≤ (if n - 1 < k * 2 then n - 1 else k * 2) ∧
      (if n - 1 < k * 2 then n - 1 else k * 2) < 2 ^ 31) ∨
    nextK32 k n = .error .overflow := by
  unfold nextK32 mul32 sub32
  rcases i32_cases (k * 2) with ⟨h1, h2, h3⟩ | h
  · rcases i32_cases (n - 1) with ⟨g1, g2, g3⟩ | g
    · left
      rw [h1, bind_ok, g1, bind_ok]
      refine ⟨rfl, ?_, ?_⟩ <;> split <;> omega
    · right; rw [h1, bind_ok, g]; rfl
  · right; rw [h]; rfl

theorem dbl32_cases (u : Bool) (x : Int) :
    (dbl32 u x = .ok (if u then x * 2 else x) ∧ -2 ^ 31 ≤ (if u then x * 2 else x) ∧
      (if u then x * 2 else x) < 2 ^ 31) ∨ dbl32 u x = .error .overflow := by
  unfold dbl32 mul32
  have e : x * (if u then 2 else 1) = if u then x * 2 else x := by cases u <;> simp
  rw [e]
  exact i32_cases _

theorem alloc32_cases (a b c d : Int) : (∃ r, alloc32 a b c d = .ok r) ∨ alloc32 a b c d = .error .overflow := by
  unfold alloc32 len32Heap len32P len32T len32dR mul32
  rcases i32_cases (a * b) with ⟨h1, -⟩ | h
  · rw [h1, bind_ok]
    rcases i32_cases (a * c) with ⟨h2, -⟩ | h
    · rw [h2, bind_ok]
      rcases i32_cases (a * c * 4) with ⟨h3, -⟩ | h
      · rw [h3, bind_ok]
        rcases i32_cases (a * d) with ⟨h4, -⟩ | h
        · rw [h4, bind_ok]
          rcases i32_cases (a * d * 3) with ⟨h5, -⟩ | h
          · rw [h5]; exact Or.inl ⟨_, rfl⟩
          · rw [h]; exact Or.inr rfl
        · rw [h]; exact Or.inr rfl
      · rw [h]; exact Or.inr rfl
    · rw [h]; exact Or.inr rfl
  · rw [h]; exact Or.inr rfl

theorem recRoundA_agrees {S : Sorted F} {nth obj : Nat} {gr : Int} {r : RecState} {o : Objs}
    {m : ArgMap} (h : RecObj o obj gr m) :
    Agrees (recRoundA S nth obj r o).1 (recRound S gr nth r) ∧
      (∀ s, (recRoundA S nth obj r o).1 = .ok (.next s) →
        ∃ m', RecObj (recRoundA S nth obj r o).2 obj gr m') := by
  unfold recRoundA recRound
  cases hf : recFilter r.indices r.states with
  | error e =>
    rw [lift_run_err, bind_error]
    exact ⟨Or.inl rfl, fun s hs => by simp at hs⟩
  | ok x =>
    obtain ⟨indices, updp, updt⟩ := x
    rw [lift_run_ok, bind_ok]
    simp only
    by_cases h0 : indices.length = 0
    · rw [if_pos h0, if_pos h0]
      refine ⟨Or.inl rfl, fun s hs => ?_⟩
      injection hs with hs; cases hs
    rw [if_neg h0, if_neg h0]
    rcases nextK32_cases r.k S.xyz.length with ⟨hk, hkr⟩ | hk
    case inr => rw [hk, lift_run_err]; exact ⟨Or.inr rfl, fun s hs => by simp at hs⟩
    rw [hk, lift_run_ok]
    rcases dbl32_cases updp r.pm with ⟨hp, hpr⟩ | hp
    case inr => rw [hp, lift_run_err]; exact ⟨Or.inr rfl, fun s hs => by simp at hs⟩
    rw [hp, lift_run_ok]
    rcases dbl32_cases updt r.tm with ⟨ht, htr⟩ | ht
    case inr => rw [ht, lift_run_err]; exact ⟨Or.inr rfl, fun s hs => by simp at hs⟩
    rw [ht, lift_run_ok]
    generalize (if (S.xyz.length : Int) - 1 < r.k * 2 then (S.xyz.length : Int) - 1 else r.k * 2) = k at hkr ⊢
    generalize (if updp then r.pm * 2 else r.pm) = pm at hpr ⊢
    generalize (if updt then r.tm * 2 else r.tm) = tm at htr ⊢
    have ha : obj < o.length := (List.getElem?_eq_some_iff.mp h.at_).1
    -- the three assignments
    obtain ⟨m', o', hset, hm', i1, i2, i3, i4, j1, j2, j3⟩ : ∃ m' o',
        (∀ {γ : Type} (f : CallM γ), (objSet obj "k" (showInt k) >>= fun _ =>
          objSet obj "cc_p_maxsize" (showInt pm) >>= fun _ =>
          objSet obj "cc_t_maxsize" (showInt tm) >>= fun _ => f) o = f o') ∧ o'[obj]? = some m' ∧
        m'.int "knn_grid_resolution" = .ok gr ∧ m'.int "k" = .ok k ∧ m'.int "cc_p_maxsize" = .ok pm ∧
        m'.int "cc_t_maxsize" = .ok tm ∧ (m'.find "k").isSome ∧ (m'.find "cc_p_maxsize").isSome ∧
        (m'.find "cc_t_maxsize").isSome := by
      have k1 : ((m.put "k" (showInt k)).find "cc_p_maxsize").isSome := by
        rw [find_put _ _ _ _ h.k]; simp only [show "cc_p_maxsize" ≠ "k" by decide, if_false]; exact h.pm
      have k2 : (((m.put "k" (showInt k)).put "cc_p_maxsize" (showInt pm)).find "cc_t_maxsize").isSome := by
        rw [find_put _ _ _ _ k1, find_put _ _ _ _ h.k]
        simp only [show "cc_t_maxsize" ≠ "k" by decide, show "cc_t_maxsize" ≠ "cc_p_maxsize" by decide, if_false]
        exact h.tm
      have fnd : ∀ key, (((m.put "k" (showInt k)).put "cc_p_maxsize" (showInt pm)).put "cc_t_maxsize"
          (showInt tm)).find key = if key = "cc_t_maxsize" then some (showInt tm) else
            if key = "cc_p_maxsize" then some (showInt pm) else if key = "k" then some (showInt k)
            else m.find key := by
        intro key
        rw [find_put _ _ _ _ k2, find_put _ _ _ _ k1, find_put _ _ _ _ h.k]
      refine ⟨((m.put "k" (showInt k)).put "cc_p_maxsize" (showInt pm)).put "cc_t_maxsize" (showInt tm),
        ((o.set obj (m.put "k" (showInt k))).set obj
          ((m.put "k" (showInt k)).put "cc_p_maxsize" (showInt pm))).set obj
          (((m.put "k" (showInt k)).put "cc_p_maxsize" (showInt pm)).put "cc_t_maxsize" (showInt tm)),
        ?_, ?_, ?_, ?_, ?_, ?_, ?_, ?_, ?_⟩
      · intro γ f
        rw [bind_run_ok (objSet_run h.at_ h.k _),
          bind_run_ok (objSet_run (m := m.put "k" (showInt k)) (by simp [ha]) k1 _),
          bind_run_ok (objSet_run (m := (m.put "k" (showInt k)).put "cc_p_maxsize" (showInt pm))
            (by simp [ha]) k2 _)]
      · simp [ha]
      · have hg := h.gr
        unfold ArgMap.int ArgMap.get at hg ⊢
        rw [fnd "knn_grid_resolution"]
        simpa using hg
      · exact int_of_show (by rw [fnd]; simp) hkr
      · exact int_of_show (by rw [fnd]; simp) hpr
      · exact int_of_show (by rw [fnd]; simp) htr
      · rw [fnd]; simp
      · rw [fnd]; simp
      · rw [fnd]; simp
    rw [hset]
    rcases alloc32_cases indices.length k pm tm with ⟨al, hal⟩ | hal
    case inr => rw [hal, lift_run_err]; exact ⟨Or.inr rfl, fun s hs => by simp at hs⟩
    rw [hal, lift_run_ok]
    have hget : objGet obj o' = (.ok m', o') := by unfold objGet; rw [hm']
    cases hc : ccArgs k pm tm with
    | error e =>
      rw [lift_run_err, bind_error]
      exact ⟨Or.inl rfl, fun s hs => by simp at hs⟩
    | ok a =>
    rw [lift_run_ok, bind_run_ok hget, i1,
      liftE_run_ok, i2, liftE_run_ok, i3,
      liftE_run_ok, i4, liftE_run_ok, hc,
      lift_run_ok, bind_ok]
    by_cases hn : nth = 0
    · rw [if_pos hn, if_pos hn]
      exact ⟨Or.inl rfl, fun s hs => by simp [CallM.lift] at hs⟩
    rw [if_neg hn, if_neg hn]
    cases hr : (allRows nth (indices.length / nth) indices.length).foldlM
        (fun st idx => runTask S gr a indices idx st)
        ((Bufs.alloc indices.length a.k a.pm a.tm : Bufs F D), r.states.map State.reset) with
    | error e =>
      rw [lift_run_err, bind_error]
      exact ⟨Or.inl rfl, fun s hs => by simp at hs⟩
    | ok y =>
    obtain ⟨bufs, states⟩ := y
    rw [lift_run_ok, bind_ok]
    simp only
    rw [bind_run_ok hget, i2, liftE_run_ok]
    cases hq : tmpnnFill indices indices.length bufs.heap r.tmpnn with
    | error e =>
      rw [lift_run_err, bind_error]
      exact ⟨Or.inl rfl, fun s hs => by simp at hs⟩
    | ok tmpnn =>
    rw [lift_run_ok, bind_ok]
    by_cases he : (S.xyz.length : Int) - 1 ≤ k
    · rw [if_pos he, if_pos he]
      exact ⟨Or.inl rfl, fun s _ => ⟨m', hm', i1, j1, j2, j3⟩⟩
    · rw [if_neg he, if_neg he]
      exact ⟨Or.inl rfl, fun s _ => ⟨m', hm', i1, j1, j2, j3⟩⟩

theorem Agrees.bind {α β : Type} {x : CallM α} {y : M α} {f : α → CallM β} {g : α → M β} {o : Objs}
    (h : Agrees (x o).1 y) (hf : ∀ a, x o = (.ok a, (x o).2) → Agrees (f a (x o).2).1 (g a)) :
    Agrees ((x >>= f) o).1 (y >>= g) := by
  cases hx : x o with
  | mk r o' =>
  rw [hx] at h hf
  cases r with
  | error e =>
    rw [bind_run_err hx]
    rcases h with h | h
    · cases y with
      | error e' => left; simp only [liftM, Except.error.injEq] at h; subst h; rfl
      | ok v => simp [liftM] at h
    · right; simp only [Except.error.injEq] at h; subst h; rfl
  | ok v =>
    rw [bind_run_ok hx]
    rcases h with h | h
    · cases y with
      | error e' => simp [liftM] at h
      | ok v' =>
        simp only [liftM, Except.ok.injEq] at h
        subst h
        exact hf v rfl
    · simp at h

theorem recLoopA_agrees {S : Sorted F} {nth obj : Nat} {gr : Int} (fuel : Nat) (r : RecState)
    (o : Objs) (m : ArgMap) (h : RecObj o obj gr m) :
    Agrees (recLoopA S nth obj fuel r o).1 (recLoop S gr nth fuel r) := by
  induction fuel generalizing r o m with
  | zero => exact Or.inl rfl
  | succ fuel ih =>
    have h1 := recRoundA_agrees (S := S) (nth := nth) (r := r) h
    unfold recLoopA recLoop
    refine Agrees.bind h1.1 fun a ha => ?_
    cases a with
    | done r' => exact Or.inl rfl
    | next r' =>
      obtain ⟨m', hm'⟩ := h1.2 r' (by rw [ha])
      exact ih r' _ m' hm'

/-- the parameters that recompute needs read as in `prm` -/
theorem params_rec {m : ArgMap} {prm : Params} (h : m.params = .ok prm) :
    m.int "knn_grid_resolution" = .ok prm.gr ∧ m.nthreads = .ok prm.nthreads ∧
    m.int "k" = .ok prm.k ∧ m.int "cc_p_maxsize" = .ok prm.pm ∧ m.int "cc_t_maxsize" = .ok prm.tm := by
  unfold ArgMap.params at h
  simp only [bind, Except.bind] at h
  cases h0 : m.bool "dev_suppress_stdout" with
  | error e => rw [h0] at h; cases h
  | ok b0 =>
  rw [h0] at h; simp only at h
  cases h1 : m.int "knn_grid_resolution" with
  | error e => rw [h1] at h; cases h
  | ok gr =>
  rw [h1] at h; simp only at h
  cases h2 : m.nthreads with
  | error e => rw [h2] at h; cases h
  | ok nth =>
  rw [h2] at h; simp only at h
  cases h3 : m.bool "use_chunking" with
  | error e => rw [h3] at h; cases h
  | ok uc =>
  rw [h3] at h; simp only at h
  cases h4 : m.int "chunksize" <;> cases h5 : m.int "k" <;> cases h6 : m.int "cc_p_maxsize" <;>
    cases h7 : m.int "cc_t_maxsize" <;> cases h8 : m.bool "use_recompute" <;>
    rw [h4, h5, h6, h7, h8] at h <;> cases uc <;> simp [pure, Except.pure] at h <;> subst h <;>
    exact ⟨rfl, rfl, rfl, rfl, rfl⟩

theorem find_of_int {m : ArgMap} {key : String} {v : Int} (h : m.int key = .ok v) :
    (m.find key).isSome := by
  unfold ArgMap.int ArgMap.get at h
  cases hf : m.find key with
  | some w => rfl
  | none => rw [hf] at h; cases h

theorem cpuRecomputeA_agrees (hw : Nat) {S : Sorted F} (tmpnn : List (List Int)) (states : List State)
    {o : Objs} {obj : Nat} {m : ArgMap} {prm : Params} (ho : o[obj]? = some m)
    (hp : m.params = .ok prm) :
    Agrees (cpuRecomputeA hw S tmpnn states obj o).1 (cpuRecompute hw prm S tmpnn states) := by
  obtain ⟨g1, g2, g3, g4, g5⟩ := params_rec hp
  have hget : objGet obj o = (.ok m, o) := by unfold objGet; rw [ho]
  unfold cpuRecomputeA cpuRecompute
  rw [bind_run_ok hget, g2, liftE_run_ok, g3, liftE_run_ok, g4, liftE_run_ok, g5, liftE_run_ok]
  generalize ((List.range S.xyz.length).filter fun i =>
    match states[i]? with
    | some s => !s.get .security_radius_reached
    | none => false).map (fun i : Nat => (i : Int)) = indices
  rcases alloc32_cases indices.length prm.k prm.pm prm.tm with ⟨al, hal⟩ | hal
  case inr => rw [hal, lift_run_err]; exact Or.inr rfl
  rw [hal, lift_run_ok]
  have h := recLoopA_agrees (S := S) (nth := if prm.nthreads ≠ 0 then prm.nthreads else hw)
    (S.xyz.length + 2)
    { k := prm.k, pm := prm.pm, tm := prm.tm, indices := indices, tmpnn := tmpnn, states := states }
    o m ⟨ho, g1, find_of_int g3, find_of_int g4, find_of_int g5⟩
  exact Agrees.bind h fun a _ => Or.inl rfl

theorem byValue_run {α : Type} {f : Nat → CallM α} {arg : Nat} {o : Objs} {m : ArgMap}
    (h : o[arg]? = some m) : (byValue arg f o).1 = (f o.length (o ++ [m])).1 := by
  unfold byValue; rw [h]

theorem cpuSizes32_cases (u : Bool) (cs k pm tm : Int) (n : Nat) :
    (∃ r, cpuSizes32 u cs k pm tm n = .ok r) ∨ cpuSizes32 u cs k pm tm n = .error .overflow := by
  unfold cpuSizes32 chunk32 add32
  cases u
  · simp only [Bool.false_eq_true, if_false]
    rcases i32_cases (toInt32 n + 1) with ⟨h, -⟩ | h
    · rw [h, bind_ok]; exact alloc32_cases _ _ _ _
    · rw [h]; exact Or.inr rfl
  · simp only [if_true]
    exact alloc32_cases _ _ _ _

theorem tesellateBody_agrees (nb hw : Nat) (xyz : List (Pt F)) {o : Objs} {obj : Nat} {m : ArgMap}
    {prm : Params} (ho : o[obj]? = some m) (hp : m.params = .ok prm) :
    Agrees (tesellateBody nb hw xyz obj o).1 (tesellateCpu nb hw prm xyz) := by
  have hget : objGet obj o = (.ok m, o) := by unfold objGet; rw [ho]
  unfold tesellateBody tesellateCpu
  rw [bind_run_ok hget, hp, liftE_run_ok]
  cases hS : xyzSort nb prm.gr xyz with
  | error e => rw [lift_run_err, bind_error]; exact Or.inl rfl
  | ok S =>
  rw [lift_run_ok, bind_ok]
  rcases cpuSizes32_cases prm.useChunking prm.chunksize prm.k prm.pm prm.tm S.xyz.length with ⟨al, hal⟩ | hal
  case inr => rw [hal, lift_run_err]; exact Or.inr rfl
  rw [hal, lift_run_ok]
  simp only
  cases hc : cpuTesellate hw prm S (List.replicate S.xyz.length [])
      (List.replicate S.xyz.length State.init) with
  | error e => rw [lift_run_err, bind_error]; exact Or.inl rfl
  | ok x =>
  obtain ⟨tmpnn, states⟩ := x
  rw [lift_run_ok, bind_ok]
  simp only
  by_cases hu : prm.useRecompute = true
  · rw [if_pos hu, if_pos hu]
    have h := cpuRecomputeA_agrees hw (S := S) tmpnn states (o := o ++ [m]) (obj := o.length)
      (by simp) hp
    rw [← byValue_run (f := cpuRecomputeA hw S tmpnn states) ho] at h
    exact Agrees.bind h fun a _ => Or.inl rfl
  · rw [if_neg hu, if_neg hu]
    exact Or.inl rfl

/-- C44: a call on an object whose parameters read as `prm` does what the call with the numbers
`prm` does, though recompute passes on its `k`, `cc_p_maxsize` and `cc_t_maxsize` as text — or a
size overflows `int`.  Fewer than 2^31 points. -/
theorem C44_call (nb hw : Nat) (xyz : List (Pt F)) {o : Objs} {caller : Nat} {m : ArgMap}
    {prm : Params} (ho : o[caller]? = some m) (hp : m.params = .ok prm) :
    (tesellateArgs nb hw xyz caller o).1 = liftM (tesellateCpu nb hw prm xyz) ∨
    (tesellateArgs nb hw xyz caller o).1 = .error (.ub .overflow) := by
  unfold tesellateArgs
  rw [byValue_run ho]
  exact tesellateBody_agrees nb hw xyz (by simp) hp

/-- C44: a result is the result for the numbers `prm` -/
theorem C44_result {nb hw : Nat} {xyz : List (Pt F)} {o : Objs} {caller : Nat} {m : ArgMap}
    {prm : Params} {out : TessOut F} (ho : o[caller]? = some m) (hp : m.params = .ok prm)
    (h : (tesellateArgs nb hw xyz caller o).1 = .ok out) : tesellateCpu nb hw prm xyz = .ok out := by
  rcases C44_call nb hw xyz ho hp with h' | h'
  · rw [h] at h'
    cases ht : tesellateCpu nb hw prm xyz with
    | error e => rw [ht] at h'; cases h'
    | ok y => rw [ht] at h'; cases h'; rfl
  · rw [h] at h'; cases h'

/-- C44: two calls one after the other with the same object, on the same points, give the same -/
theorem C44_twice (nb hw : Nat) (xyz : List (Pt F)) (caller : Nat) (o : Objs) :
    tesellateArgs nb hw xyz caller (tesellateArgs nb hw xyz caller o).2 =
      tesellateArgs nb hw xyz caller o := by
  rw [C44_unchanged]

/-- C44: if a value of the caller's object does not convert the call throws, changing nothing -/
theorem C44_bad_value (nb hw : Nat) (xyz : List (Pt F)) {o : Objs} {caller : Nat} {m : ArgMap}
    {e : Exn} (ho : o[caller]? = some m) (hp : m.params = .error e) :
    tesellateArgs nb hw xyz caller o = (.error (.exn e), o) := by
  refine Prod.ext ?_ (C44_unchanged nb hw xyz caller o)
  unfold tesellateArgs
  rw [byValue_run ho]
  have hget : objGet o.length (o ++ [m]) = (.ok m, o ++ [m]) := by unfold objGet; simp
  unfold tesellateBody
  rw [bind_run_ok hget, hp]
  rfl

end any

/-! ### a run that recomputes -/

/-- the caller's object: `k` 1, grid resolution 4, one thread, recompute on -/
def lineObj : ArgMap :=
  (ArgMap.step (ArgMap.step (ArgMap.step (ArgMap.step ArgMap.init ("k", "1".toList))
    ("knn_grid_resolution", "4".toList)) ("cpu_nthreads", "1".toList)) ("use_recompute", showBool true))

theorem lineObj_params : lineObj.params = .ok ⟨1, 4, 32, 32, 1, 0, false, true⟩ := by decide +kernel

/-- the first pass finds one neighbour of each point, recompute goes on with `k` 2 and the row of the
middle point gets both; two objects, the second is the caller's -/
theorem lineObj_call : ((tesellateArgs 4 1 linePts 1 [ArgMap.init, lineObj]).1.map fun o => o.dnn) =
    .ok (getDnn [[1], [0, 2], [1]]) ∧
    (tesellateArgs 4 1 linePts 1 [ArgMap.init, lineObj]).2 = [ArgMap.init, lineObj] := by
  refine ⟨?_, C44_unchanged _ _ _ _ _⟩
  unfold tesellateArgs byValue tesellateBody
  simp only [xyzSort_eq]
  decide +kernel

end Votess
