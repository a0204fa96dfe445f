import Verif.Model.Args
/-!
# C42, C43 — parameters
-/
namespace Votess

/-! ### C42: a fixed-key map -/

/-- an assignment `vtargs[key] = v`; a throwing assignment leaves the object as it is -/
def ArgMap.step (m : ArgMap) (op : String × Txt) : ArgMap :=
  match m.assign op.1 op.2 with
  | .ok m' => m'
  | .error _ => m

/-- specification: a partial map from keys to texts that never changes its domain -/
def specStep (m : String → Option Txt) (op : String × Txt) : String → Option Txt :=
  fun key => if key = op.1 ∧ (m key).isSome then some op.2 else m key

theorem lookup_put (m : ArgMap) (key key' : String) (v : Txt) :
    (m.put key v).find key' = if key' = key ∧ (m.find key').isSome then some v else m.find key' := by
  unfold ArgMap.put ArgMap.find
  induction m with
  | nil => simp
  | cons e m ih =>
    obtain ⟨k0, v0⟩ := e
    simp only [List.map_cons]
    by_cases h : k0 = key
    · subst h
      simp only [if_true, List.lookup_cons]
      by_cases h2 : key' = k0
      · subst h2; simp
      · have : (key' == k0) = false := by simpa using h2
        simp only [this, ih]
    · simp only [if_neg h, List.lookup_cons]
      by_cases h2 : key' = k0
      · subst h2; simp [h]
      · have : (key' == k0) = false := by simpa using h2
        simp only [this, ih]

theorem find_step (m : ArgMap) (op : String × Txt) : (m.step op).find = specStep m.find op := by
  funext key
  unfold ArgMap.step ArgMap.assign specStep
  cases h : m.find op.1 with
  | none =>
    by_cases hk : key = op.1
    · subst hk; simp [h]
    · simp [hk]
  | some v => simp only [lookup_put]

/-- C42: after any sequence of assignments, from any starting parameters, every key reads
as in the abstract map. -/
theorem C42_map (m : ArgMap) (ops : List (String × Txt)) :
    (ops.foldl ArgMap.step m).find = ops.foldl specStep m.find := by
  induction ops generalizing m with
  | nil => rfl
  | cons op ops ih => simp only [List.foldl_cons, ih, find_step]

/-- C42: the set of accepted keys never changes. -/
theorem C42_keys_fixed (m : ArgMap) (ops : List (String × Txt)) (key : String) :
    ((ops.foldl ArgMap.step m).find key).isSome = (m.find key).isSome := by
  rw [C42_map]
  suffices H : ∀ f : String → Option Txt, ((ops.foldl specStep f) key).isSome = (f key).isSome from H _
  induction ops with
  | nil => intro f; rfl
  | cons op ops ih =>
    intro f
    rw [List.foldl_cons, ih]
    unfold specStep
    split
    · rename_i h; simp [h.2]
    · rfl

/-- C42: reading returns the last assigned value … -/
theorem C42_last_assignment (m : ArgMap) (ops : List (String × Txt)) (key : String) (v : Txt)
    (later : List (String × Txt)) (hkey : (m.find key).isSome)
    (hlater : ∀ op ∈ later, op.1 ≠ key) :
    ((ops ++ (key, v) :: later).foldl ArgMap.step m).get key = .ok v := by
  have h1 : ((ops ++ (key, v) :: later).foldl ArgMap.step m).find key = some v := by
    rw [List.foldl_append, List.foldl_cons, C42_map]
    have h2 : ((ops.foldl ArgMap.step m).step (key, v)).find key = some v := by
      rw [find_step]; unfold specStep
      rw [if_pos]; exact ⟨rfl, by rw [C42_keys_fixed]; exact hkey⟩
    generalize ((ops.foldl ArgMap.step m).step (key, v)).find = f at h2
    induction later generalizing f with
    | nil => exact h2
    | cons op later ih =>
      rw [List.foldl_cons]
      apply ih (fun o ho => hlater o (List.mem_cons_of_mem _ ho))
      unfold specStep
      rw [if_neg]; · exact h2
      · intro ⟨h, _⟩; exact hlater op (by simp) h.symm
  unfold ArgMap.get
  rw [h1]

/-- C42: … and a key that was not assigned keeps its value (its default at the start). -/
theorem C42_unassigned (m : ArgMap) (ops : List (String × Txt)) (key : String)
    (h : ∀ op ∈ ops, op.1 ≠ key) : (ops.foldl ArgMap.step m).get key = m.get key := by
  have h1 : (ops.foldl ArgMap.step m).find key = m.find key := by
    rw [C42_map]
    suffices H : ∀ f : String → Option Txt, (ops.foldl specStep f) key = f key from H _
    induction ops with
    | nil => intro f; rfl
    | cons op ops ih =>
      intro f
      rw [List.foldl_cons, ih (fun o ho => h o (List.mem_cons_of_mem _ ho))]
      unfold specStep
      rw [if_neg]; intro ⟨hk, _⟩; exact h op (by simp) hk.symm
  simp [ArgMap.get, h1]

/-- the ten documented keys -/
def knownKeys : List String :=
  ["k", "cpu_nthreads", "gpu_ndsize", "chunksize", "use_chunking", "use_recompute",
   "knn_grid_resolution", "cc_p_maxsize", "cc_t_maxsize", "dev_suppress_stdout"]

/-- C42: after any assignments on a fresh object, reading and writing a key throws
`invalid_argument` exactly if it is not one of the ten documented keys. -/
theorem C42_unknown_key_throws (ops : List (String × Txt)) (key : String) (v : Txt) :
    ((ops.foldl ArgMap.step ArgMap.init).get key = .error .invalidArgument ↔ key ∉ knownKeys) ∧
    ((ops.foldl ArgMap.step ArgMap.init).assign key v = .error .invalidArgument
      ↔ key ∉ knownKeys) := by
  have hdom : (ArgMap.init.find key).isSome = true ↔ key ∈ knownKeys := by
    unfold ArgMap.init ArgMap.find knownKeys
    rw [List.lookup_isSome_iff]
    simp
  have hs := C42_keys_fixed ArgMap.init ops key
  constructor
  · unfold ArgMap.get
    cases h : (ops.foldl ArgMap.step ArgMap.init).find key <;> simp [h] at hs ⊢ <;> simp_all
  · unfold ArgMap.assign
    cases h : (ops.foldl ArgMap.step ArgMap.init).find key <;> simp [h] at hs ⊢ <;> simp_all

example : (ArgMap.init.find "k").isSome := by decide
example : ArgMap.init.get "no_such_key" = .error .invalidArgument := rfl
example : (([("k", showInt 7), ("zzz", showInt 1), ("k", showInt 9)].foldl ArgMap.step
    ArgMap.init).int "k") = .ok 9 := rfl

/-! ### C43: round trips -/

theorem digitVal_digitChar (d : Nat) (h : d < 10) : digitVal (digitChar d) = some d := by
  have : ∀ d < 10, digitVal (digitChar d) = some d := by decide
  exact this d h

theorem readDigits_append (l l' : Txt) (acc : Option Nat) (hl : ∀ c ∈ l, (digitVal c).isSome) :
    readDigits (l ++ l') acc = readDigits l' (readDigits l acc) := by
  induction l generalizing acc with
  | nil => rfl
  | cons c l ih =>
    have hc := hl c (by simp)
    obtain ⟨d, hd⟩ := Option.isSome_iff_exists.mp hc
    simp only [List.cons_append, readDigits, hd]
    exact ih _ (fun c hc => hl c (List.mem_cons_of_mem _ hc))

theorem natDigitsAux_digits (fuel n : Nat) : ∀ c ∈ natDigitsAux fuel n, (digitVal c).isSome := by
  induction fuel generalizing n with
  | zero => simp [natDigitsAux]
  | succ fuel ih =>
    intro c hc
    simp only [natDigitsAux] at hc
    split at hc
    · simp at hc; subst hc; rw [digitVal_digitChar _ (by assumption)]; rfl
    · simp at hc
      rcases hc with hc | rfl
      · exact ih _ _ hc
      · rw [digitVal_digitChar _ (Nat.mod_lt _ (by decide))]; rfl

theorem readDigits_natDigitsAux (fuel n : Nat) (h : n < fuel) :
    readDigits (natDigitsAux fuel n) none = some n := by
  induction fuel generalizing n with
  | zero => omega
  | succ fuel ih =>
    simp only [natDigitsAux]
    split
    · rename_i hn; simp [readDigits, digitVal_digitChar n hn]
    · rename_i hn
      rw [readDigits_append _ _ _ (natDigitsAux_digits _ _), ih (n / 10) (by omega)]
      simp only [readDigits, digitVal_digitChar _ (Nat.mod_lt n (by decide : 10 > 0)),
        Option.getD_some]
      simp; omega

theorem natDigitsAux_cons (fuel n : Nat) (h : n < fuel) :
    ∃ c cs, natDigitsAux fuel n = c :: cs ∧ (digitVal c).isSome := by
  have hd := natDigitsAux_digits fuel n
  have hr := readDigits_natDigitsAux fuel n h
  cases hl : natDigitsAux fuel n with
  | nil => rw [hl] at hr; simp [readDigits] at hr
  | cons c cs => exact ⟨c, cs, rfl, hd c (by rw [hl]; simp)⟩

theorem digit_not_space (c : Char) (h : (digitVal c).isSome) :
    isSpaceC c = false ∧ c ≠ '-' ∧ c ≠ '+' := by
  unfold digitVal at h
  split at h
  · rename_i hc
    refine ⟨?_, ?_, ?_⟩
    · unfold isSpaceC
      simp only [Bool.or_eq_false_iff, decide_eq_false_iff_not]
      refine ⟨⟨⟨⟨⟨?_, ?_⟩, ?_⟩, ?_⟩, ?_⟩, ?_⟩ <;> (rintro rfl; revert hc; decide)
    · rintro rfl; revert hc; decide
    · rintro rfl; revert hc; decide
  · simp at h

theorem readSigned_showNat (n : Nat) : readSigned (showNat n) = some (false, n) := by
  obtain ⟨c, cs, hc, hd⟩ := natDigitsAux_cons (n + 1) n (by omega)
  obtain ⟨h1, h2, h3⟩ := digit_not_space c hd
  have hr := readDigits_natDigitsAux (n + 1) n (by omega)
  unfold readSigned showNat
  rw [hc] at hr ⊢
  simp only [List.dropWhile_cons, h1]
  simp [hr, h2, h3]

theorem readSigned_showInt (i : Int) : readSigned (showInt i) = some (decide (i < 0), i.natAbs) := by
  unfold showInt
  split
  · rename_i h
    have hr := readDigits_natDigitsAux (i.natAbs + 1) i.natAbs (by omega)
    have : isSpaceC '-' = false := by decide
    simp [readSigned, this, showNat, hr, h]
  · rename_i h
    rw [readSigned_showNat]; simp [h]

/-- C43: an `int` stored in a parameter is read back unchanged. -/
theorem C43_int_roundtrip (i : Int) (h : -2 ^ 31 ≤ i ∧ i < 2 ^ 31) :
    readInt (showInt i) = some i := by
  unfold readInt
  rw [readSigned_showInt]
  have e : (if decide (i < 0) = true then -(i.natAbs : Int) else (i.natAbs : Int)) = i := by
    by_cases hi : i < 0
    · simp [hi]; omega
    · simp [hi]; omega
  simp only [e]
  rw [if_pos h]

/-- C43: a `bool` is read back unchanged, as `bool` and as `int` 0/1. -/
theorem C43_bool_roundtrip (b : Bool) :
    readBool (showBool b) = some b ∧ readInt (showBool b) = some (if b then 1 else 0) := by
  cases b <;> decide

/-- C43: an `int` outside {0, 1} read as `bool` throws, 0 and 1 do not. -/
theorem C43_int_as_bool (i : Int) :
    readBool (showInt i) = if i = 0 then some false else if i = 1 then some true else none := by
  unfold readBool
  rw [readSigned_showInt]
  by_cases h0 : i = 0
  · subst h0; rfl
  · by_cases h1 : i = 1
    · subst h1; rfl
    · rw [if_neg h0, if_neg h1]
      split
      · rename_i h; simp at h
      · rename_i h; simp at h; omega
      · rename_i h; simp at h; omega
      · rfl

/-- C43: a text whose first non-blank character is neither a digit nor a sign throws when it
is read as `int`. -/
theorem C43_text_as_int (blanks rest : Txt) (c : Char) (hb : ∀ b ∈ blanks, isSpaceC b = true)
    (hs : isSpaceC c = false) (hc : digitVal c = none) (h1 : c ≠ '-') (h2 : c ≠ '+') :
    readInt (blanks ++ c :: rest) = none := by
  have : (blanks ++ c :: rest).dropWhile isSpaceC = c :: rest := by
    induction blanks with
    | nil => simp [hs]
    | cons b bs ih =>
      simp only [List.cons_append, List.dropWhile_cons, hb b (by simp), if_true]
      exact ih (fun b hb' => hb b (List.mem_cons_of_mem _ hb'))
  unfold readInt readSigned
  rw [this]
  simp [h1, h2, readDigits, hc]

/-- C43: anything after the digits is ignored, so a decimal fraction read as `int` is
silently truncated to its integer part. -/
theorem C43_truncation (i : Int) (h : -2 ^ 31 ≤ i ∧ i < 2 ^ 31) (c : Char) (rest : Txt)
    (hc : digitVal c = none) : readInt (showInt i ++ c :: rest) = some i := by
  have key : readSigned (showInt i ++ c :: rest) = readSigned (showInt i) := by
    rw [readSigned_showInt]
    have hd : ∀ n, readDigits (showNat n ++ c :: rest) none = some n := by
      intro n
      unfold showNat
      rw [readDigits_append _ _ _ (natDigitsAux_digits _ _), readDigits_natDigitsAux _ _ (by omega)]
      simp [readDigits, hc]
    unfold showInt
    split
    · rename_i hi
      have : isSpaceC '-' = false := by decide
      simp [readSigned, this, hd, hi]
    · rename_i hi
      obtain ⟨c', cs, hcs, hdig⟩ := natDigitsAux_cons (i.natAbs + 1) i.natAbs (by omega)
      obtain ⟨h1, h2, h3⟩ := digit_not_space c' hdig
      have := hd i.natAbs
      unfold showNat at this ⊢
      rw [hcs] at this ⊢
      unfold readSigned
      simp only [List.cons_append, List.dropWhile_cons, h1]
      simp only [List.cons_append] at this
      simp [this, hi, h2, h3]
  have h0 := C43_int_roundtrip i h
  unfold readInt at h0 ⊢
  rw [key]; exact h0

/-- reading a negative number as an unsigned type does not throw, it wraps: assigning `-1`
threads asks for `2^32 - 1` threads -/
theorem C43_negative_nthreads (m m' : ArgMap)
    (h : m.assign "cpu_nthreads" (showInt (-1)) = .ok m') : m'.nthreads = .ok 4294967295 := by
  have hf : m'.find "cpu_nthreads" = some (showInt (-1)) := by
    have := find_step m ("cpu_nthreads", showInt (-1))
    unfold ArgMap.step at this
    rw [h] at this
    simp only at this
    rw [this]
    unfold specStep
    unfold ArgMap.assign at h
    cases h3 : m.find "cpu_nthreads" with
    | none => rw [h3] at h; simp at h
    | some v => simp
  unfold ArgMap.nthreads ArgMap.get
  rw [hf]
  rfl

/-- the documented default values -/
def defaults : List (String × Int) :=
  [("k", 64), ("cpu_nthreads", 0), ("gpu_ndsize", 1), ("chunksize", 8196), ("use_chunking", 0),
   ("use_recompute", 0), ("knn_grid_resolution", 16), ("cc_p_maxsize", 32), ("cc_t_maxsize", 32),
   ("dev_suppress_stdout", 1)]

/-- C42: a parameter that was never assigned on a fresh object reads as its documented default. -/
theorem C42_default (ops : List (String × Txt)) (key : String) (v : Int) (hv : (key, v) ∈ defaults)
    (h : ∀ op ∈ ops, op.1 ≠ key) : (ops.foldl ArgMap.step ArgMap.init).int key = .ok v := by
  unfold ArgMap.int
  rw [C42_unassigned _ _ _ h]
  simp only [defaults, List.mem_cons, Prod.mk.injEq, List.not_mem_nil, or_false] at hv
  rcases hv with ⟨rfl, rfl⟩ | ⟨rfl, rfl⟩ | ⟨rfl, rfl⟩ | ⟨rfl, rfl⟩ | ⟨rfl, rfl⟩ | ⟨rfl, rfl⟩ |
    ⟨rfl, rfl⟩ | ⟨rfl, rfl⟩ | ⟨rfl, rfl⟩ | ⟨rfl, rfl⟩ <;> rfl

/-- C43: a non-negative thread count is read back as that count (0 stands for the hardware's). -/
theorem C43_nthreads (m : ArgMap) (n : Nat) (hn : n < 2 ^ 31)
    (hf : m.find "cpu_nthreads" = some (showInt n)) : m.nthreads = .ok n := by
  have key : ∀ bits, 32 ≤ bits → readUnsigned bits (showInt (n : Int)) = some n := by
    intro bits hb
    have h2 : (2 : Nat) ^ 32 ≤ 2 ^ bits := Nat.pow_le_pow_right (by omega) hb
    unfold readUnsigned
    rw [readSigned_showInt]
    simp only [Int.natAbs_natCast]
    rw [if_pos (by omega), if_neg (by simp)]
  unfold ArgMap.nthreads ArgMap.get
  rw [hf]
  show (conv (readUnsigned 64 (showInt (n : Int))) >>= fun v =>
    if v ≠ 0 then conv (readUnsigned 32 (showInt (n : Int))) else pure 0) = _
  rw [key 64 (by omega), key 32 (by omega)]
  show (if n ≠ 0 then _ else _) = _
  by_cases h : n = 0
  · subst h; rfl
  · rw [if_pos h]; rfl

example : (ArgMap.init.put "cpu_nthreads" (showInt 12)).nthreads = .ok 12 :=
  C43_nthreads _ 12 (by omega) rfl

example : readInt (showInt (-2147483648)) = some (-2147483648) := by decide
example : readInt "3.7".toList = some 3 := by decide
example : readInt "abc".toList = none := by decide
example : ArgMap.init.params = .ok ⟨64, 16, 32, 32, 0, 0, false, false⟩ := rfl

end Votess
