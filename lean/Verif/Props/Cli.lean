import Mathlib.Data.List.Forall2
import Verif.Proofs.Cli
/-!
# C45 — the command line program

What the arguments of the program mean, when it fails and what it prints.  The reading of
the argument list is stated first (`C45_spellings` …), then the meaning of the options
(`C45_settings` …), then the run as a whole.
-/
namespace Votess

/-! ### Specification -/

/-- the number written at the start of a text: white space, sign, digits; 0 without digits -/
def numOf (s : Txt) : Int :=
  match readSigned s with
  | none => 0
  | some (true, n) => -(n : Int)
  | some (false, n) => n

/-- fits an `int` -/
def InRange (v : Int) : Prop := -2 ^ 31 ≤ v ∧ v < 2 ^ 31

instance (v : Int) : Decidable (InRange v) := by unfold InRange; infer_instance

/-- the argument of an option `c` -/
def argOf (c : Char) : Opt → Option Txt
  | .value c' a => if c' = c then some a else none
  | _ => none

/-- the last argument given to the option `c` -/
def lastValue (c : Char) (opts : List Opt) : Option Txt := (opts.filterMap (argOf c)).getLast?

/-- the number an option sets, or its default -/
def setting (c : Char) (dflt : Int) (opts : List Opt) : Int :=
  match lastValue c opts with
  | some a => numOf a
  | none => dflt

/-- options with a number, the parameter they set and its default -/
def numericOpts : List (Char × String × Int) :=
  [('k', "k", 64), ('g', "knn_grid_resolution", 16), ('t', "cpu_nthreads", 0),
   ('d', "gpu_ndsize", 1), ('c', "chunksize", 8196), ('p', "cc_p_maxsize", 32),
   ('m', "cc_t_maxsize", 32)]

/-- the message an option causes -/
def msgOf : Opt → Option Msg
  | .bad => some .unknownOption
  | .flag 'h' => some .help
  | .value 'x' a => if a = "cpu".toList ∨ a = "gpu".toList then none else some .unknownDevice
  | _ => none

/-- every number given on the command line fits an `int` -/
def NumbersFit (opts : List Opt) : Prop :=
  ∀ e ∈ numericOpts, ∀ a, Opt.value e.1 a ∈ opts → InRange (numOf a)

/-- an option and the ways to write it -/
inductive Spelling : List Txt → List Opt → Prop
  /-- `--name value` -/
  | longSep {name : Txt} {c : Char} (h : (name, true, c) ∈ longOpts) (v : Txt) :
      Spelling ['-' :: '-' :: name, v] [.value c v]
  /-- `--name=value` -/
  | longEq {name : Txt} {c : Char} (h : (name, true, c) ∈ longOpts) (v : Txt) :
      Spelling ['-' :: '-' :: (name ++ '=' :: v)] [.value c v]
  /-- `--name` -/
  | longFlag {name : Txt} {c : Char} (h : (name, false, c) ∈ longOpts) :
      Spelling ['-' :: '-' :: name] [.flag c]
  /-- `-c value` after any flags in the same argument -/
  | shortSep {fs : Txt} {c : Char} (hf : ∀ d ∈ fs, ∃ n, (n, false, d) ∈ longOpts)
      (h : ∃ n, (n, true, c) ∈ longOpts) (v : Txt) :
      Spelling ['-' :: (fs ++ [c]), v] (fs.map .flag ++ [.value c v])
  /-- `-cvalue` after any flags in the same argument -/
  | shortJoin {fs : Txt} {c : Char} (hf : ∀ d ∈ fs, ∃ n, (n, false, d) ∈ longOpts)
      (h : ∃ n, (n, true, c) ∈ longOpts) (v : Txt) (hv : v ≠ []) :
      Spelling ['-' :: (fs ++ c :: v)] (fs.map .flag ++ [.value c v])
  /-- flags in one argument -/
  | shortFlags {fs : Txt} (hf : ∀ d ∈ fs, ∃ n, (n, false, d) ∈ longOpts) (hne : fs ≠ []) :
      Spelling ['-' :: fs] (fs.map .flag)
  /-- a word that is not an option -/
  | word {w : Txt} (h : w.head? ≠ some '-' ∨ w = ['-']) : Spelling [w] []

/-! ### Reading the argument list -/

/-- C45: the tables of short and long options agree. -/
theorem C45_tables : (∀ e ∈ longOpts, shortSpec optString e.2.2 = some e.2.1) ∧
    (∀ c ∈ optString, c ≠ ':' → ∃ e ∈ longOpts, e.2.2 = c) ∧
    (longOpts.map (·.2.2)).Nodup ∧ (longOpts.map (·.1)).Nodup := by decide

theorem longSpec_exact : ∀ e ∈ longOpts, longSpec e.1 = some e.2 ∧ e.1 ≠ [] ∧ '=' ∉ e.1 := by
  decide

theorem optChar_ne : ∀ e ∈ longOpts, e.2.2 ≠ '-' := by decide

theorem takeWhile_noeq (l r : Txt) (h : '=' ∉ l) :
    (l ++ '=' :: r).takeWhile (fun c => c ≠ '=') = l ∧
    (l ++ '=' :: r).dropWhile (fun c => c ≠ '=') = '=' :: r ∧
    l.takeWhile (fun c => c ≠ '=') = l ∧ l.dropWhile (fun c => c ≠ '=') = [] := by
  induction l with
  | nil => simp
  | cons c l ih =>
    simp only [List.mem_cons, not_or] at h
    have := ih h.2
    have hc : (c ≠ '=') := fun e => h.1 e.symm
    simp_all

theorem cluster_flags (fs s : Txt) (rest : List Txt)
    (hf : ∀ d ∈ fs, ∃ n, (n, false, d) ∈ longOpts) :
    cluster (fs ++ s) rest = (fs.map .flag ++ (cluster s rest).1, (cluster s rest).2) := by
  induction fs with
  | nil => rfl
  | cons d fs ih =>
    obtain ⟨n, hn⟩ := hf d (by simp)
    have hd := C45_tables.1 _ hn
    have := ih (fun x hx => hf x (List.mem_cons_of_mem _ hx))
    simp only [List.cons_append, cluster]
    simp only at hd
    rw [hd]
    simp [this]

/-- C45: every way of writing an option gives that option, whatever follows, and every
other word is skipped. -/
theorem C45_spellings {words : List Txt} {os : List Opt} (h : Spelling words os)
    (rest : List Txt) : getopt (words ++ rest) = os ++ getopt rest := by
  cases h with
  | longSep h v =>
    obtain ⟨h1, h2, h3⟩ := longSpec_exact _ h
    have := takeWhile_noeq _ [] h3
    simp only at h1 h2 this
    simp only [List.cons_append, List.nil_append]
    rw [getopt_long _ _ h2]
    simp only [longArg, this.2.2.1, this.2.2.2, h1]
  | longEq h v =>
    obtain ⟨h1, h2, h3⟩ := longSpec_exact _ h
    have := takeWhile_noeq _ v h3
    simp only at h1 h2 this
    simp only [List.cons_append, List.nil_append]
    rw [getopt_long _ _ (by simp)]
    simp only [longArg, this.1, this.2.1, h1]
  | longFlag h =>
    obtain ⟨h1, h2, h3⟩ := longSpec_exact _ h
    have := takeWhile_noeq _ [] h3
    simp only at h1 h2 this
    simp only [List.cons_append, List.nil_append]
    rw [getopt_long _ _ h2]
    simp only [longArg, this.2.2.1, this.2.2.2, h1]
  | @shortSep fs c hf h v =>
    obtain ⟨n, hn⟩ := h
    have hc := C45_tables.1 _ hn
    simp only at hc
    have e : cluster (fs ++ [c]) (v :: rest) = (fs.map .flag ++ [.value c v], rest) := by
      rw [cluster_flags _ _ _ hf]; simp only [cluster, hc]
    cases fs with
    | nil =>
      simp only [List.cons_append, List.nil_append] at e ⊢
      rw [getopt_short _ _ _ (optChar_ne _ hn), e]
    | cons d fs =>
      obtain ⟨m, hm⟩ := hf d (by simp)
      simp only [List.cons_append, List.nil_append] at e ⊢
      rw [getopt_short _ _ _ (optChar_ne _ hm), e]
  | @shortJoin fs c hf h v hv =>
    obtain ⟨n, hn⟩ := h
    have hc := C45_tables.1 _ hn
    simp only at hc
    have e : cluster (fs ++ c :: v) rest = (fs.map .flag ++ [.value c v], rest) := by
      rw [cluster_flags _ _ _ hf]
      cases v with
      | nil => exact absurd rfl hv
      | cons a v => simp only [cluster, hc]
    cases fs with
    | nil =>
      simp only [List.cons_append, List.nil_append] at e ⊢
      rw [getopt_short _ _ _ (optChar_ne _ hn), e]
    | cons d fs =>
      obtain ⟨m, hm⟩ := hf d (by simp)
      simp only [List.cons_append, List.nil_append] at e ⊢
      rw [getopt_short _ _ _ (optChar_ne _ hm), e]
  | @shortFlags fs hf hne =>
    have e := cluster_flags fs [] rest hf
    cases fs with
    | nil => exact absurd rfl hne
    | cons d fs =>
      obtain ⟨m, hm⟩ := hf d (by simp)
      simp only [List.cons_append, List.nil_append, List.append_nil] at e ⊢
      rw [getopt_short _ _ _ (optChar_ne _ hm), e]
      simp [cluster]
  | word h =>
    simp only [List.cons_append, List.nil_append]
    exact getopt_skip _ _ h

/-- C45: an abbreviation of exactly one long name is that name. -/
theorem C45_abbreviation {e : Txt × Bool × Char} (he : e ∈ longOpts) (ab : Txt) (hab : ab ≠ [])
    (hp : ab.isPrefixOf e.1) (hu : ∀ e' ∈ longOpts, ab.isPrefixOf e'.1 → e' = e) (s : Txt)
    (hs : s = [] ∨ s.head? = some '=') (rest : List Txt) :
    getopt (('-' :: '-' :: (ab ++ s)) :: rest) = getopt (('-' :: '-' :: (e.1 ++ s)) :: rest) := by
  have hpre : ab <+: e.1 := List.isPrefixOf_iff_prefix.mp hp
  obtain ⟨h1, h2, h3⟩ := longSpec_exact _ he
  have h3' : '=' ∉ ab := fun h => h3 (hpre.subset h)
  have hspec : longSpec ab = some e.2 := by
    unfold longSpec
    cases hf : longOpts.find? (fun x => x.1 = ab) with
    | some x =>
      have hx := List.mem_of_find?_eq_some hf
      have hx2 := List.find?_some hf
      simp only [decide_eq_true_eq] at hx2
      rw [hu x hx (by rw [hx2]; simp)]
    | none =>
      have hfil : longOpts.filter (fun x => ab.isPrefixOf x.1) = [e] := by
        have : longOpts.filter (fun x => ab.isPrefixOf x.1) = longOpts.filter (fun x => x = e) := by
          apply List.filter_congr
          intro x hx
          by_cases hxe : x = e
          · subst hxe; simp [hp]
          · simp only [hxe, decide_false]
            cases hb : ab.isPrefixOf x.1 with
            | false => rfl
            | true => exact absurd (hu x hx hb) hxe
        have all : ∀ e ∈ longOpts, longOpts.filter (fun x => x = e) = [e] := by decide
        rw [this, all e he]
      rw [hfil]
  rw [getopt_long _ _ (by simp [hab]), getopt_long _ _ (by simp [h2])]
  have : longArg (ab ++ s) rest = longArg (e.1 ++ s) rest := by
    rcases hs with rfl | hs
    · have t1 := takeWhile_noeq ab [] h3'
      have t2 := takeWhile_noeq e.1 [] h3
      simp only [List.append_nil, longArg, t1.2.2.1, t1.2.2.2, t2.2.2.1, t2.2.2.2, h1, hspec]
    · cases s with
      | nil => simp at hs
      | cons q s =>
        simp only [List.head?_cons, Option.some.injEq] at hs
        subst hs
        have t1 := takeWhile_noeq ab s h3'
        have t2 := takeWhile_noeq e.1 s h3
        simp only [longArg, t1.1, t1.2.1, t2.1, t2.2.1, h1, hspec]
  rw [this]

/-- C45: an argument `--ab` or `--ab=…` that is no long name and does not abbreviate exactly one of
them (ambiguous or unknown) is a bad option, and the argument after it is not consumed. -/
theorem C45_ambiguous (ab : Txt) (hab : ab ≠ []) (heq : '=' ∉ ab)
    (hx : ∀ e ∈ longOpts, e.1 ≠ ab)
    (hu : (∀ e ∈ longOpts, ¬ ab.isPrefixOf e.1) ∨
      ∃ e ∈ longOpts, ∃ e' ∈ longOpts, e ≠ e' ∧ ab.isPrefixOf e.1 ∧ ab.isPrefixOf e'.1) (s : Txt)
    (hs : s = [] ∨ s.head? = some '=') (rest : List Txt) :
    getopt (('-' :: '-' :: (ab ++ s)) :: rest) = .bad :: getopt rest := by
  have hspec : longSpec ab = none := by
    unfold longSpec
    have hf : longOpts.find? (fun x => x.1 = ab) = none := by
      rw [List.find?_eq_none]
      intro e he
      simpa using hx e he
    simp only [hf]
    split
    · rename_i e hfil
      have hm : ∀ x ∈ longOpts, ab.isPrefixOf x.1 → x = e := by
        intro x hx hp
        have : x ∈ longOpts.filter (fun e => ab.isPrefixOf e.1) :=
          List.mem_filter.mpr ⟨hx, by simpa using hp⟩
        rw [hfil] at this
        simpa using this
      have he : e ∈ longOpts.filter (fun e => ab.isPrefixOf e.1) := by rw [hfil]; simp
      rw [List.mem_filter] at he
      rcases hu with hu | ⟨a, ha, b, hb, hne, pa, pb⟩
      · exact absurd he.2 (hu e he.1)
      · exact absurd ((hm a ha pa).trans (hm b hb pb).symm) hne
    · rfl
  rw [getopt_long _ _ (by simp [hab])]
  have : longArg (ab ++ s) rest = (.bad, rest) := by
    rcases hs with rfl | hs
    · have t1 := takeWhile_noeq ab [] heq
      simp only [List.append_nil, longArg, t1.2.2.1, t1.2.2.2, hspec]
    · cases s with
      | nil => simp at hs
      | cons q s =>
        simp only [List.head?_cons, Option.some.injEq] at hs
        subst hs
        have t1 := takeWhile_noeq ab s heq
        simp only [longArg, t1.1, t1.2.1, hspec]
  rw [this]

/-- `--use` could be `--use-device`, `--use-chunking` or `--use-recompute` -/
example : getopt ["--use".toList, "1".toList] = .bad :: getopt ["1".toList] :=
  C45_ambiguous "use".toList (by decide) (by decide) (by decide)
    (Or.inr ⟨_, (by decide : ("use-device".toList, true, 'x') ∈ longOpts), _,
      (by decide : ("use-chunking".toList, false, 'u') ∈ longOpts), by decide, by decide, by decide⟩)
    [] (Or.inl rfl) _

/-- C45: nothing after `--` is read as an option. -/
theorem C45_double_dash (rest : List Txt) : getopt ("--".toList :: rest) = [] := rfl

/-- the long names in the help text; src/main.cpp:40-52 -/
def helpNames : List (Txt × Char) :=
  [("help".toList, 'h'), ("version".toList, 'v'), ("infile".toList, 'i'), ("k-init".toList, 'k'),
   ("gridres".toList, 'g'), ("cpu-nthreads".toList, 't'), ("gpu-ndsize".toList, 'd'),
   ("chunksize".toList, 'c'), ("use-chunking".toList, 'u'), ("use-recompute".toList, 'r'),
   ("p-maxsize".toList, 'p'), ("t-maxsize".toList, 'm'), ("use-device".toList, 'x')]

/-- C45: of the long names in the help text exactly `--gridres` does not exist. -/
theorem C45_help_text : ∀ e ∈ helpNames,
    (∃ b, longSpec e.1 = some (b, e.2)) ↔ e.1 ≠ "gridres".toList := by decide

/-- C45: following the help text, `--gridres 20` is an unknown option and a skipped word. -/
theorem C45_gridres (v : Txt) (hv : v.head? ≠ some '-') (rest : List Txt) :
    getopt ("--gridres".toList :: v :: rest) = .bad :: getopt rest := by
  have h : getopt ("--gridres".toList :: v :: rest) = .bad :: getopt (v :: rest) := by
    have e : longArg "gridres".toList (v :: rest) = (.bad, v :: rest) := rfl
    have := getopt_long "gridres".toList (v :: rest) (by decide)
    rw [e] at this
    exact this
  rw [h, getopt_skip _ _ (Or.inl hv)]

/-! ### The meaning of the options -/

theorem optKey_iff (c : Char) (key : String) :
    optKey c = some key ↔ ∃ d, (c, key, d) ∈ numericOpts := by
  constructor
  · intro h
    unfold optKey at h
    repeat' split at h
    all_goals first
      | (cases h; subst_vars; exact ⟨_, by unfold numericOpts; simp; rfl⟩)
      | cases h
  · rintro ⟨d, h⟩
    have : ∀ e ∈ numericOpts, optKey e.1 = some e.2.1 := by decide
    exact this _ h

theorem liftE_ok {α : Type} {a : α} : liftE (.ok a) = .ok a := rfl

theorem atoi_eq (s : Txt) :
    atoi s = if InRange (numOf s) then .ok (numOf s) else .error .overflow := by
  unfold atoi numOf
  cases h : readSigned s with
  | none => rfl
  | some p =>
    obtain ⟨b, n⟩ := p
    cases b
    · simp only [Bool.false_eq_true, if_false]
      by_cases hr : InRange (n : Int)
      · rw [if_pos hr, if_pos (show _ ∧ _ from hr)]; rfl
      · rw [if_neg hr, if_neg (show ¬ (_ ∧ _) from hr)]
    · simp only [if_true]
      by_cases hr : InRange (-(n : Int))
      · rw [if_pos hr, if_pos (show _ ∧ _ from hr)]; rfl
      · rw [if_neg hr, if_neg (show ¬ (_ ∧ _) from hr)]

/-- the parameters after the options `opts`, as texts -/
def CliSpec (opts : List Opt) (s : Cli) : Prop :=
  s.infile = (lastValue 'i' opts).getD [] ∧
  (∀ e ∈ numericOpts, s.args.find e.2.1 = some (showInt (setting e.1 e.2.2 opts))) ∧
  s.args.find "use_chunking" = some (showBool (decide (Opt.flag 'u' ∈ opts))) ∧
  s.args.find "use_recompute" = some (showBool (decide (Opt.flag 'r' ∈ opts))) ∧
  s.args.find "dev_suppress_stdout" = some (showBool true) ∧
  s.msgs = opts.filterMap msgOf

theorem msgs_snoc (opts : List Opt) (o : Opt) :
    (opts ++ [o]).filterMap msgOf = opts.filterMap msgOf ++ (msgOf o).toList := by
  rw [List.filterMap_append]
  cases h : msgOf o <;> simp [h]

theorem msgOf_flag {c : Char} (h : c ≠ 'h') : msgOf (.flag c) = none := by
  unfold msgOf
  split <;> simp_all

theorem msgOf_value {c : Char} (a : Txt) (h : c ≠ 'x') : msgOf (.value c a) = none := by
  unfold msgOf
  split <;> simp_all

theorem lastValue_snoc (c : Char) (opts : List Opt) (o : Opt) :
    lastValue c (opts ++ [o]) = match argOf c o with
      | some a => some a
      | none => lastValue c opts := by
  unfold lastValue
  cases h : argOf c o with
  | none => simp [List.filterMap_append, h]
  | some a => simp [List.filterMap_append, h]

theorem setting_other (c : Char) (d : Int) (opts : List Opt) (o : Opt) (h : argOf c o = none) :
    setting c d (opts ++ [o]) = setting c d opts := by
  unfold setting; rw [lastValue_snoc, h]

theorem numericOpts_inj : ∀ e ∈ numericOpts, ∀ e' ∈ numericOpts, e.2.1 = e'.2.1 → e = e' := by
  decide

theorem numericOpts_fst : ∀ e ∈ numericOpts, ∀ e' ∈ numericOpts, e.1 = e'.1 → e = e' := by
  decide

theorem numericOpts_key : ∀ e ∈ numericOpts, e.2.1 ≠ "use_chunking" ∧ e.2.1 ≠ "use_recompute" ∧
    e.2.1 ≠ "dev_suppress_stdout" := by decide

theorem numericOpts_char : ∀ e ∈ numericOpts, e.1 ≠ 'i' ∧ e.1 ≠ 'x' := by decide

theorem put_ok {s : Cli} {key : String} {t : Txt} (v : Txt) (h : s.args.find key = some t) :
    s.put key v = .ok { s with args := s.args.put key v } := by
  unfold Cli.put ArgMap.assign
  rw [h]; rfl

theorem find_put_self {m : ArgMap} {key : String} {t : Txt} (v : Txt) (h : m.find key = some t) :
    (m.put key v).find key = some v := by
  rw [lookup_put, h]; simp

theorem find_put_other (m : ArgMap) {key key' : String} (v : Txt) (h : key' ≠ key) :
    (m.put key v).find key' = m.find key' := by
  rw [lookup_put]; simp [h]

/-- one step of the option loop -/
theorem step_spec {opts : List Opt} {s : Cli} (h : CliSpec opts s) (o : Opt) :
    (∃ s', s.step o = .ok s' ∧ CliSpec (opts ++ [o]) s' ∧
      ∀ e ∈ numericOpts, ∀ a, o = .value e.1 a → InRange (numOf a)) ∨
    (s.step o = .error (.ub .overflow) ∧
      ∃ e ∈ numericOpts, ∃ a, o = .value e.1 a ∧ ¬ InRange (numOf a)) := by
  obtain ⟨hi, hn, hu, hr, hd, hm⟩ := h
  cases o with
  | bad =>
    refine Or.inl ⟨_, rfl, ⟨?_, ?_, ?_, ?_, hd, ?_⟩, by simp⟩
    · rw [lastValue_snoc]; exact hi
    · intro e he; rw [setting_other _ _ _ _ rfl]; exact hn e he
    · simpa using hu
    · simpa using hr
    · rw [msgs_snoc, ← hm]; rfl
  | flag c =>
    have hl : ∀ c', lastValue c' (opts ++ [.flag c]) = lastValue c' opts := by
      intro c'; rw [lastValue_snoc]; rfl
    have hset : ∀ c' d, setting c' d (opts ++ [.flag c]) = setting c' d opts :=
      fun c' d => setting_other _ _ _ _ rfl
    by_cases h1 : c = 'h'
    · subst h1
      refine Or.inl ⟨_, rfl, ⟨?_, ?_, ?_, ?_, hd, ?_⟩, by simp⟩
      · rw [hl]; exact hi
      · intro e he; rw [hset]; exact hn e he
      · simpa using hu
      · simpa using hr
      · rw [msgs_snoc, ← hm]; rfl
    by_cases h2 : c = 'u'
    · subst h2
      refine Or.inl ⟨_, put_ok _ hu, ⟨?_, ?_, ?_, ?_, ?_, ?_⟩, by simp⟩
      · rw [hl]; exact hi
      · intro e he; rw [hset, find_put_other _ _ (numericOpts_key e he).1]; exact hn e he
      · rw [find_put_self _ hu]; simp
      · rw [find_put_other _ _ (by decide)]; simpa using hr
      · rw [find_put_other _ _ (by decide)]; exact hd
      · rw [msgs_snoc, ← hm, msgOf_flag h1]; simp
    by_cases h3 : c = 'r'
    · subst h3
      refine Or.inl ⟨_, put_ok _ hr, ⟨?_, ?_, ?_, ?_, ?_, ?_⟩, by simp⟩
      · rw [hl]; exact hi
      · intro e he; rw [hset, find_put_other _ _ (numericOpts_key e he).2.1]; exact hn e he
      · rw [find_put_other _ _ (by decide)]; simpa using hu
      · rw [find_put_self _ hr]; simp
      · rw [find_put_other _ _ (by decide)]; exact hd
      · rw [msgs_snoc, ← hm, msgOf_flag h1]; simp
    · refine Or.inl ⟨s, by simp [Cli.step, h1, h2, h3, pure, Except.pure], ⟨?_, ?_, ?_, ?_, hd, ?_⟩, by simp⟩
      · rw [hl]; exact hi
      · intro e he; rw [hset]; exact hn e he
      · rw [hu]; simp [Ne.symm h2]
      · rw [hr]; simp [Ne.symm h3]
      · rw [msgs_snoc, ← hm, msgOf_flag h1]; simp
  | value c a =>
    have hu' : s.args.find "use_chunking" =
        some (showBool (decide (Opt.flag 'u' ∈ opts ++ [.value c a]))) := by simpa using hu
    have hr' : s.args.find "use_recompute" =
        some (showBool (decide (Opt.flag 'r' ∈ opts ++ [.value c a]))) := by simpa using hr
    by_cases h1 : c = 'i'
    · subst h1
      refine Or.inl ⟨_, rfl, ⟨?_, ?_, hu', hr', hd, by rw [msgs_snoc, ← hm]; simp [msgOf]⟩, ?_⟩
      · rw [lastValue_snoc]; rfl
      · intro e he
        rw [setting_other _ _ _ _ (by simp [argOf, Ne.symm (numericOpts_char e he).1])]
        exact hn e he
      · intro e he a' h'; injection h' with h'; exact absurd h'.symm (numericOpts_char e he).1
    have hi' : (lastValue 'i' (opts ++ [.value c a])).getD [] = (lastValue 'i' opts).getD [] := by
      rw [lastValue_snoc]; simp [argOf, h1]
    by_cases h2 : c = 'x'
    · subst h2
      have hset : ∀ e ∈ numericOpts, s.args.find e.2.1 =
          some (showInt (setting e.1 e.2.2 (opts ++ [.value 'x' a]))) := by
        intro e he
        rw [setting_other _ _ _ _ (by simp [argOf, Ne.symm (numericOpts_char e he).2])]
        exact hn e he
      have hno : ∀ e ∈ numericOpts, ∀ a', Opt.value 'x' a = .value e.1 a' → InRange (numOf a') := by
        intro e he a' h'; injection h' with h'; exact absurd h'.symm (numericOpts_char e he).2
      by_cases h3 : a = "cpu".toList
      · exact Or.inl ⟨{ s with gpu := false }, by simp [Cli.step, h3, pure, Except.pure],
          ⟨by rw [hi']; exact hi, hset, hu', hr', hd, by rw [msgs_snoc, ← hm]; simp [msgOf, h3]⟩, hno⟩
      · by_cases h4 : a = "gpu".toList
        · exact Or.inl ⟨{ s with gpu := true }, by simp [Cli.step, h4, pure, Except.pure],
            ⟨by rw [hi']; exact hi, hset, hu', hr', hd, by rw [msgs_snoc, ← hm]; simp [msgOf, h4]⟩, hno⟩
        · exact Or.inl ⟨{ s with msgs := s.msgs ++ [.unknownDevice] },
            by simp only [Cli.step, h3, h4]; rfl,
            ⟨by rw [hi']; exact hi, hset, hu', hr', hd, by
              rw [msgs_snoc, ← hm]; simp only [msgOf, h3, h4, or_self, if_false]; rfl⟩, hno⟩
    · have hmsg : s.msgs = (opts ++ [Opt.value c a]).filterMap msgOf := by
        rw [msgs_snoc, ← hm, msgOf_value _ h2]; simp
      have hstep : s.step (.value c a) = match optKey c with
          | some key => (do let v ← liftM (atoi a); s.put key (showInt v))
          | none => pure s := by
        simp only [Cli.step, h1, h2, if_false]; rfl
      cases hk : optKey c with
      | none =>
        have hno : ∀ e ∈ numericOpts, e.1 ≠ c := by
          intro e he hc
          have := (optKey_iff e.1 e.2.1).mpr ⟨e.2.2, he⟩
          rw [hc, hk] at this; cases this
        refine Or.inl ⟨s, by rw [hstep, hk]; rfl, ⟨by rw [hi']; exact hi, ?_, hu', hr', hd, hmsg⟩, ?_⟩
        · intro e he
          rw [setting_other _ _ _ _ (by simp [argOf, Ne.symm (hno e he)])]
          exact hn e he
        · intro e he a' h'; injection h' with h'; exact absurd h'.symm (hno e he)
      | some key =>
        obtain ⟨d, hmem⟩ := (optKey_iff c key).mp hk
        rw [hstep, hk]
        simp only [atoi_eq]
        by_cases hr0 : InRange (numOf a)
        · rw [if_pos hr0]
          refine Or.inl ⟨_, put_ok _ (hn _ hmem), ⟨by rw [hi']; exact hi, ?_, ?_, ?_, ?_, hmsg⟩, ?_⟩
          · intro e he
            by_cases hek : e.2.1 = key
            · have : e = (c, key, d) := numericOpts_inj e he _ hmem hek
              subst this
              rw [find_put_self _ (hn _ hmem)]
              simp only [setting, lastValue_snoc, argOf, if_true]
            · rw [find_put_other _ _ hek]
              have hec : c ≠ e.1 := by
                intro hc
                exact hek (by rw [numericOpts_fst e he _ hmem hc.symm])
              rw [setting_other _ _ _ _ (by simp [argOf, hec])]
              exact hn e he
          · rw [find_put_other _ _ (Ne.symm (numericOpts_key _ hmem).1)]; exact hu'
          · rw [find_put_other _ _ (Ne.symm (numericOpts_key _ hmem).2.1)]; exact hr'
          · rw [find_put_other _ _ (Ne.symm (numericOpts_key _ hmem).2.2)]; exact hd
          · intro e he a' h'; injection h' with _ h'; rw [← h']; exact hr0
        · rw [if_neg hr0]
          exact Or.inr ⟨rfl, _, hmem, a, rfl, hr0⟩

theorem init_spec : CliSpec [] Cli.init := by
  refine ⟨rfl, ?_, rfl, rfl, rfl, rfl⟩
  decide

theorem fold_spec (todo done : List Opt) (s : Cli) (h : CliSpec done s) :
    (∃ s', todo.foldlM Cli.step s = .ok s' ∧ CliSpec (done ++ todo) s' ∧ NumbersFit todo) ∨
    (todo.foldlM Cli.step s = .error (.ub .overflow) ∧ ¬ NumbersFit todo) := by
  induction todo generalizing done s with
  | nil => exact Or.inl ⟨s, rfl, by simpa using h, by intro e _ a ha; simp at ha⟩
  | cons o todo ih =>
    rw [foldlM_exc]
    rcases step_spec h o with ⟨s', h1, h2, h3⟩ | ⟨h1, e, he, a, ho, hr⟩
    · rw [h1]
      rcases ih (done ++ [o]) s' h2 with ⟨s2, h4, h5, h6⟩ | ⟨h4, h5⟩
      · refine Or.inl ⟨s2, h4, by simpa using h5, ?_⟩
        intro e he a ha
        rcases List.mem_cons.mp ha with ha | ha
        · exact h3 e he a ha.symm
        · exact h6 e he a ha
      · exact Or.inr ⟨h4, fun hf => h5 (fun e he a ha => hf e he a (List.mem_cons_of_mem _ ha))⟩
    · rw [h1]
      exact Or.inr ⟨rfl, fun hf => hr (hf e he a (by rw [ho]; simp))⟩

/-- C45: reading the options never throws; it is undefined exactly if a number given for a
numeric option does not fit an `int` (`atoi`). -/
theorem C45_parse_iff (argv : List Txt) :
    (∃ s, parseArgs argv = .ok s) ↔ NumbersFit (getopt argv) := by
  unfold parseArgs
  rcases fold_spec (getopt argv) [] Cli.init init_spec with ⟨s, h1, _, h3⟩ | ⟨h1, h2⟩
  · exact ⟨fun _ => h3, fun _ => ⟨s, h1⟩⟩
  · constructor
    · rintro ⟨s, hs⟩; rw [h1] at hs; cases hs
    · intro h; exact absurd h h2

theorem C45_parse_error {argv : List Txt} {e : Stop} (h : parseArgs argv = .error e) :
    e = .ub .overflow := by
  unfold parseArgs at h
  rcases fold_spec (getopt argv) [] Cli.init init_spec with ⟨s, h1, _, h3⟩ | ⟨h1, h2⟩
  · rw [h1] at h; cases h
  · rw [h1] at h; cases h; rfl

/-- C45: after reading, each parameter has the value of the last occurrence of its option
(as an `int`), or its default; the input file is the last one given; the two flags are set
iff they occur; reports stay suppressed.  Other options do not matter, nor does the order
of options for different parameters. -/
theorem C45_settings {argv : List Txt} {s : Cli} (h : parseArgs argv = .ok s) :
    s.infile = (lastValue 'i' (getopt argv)).getD [] ∧
    (∀ e ∈ numericOpts, s.args.int e.2.1 = .ok (setting e.1 e.2.2 (getopt argv))) ∧
    s.args.bool "use_chunking" = .ok (decide (Opt.flag 'u' ∈ getopt argv)) ∧
    s.args.bool "use_recompute" = .ok (decide (Opt.flag 'r' ∈ getopt argv)) ∧
    s.args.bool "dev_suppress_stdout" = .ok true ∧
    s.msgs = (getopt argv).filterMap msgOf := by
  unfold parseArgs at h
  rcases fold_spec (getopt argv) [] Cli.init init_spec with ⟨s', h1, h2, h3⟩ | ⟨h1, h2⟩
  · rw [h] at h1
    cases h1
    rw [List.nil_append] at h2
    obtain ⟨hi, hn, hu, hr, hd, hm⟩ := h2
    have hb : ∀ key b, s.args.find key = some (showBool b) → s.args.bool key = .ok b := by
      intro key b hf
      unfold ArgMap.bool ArgMap.get
      rw [hf]
      cases b <;> rfl
    refine ⟨hi, ?_, hb _ _ hu, hb _ _ hr, hb _ _ hd, hm⟩
    intro e he
    have hrange : InRange (setting e.1 e.2.2 (getopt argv)) := by
      unfold setting
      cases hl : lastValue e.1 (getopt argv) with
      | none =>
        have : ∀ e ∈ numericOpts, InRange e.2.2 := by decide
        exact this e he
      | some a =>
        have := List.mem_of_getLast? hl
        obtain ⟨o, ho, hoa⟩ := List.mem_filterMap.mp this
        apply h3 e he a
        cases o with
        | bad => cases hoa
        | flag c => cases hoa
        | value c a' =>
          simp only [argOf] at hoa
          split at hoa
          · rename_i hc; cases hoa; rw [← hc]; exact ho
          · cases hoa
    unfold ArgMap.int ArgMap.get
    rw [hn e he]
    change conv (readInt _) = _
    rw [C43_int_roundtrip _ hrange]
    rfl
  · rw [h] at h1; cases h1

/-! ### The parameters of the call -/

/-- the number of threads that a value of `-t` means; 0 is the hardware's -/
def threadsOf (t : Int) : Nat := if t < 0 then (2 ^ 32 + t).toNat else t.toNat

/-- the parameters handed to `tesellate` for `n` points -/
def cliParams (opts : List Opt) (n : Nat) : Params :=
  { k := if setting 'k' 64 opts = 0 then (min n 64 : Nat) else setting 'k' 64 opts
    gr := setting 'g' 16 opts
    pm := setting 'p' 32 opts
    tm := setting 'm' 32 opts
    nthreads := threadsOf (setting 't' 0 opts)
    chunksize := if Opt.flag 'u' ∈ opts then setting 'c' 8196 opts else 0
    useChunking := decide (Opt.flag 'u' ∈ opts)
    useRecompute := decide (Opt.flag 'r' ∈ opts) }

theorem readUnsigned_showInt (bits : Nat) (v : Int) (h : v.natAbs < 2 ^ bits) :
    readUnsigned bits (showInt v) =
      some (if v < 0 then (2 ^ bits - v.natAbs) % 2 ^ bits else v.natAbs) := by
  unfold readUnsigned
  rw [readSigned_showInt]
  simp only [h, if_true, decide_eq_true_eq]

theorem nthreads_spec {m : ArgMap} {t : Int} (h : m.find "cpu_nthreads" = some (showInt t))
    (hr : InRange t) : m.nthreads = .ok (threadsOf t) := by
  unfold InRange at hr
  unfold ArgMap.nthreads ArgMap.get
  rw [h]
  change (conv (readUnsigned 64 (showInt t)) >>= fun v =>
    if v ≠ 0 then conv (readUnsigned 32 (showInt t)) else pure 0) = _
  rw [readUnsigned_showInt 64 t (by omega), readUnsigned_showInt 32 t (by omega)]
  change (if (if t < 0 then (2 ^ 64 - t.natAbs) % 2 ^ 64 else t.natAbs) ≠ 0 then
    Except.ok (if t < 0 then (2 ^ 32 - t.natAbs) % 2 ^ 32 else t.natAbs) else Except.ok 0) = _
  unfold threadsOf
  by_cases ht : t < 0
  · simp only [ht, if_true]
    rw [if_pos (by omega)]
    congr 1
    omega
  · simp only [ht, if_false]
    split
    · congr 1; omega
    · congr 1; omega

theorem int_of_find {m : ArgMap} {key : String} {v : Int} (h : m.find key = some (showInt v))
    (hr : InRange v) : m.int key = .ok v := by
  unfold ArgMap.int ArgMap.get
  rw [h]
  change conv (readInt _) = _
  rw [C43_int_roundtrip _ hr]
  rfl

theorem bool_of_find {m : ArgMap} {key : String} {b : Bool} (h : m.find key = some (showBool b)) :
    m.bool key = .ok b := by
  unfold ArgMap.bool ArgMap.get
  rw [h]
  cases b <;> rfl

theorem setting_range {opts : List Opt} (hf : NumbersFit opts) {e : Char × String × Int}
    (he : e ∈ numericOpts) : InRange (setting e.1 e.2.2 opts) := by
  unfold setting
  cases hl : lastValue e.1 opts with
  | none =>
    have : ∀ e ∈ numericOpts, InRange e.2.2 := by decide
    exact this e he
  | some a =>
    obtain ⟨o, ho, hoa⟩ := List.mem_filterMap.mp (List.mem_of_getLast? hl)
    apply hf e he a
    cases o with
    | bad => cases hoa
    | flag c => cases hoa
    | value c a' =>
      simp only [argOf] at hoa
      split at hoa
      · rename_i hc; cases hoa; rw [← hc]; exact ho
      · cases hoa

/-- texts of the map for given numbers -/
def Texts (m : ArgMap) (k gr nt nd cs pm tm : Int) (uc ur sup : Bool) : Prop :=
  m.find "k" = some (showInt k) ∧ m.find "knn_grid_resolution" = some (showInt gr) ∧
  m.find "cpu_nthreads" = some (showInt nt) ∧ m.find "gpu_ndsize" = some (showInt nd) ∧
  m.find "chunksize" = some (showInt cs) ∧
  m.find "cc_p_maxsize" = some (showInt pm) ∧ m.find "cc_t_maxsize" = some (showInt tm) ∧
  m.find "use_chunking" = some (showBool uc) ∧ m.find "use_recompute" = some (showBool ur) ∧
  m.find "dev_suppress_stdout" = some (showBool sup)

theorem params_of_texts {m : ArgMap} {k gr nt nd cs pm tm : Int} {uc ur sup : Bool}
    (h : Texts m k gr nt nd cs pm tm uc ur sup) (h1 : InRange k) (h2 : InRange gr) (h3 : InRange nt)
    (h4 : InRange cs) (h5 : InRange pm) (h6 : InRange tm) :
    m.params = .ok { k := k, gr := gr, pm := pm, tm := tm, nthreads := threadsOf nt, chunksize := if uc then cs else 0, useChunking := uc, useRecompute := ur } := by
  obtain ⟨e1, e2, e3, e4, e5, e6, e7, e8, e9, e10⟩ := h
  unfold ArgMap.params
  rw [bool_of_find e10, int_of_find e2 h2, nthreads_spec e3 h3, bool_of_find e8,
    int_of_find e1 h1, int_of_find e6 h5, int_of_find e7 h6, bool_of_find e9, int_of_find e5 h4]
  cases uc <;> rfl

theorem showNat_eq (n : Nat) : showNat n = showInt (n : Int) := by
  unfold showInt
  rw [if_neg (by omega)]; simp

theorem texts_of_spec {opts : List Opt} {s : Cli} (h : CliSpec opts s) :
    Texts s.args (setting 'k' 64 opts) (setting 'g' 16 opts) (setting 't' 0 opts)
      (setting 'd' 1 opts) (setting 'c' 8196 opts) (setting 'p' 32 opts) (setting 'm' 32 opts)
      (decide (Opt.flag 'u' ∈ opts)) (decide (Opt.flag 'r' ∈ opts)) true := by
  obtain ⟨_, hn, hu, hr, hd, _⟩ := h
  exact ⟨hn ('k', "k", 64) (by decide), hn ('g', "knn_grid_resolution", 16) (by decide),
    hn ('t', "cpu_nthreads", 0) (by decide), hn ('d', "gpu_ndsize", 1) (by decide),
    hn ('c', "chunksize", 8196) (by decide), hn ('p', "cc_p_maxsize", 32) (by decide),
    hn ('m', "cc_t_maxsize", 32) (by decide), hu, hr, hd⟩

theorem parse_spec {argv : List Txt} {s : Cli} (h : parseArgs argv = .ok s) :
    CliSpec (getopt argv) s ∧ NumbersFit (getopt argv) := by
  unfold parseArgs at h
  rcases fold_spec (getopt argv) [] Cli.init init_spec with ⟨s', h1, h2, h3⟩ | ⟨h1, h2⟩
  · rw [h] at h1; cases h1; exact ⟨by simpa using h2, h3⟩
  · rw [h] at h1; cases h1

theorem fixK_spec {opts : List Opt} {s : Cli} (h : CliSpec opts s) (hf : NumbersFit opts) (n : Nat) :
    ∃ m, fixK s.args n = .ok m ∧ m.params = .ok (cliParams opts n) := by
  have ht := texts_of_spec h
  have r1 := setting_range hf (e := ('k', "k", 64)) (by decide)
  have r2 := setting_range hf (e := ('g', "knn_grid_resolution", 16)) (by decide)
  have r3 := setting_range hf (e := ('t', "cpu_nthreads", 0)) (by decide)
  have r4 := setting_range hf (e := ('c', "chunksize", 8196)) (by decide)
  have r5 := setting_range hf (e := ('p', "cc_p_maxsize", 32)) (by decide)
  have r6 := setting_range hf (e := ('m', "cc_t_maxsize", 32)) (by decide)
  simp only at r1 r2 r3 r4 r5 r6
  unfold fixK
  rw [int_of_find ht.1 r1]
  change ∃ m, (if setting 'k' 64 opts = 0 then _ else _) = _ ∧ _
  by_cases hk : setting 'k' 64 opts = 0
  · rw [if_pos hk]
    obtain ⟨e1, e2, e3, e4, e5, e6, e7, e8, e9, e10⟩ := ht
    have hm : (if n < 64 then n else 64) = min n 64 := by split <;> omega
    refine ⟨s.args.put "k" (showNat (if n < 64 then n else 64)), ?_, ?_⟩
    · unfold ArgMap.assign; rw [e1]
    · rw [hm, showNat_eq]
      have ht' : Texts (s.args.put "k" (showInt ((min n 64 : Nat) : Int))) ((min n 64 : Nat) : Int)
          (setting 'g' 16 opts) (setting 't' 0 opts) (setting 'd' 1 opts) (setting 'c' 8196 opts)
          (setting 'p' 32 opts) (setting 'm' 32 opts)
          (decide (Opt.flag 'u' ∈ opts)) (decide (Opt.flag 'r' ∈ opts)) true := by
        refine ⟨find_put_self _ e1, ?_, ?_, ?_, ?_, ?_, ?_, ?_, ?_, ?_⟩ <;>
          (rw [find_put_other _ _ (by decide)]; assumption)
      rw [params_of_texts ht' (by unfold InRange; omega) r2 r3 r4 r5 r6]
      simp [cliParams, hk]
  · rw [if_neg hk]
    refine ⟨s.args, rfl, ?_⟩
    rw [params_of_texts ht r1 r2 r3 r4 r5 r6]
    simp [cliParams, hk]

/-- C45: the parameters on the command line never make `tesellate` throw: it gets exactly
the parameters described by `cliParams` (with `-k 0` standing for `min n 64`, and a negative
thread count for itself plus 2^32). -/
theorem C45_params {argv : List Txt} {s : Cli} (h : parseArgs argv = .ok s) (n : Nat) :
    (fixK s.args n >>= ArgMap.params) = .ok (cliParams (getopt argv) n) := by
  obtain ⟨h1, h2⟩ := parse_spec h
  obtain ⟨m, hm, hp⟩ := fixK_spec h1 h2 n
  rw [hm]
  exact hp

/-! ### The run -/

section run
set_option linter.unusedSectionVars false
variable {F D : Type} [FP F D] [Inhabited F]

/-- the points of a file, `none` if some line does not begin with three numbers -/
def filePoints (num : Txt → Option (F × Txt)) (lines : List Txt) : Option (List (Pt F)) :=
  if ∀ l ∈ lines, (readPoint num l).isSome then some (lines.filterMap (readPoint num)) else none

/-- the line begins with three numbers, the coordinates `x`, `y`, `z` in this order; `num` extracts one
number from the beginning of a text -/
def LineIs (num : Txt → Option (F × Txt)) (line : Txt) (p : Pt F) : Prop :=
  ∃ r₁ r₂ r₃, num line = some (p.x, r₁) ∧ num r₁ = some (p.y, r₂) ∧ num r₂ = some (p.z, r₃)

theorem readPoint_iff (num : Txt → Option (F × Txt)) (line : Txt) (p : Pt F) :
    readPoint num line = some p ↔ LineIs num line p := by
  unfold readPoint LineIs
  cases h1 : num line with
  | none => simp
  | some a =>
    obtain ⟨x, r₁⟩ := a
    cases h2 : num r₁ with
    | none =>
      constructor
      · intro h; simp [h2] at h
      · rintro ⟨_, _, _, e1, e2, _⟩
        cases e1; rw [h2] at e2; cases e2
    | some b =>
      obtain ⟨y, r₂⟩ := b
      cases h3 : num r₂ with
      | none =>
        constructor
        · intro h; simp [h2, h3] at h
        · rintro ⟨_, _, _, e1, e2, e3⟩
          cases e1; rw [h2] at e2; cases e2; rw [h3] at e3; cases e3
      | some c =>
        obtain ⟨z, r₃⟩ := c
        constructor
        · intro h
          simp [h2, h3] at h
          subst h
          exact ⟨_, _, _, rfl, h2, h3⟩
        · rintro ⟨_, _, _, e1, e2, e3⟩
          cases e1; rw [h2] at e2; cases e2; rw [h3] at e3; cases e3
          simp [h2, h3]

/-- C45: the points of a file are its lines, in their order, with the first three numbers of a line as
`x`, `y` and `z`. -/
theorem C45_points (num : Txt → Option (F × Txt)) (lines : List Txt) (pts : List (Pt F)) :
    filePoints num lines = some pts ↔ List.Forall₂ (LineIs num) lines pts := by
  induction lines generalizing pts with
  | nil =>
    rw [List.forall₂_nil_left_iff]
    unfold filePoints
    rw [if_pos (by simp)]
    simp [eq_comm]
  | cons l ls ih =>
    rw [List.forall₂_cons_left_iff]
    constructor
    · intro h
      unfold filePoints at h
      split at h
      · rename_i hall
        cases h
        obtain ⟨p, hp⟩ := Option.isSome_iff_exists.mp (hall l (by simp))
        refine ⟨p, ls.filterMap (readPoint num), (readPoint_iff _ _ _).mp hp, ?_, by simp [hp]⟩
        rw [← ih]
        unfold filePoints
        rw [if_pos fun x hx => hall x (by simp [hx])]
      · cases h
    · rintro ⟨p, ps, hl, hr, rfl⟩
      have hp := (readPoint_iff _ _ _).mpr hl
      rw [← ih] at hr
      unfold filePoints at hr ⊢
      split at hr
      · rename_i hall
        cases hr
        rw [if_pos (by simpa [hp] using hall)]
        simp [hp]
      · cases hr

theorem readPoints_eq (num : Txt → Option (F × Txt)) (lines : List Txt) :
    readPoints num lines = filePoints num lines := by
  induction lines with
  | nil => rfl
  | cons l ls ih =>
    unfold readPoints
    rw [ih]
    unfold filePoints
    cases hl : readPoint num l with
    | none => simp [hl]
    | some p =>
      simp only [List.mem_cons, forall_eq_or_imp, hl, Option.isSome_some, true_and]
      split <;> simp [hl]

/-- C45: the exit status is 1, with nothing computed or printed, if no input file is given,
it cannot be opened, or some line does not begin with three numbers … -/
theorem C45_failure {nb hw : Nat} {openFile : Txt → Option Txt} {num : Txt → Option (F × Txt)}
    {argv : List Txt} (hf : NumbersFit (getopt argv)) {why : Msg}
    (h : (lastValue 'i' (getopt argv)).getD [] = [] ∧ why = .noInput ∨
      (lastValue 'i' (getopt argv)).getD [] ≠ [] ∧
        openFile ((lastValue 'i' (getopt argv)).getD []) = none ∧ why = .cannotOpen ∨
      (lastValue 'i' (getopt argv)).getD [] ≠ [] ∧
        (∃ txt, openFile ((lastValue 'i' (getopt argv)).getD []) = some txt ∧
        ∃ l ∈ linesOf txt, readPoint num l = none) ∧ why = .badFormat) :
    cliMain (F := F) nb hw openFile num argv =
      .ok ⟨1, (getopt argv).filterMap msgOf ++ [why], none⟩ := by
  obtain ⟨s, hs⟩ := (C45_parse_iff argv).mpr hf
  obtain ⟨⟨hi, _, _, _, _, hm⟩, _⟩ := parse_spec hs
  rw [← hi] at h
  rw [← hm]
  unfold cliMain
  rw [hs]
  change (if s.infile = [] then _ else _) = _
  rcases h with ⟨h0, rfl⟩ | ⟨h0, h, rfl⟩ | ⟨h0, ⟨txt, ht, l, hl, hn⟩, rfl⟩
  · rw [if_pos h0]; rfl
  · rw [if_neg h0]; simp only [h]; rfl
  · have : readPoints num (linesOf txt) = none := by
      rw [readPoints_eq, filePoints, if_neg]
      intro hall
      have := hall l hl
      rw [hn] at this; cases this
    rw [if_neg h0]
    simp only [ht, this]
    rfl

/-- C45: … and otherwise the program computes the tessellation on the CPU, whatever `-x`
says, of the points of the file with the parameters `cliParams`, prints it, and returns 0. -/
theorem C45_run {nb hw : Nat} {openFile : Txt → Option Txt} {num : Txt → Option (F × Txt)}
    {argv : List Txt} {txt : Txt} {pts : List (Pt F)} (hf : NumbersFit (getopt argv))
    (hi : (lastValue 'i' (getopt argv)).getD [] ≠ [])
    (ho : openFile ((lastValue 'i' (getopt argv)).getD []) = some txt)
    (hp : filePoints num (linesOf txt) = some pts) :
    cliMain (F := F) nb hw openFile num argv =
      liftM (do
        let out ← tesellateCpu nb hw (cliParams (getopt argv) pts.length) pts
        let t ← out.dnn.print
        pure ⟨0, (getopt argv).filterMap msgOf, some t⟩) := by
  obtain ⟨s, hs⟩ := (C45_parse_iff argv).mpr hf
  obtain ⟨hsp, _⟩ := parse_spec hs
  obtain ⟨m, hm, hpm⟩ := fixK_spec hsp hf pts.length
  rw [← hsp.1] at hi ho
  rw [← hsp.2.2.2.2.2]
  unfold cliMain
  rw [hs]
  change (if s.infile = [] then _ else _) = _
  rw [if_neg hi]
  simp only [ho, readPoints_eq, hp, hm]
  change (do
    let prm ← liftE m.params
    let out ← liftM (tesellateCpu nb hw prm pts)
    let t ← liftM out.dnn.print
    pure (⟨0, s.msgs, some t⟩ : CliOut)) = _
  rw [hpm]
  change (do
    let out ← liftM (tesellateCpu nb hw (cliParams (getopt argv) pts.length) pts)
    let t ← liftM out.dnn.print
    pure (⟨0, s.msgs, some t⟩ : CliOut)) = _
  cases tesellateCpu nb hw (cliParams (getopt argv) pts.length) pts with
  | error e => rfl
  | ok out =>
    change (do
      let t ← liftM out.dnn.print
      pure (⟨0, s.msgs, some t⟩ : CliOut)) = liftM (do
        let t ← out.dnn.print
        pure ⟨0, s.msgs, some t⟩)
    cases out.dnn.print <;> rfl

/-- not the device option -/
def notDevice : Opt → Bool
  | .value 'x' _ => false
  | _ => true

theorem filterMap_notDevice {c : Char} (hc : c ≠ 'x') (opts : List Opt) :
    (opts.filter notDevice).filterMap (argOf c) = opts.filterMap (argOf c) := by
  induction opts with
  | nil => rfl
  | cons o opts ih =>
    by_cases ho : notDevice o = true
    · simp only [List.filter_cons, ho, if_true, List.filterMap_cons, ih]
    · have : argOf c o = none := by
        unfold notDevice at ho
        split at ho
        · simp [argOf, Ne.symm hc]
        · simp at ho
      simp only [List.filter_cons, ho, List.filterMap_cons, this]
      exact ih

/-- C45: the device option has no effect on exit status and output. -/
theorem C45_device_ignored {nb hw : Nat} {openFile : Txt → Option Txt}
    {num : Txt → Option (F × Txt)} {argv argv' : List Txt}
    (h : (getopt argv).filter notDevice = (getopt argv').filter notDevice) :
    (cliMain (F := F) nb hw openFile num argv).map (fun o => (o.status, o.printed)) =
    (cliMain (F := F) nb hw openFile num argv').map (fun o => (o.status, o.printed)) := by
  have hl : ∀ c, c ≠ 'x' → lastValue c (getopt argv) = lastValue c (getopt argv') := by
    intro c hc
    unfold lastValue
    rw [← filterMap_notDevice hc, h, filterMap_notDevice hc]
  have hfl : ∀ c, Opt.flag c ∈ getopt argv ↔ Opt.flag c ∈ getopt argv' := by
    intro c
    have e : ∀ l : List Opt, Opt.flag c ∈ l ↔ Opt.flag c ∈ l.filter notDevice := by
      intro l; simp [notDevice]
    rw [e, h, ← e]
  have hval : ∀ c a, c ≠ 'x' → (Opt.value c a ∈ getopt argv ↔ Opt.value c a ∈ getopt argv') := by
    intro c a hc
    have e : ∀ l : List Opt, Opt.value c a ∈ l ↔ Opt.value c a ∈ l.filter notDevice := by
      intro l; simp [notDevice, hc]
    rw [e, h, ← e]
  have hset : ∀ c d, c ≠ 'x' → setting c d (getopt argv) = setting c d (getopt argv') := by
    intro c d hc; unfold setting; rw [hl c hc]
  have hfit : NumbersFit (getopt argv) ↔ NumbersFit (getopt argv') := by
    unfold NumbersFit
    constructor
    · intro H e he a ha; exact H e he a ((hval _ _ (numericOpts_char e he).2).mpr ha)
    · intro H e he a ha; exact H e he a ((hval _ _ (numericOpts_char e he).2).mp ha)
  have hprm : ∀ n, cliParams (getopt argv) n = cliParams (getopt argv') n := by
    intro n
    unfold cliParams
    simp only [hset _ _ (by decide : 'k' ≠ 'x'), hset _ _ (by decide : 'g' ≠ 'x'),
      hset _ _ (by decide : 'p' ≠ 'x'), hset _ _ (by decide : 'm' ≠ 'x'),
      hset _ _ (by decide : 't' ≠ 'x'), hset _ _ (by decide : 'c' ≠ 'x'), hfl]
  by_cases hf : NumbersFit (getopt argv)
  · have hf' := hfit.mp hf
    have hi := hl 'i' (by decide)
    by_cases h0 : (lastValue 'i' (getopt argv)).getD [] = []
    · rw [C45_failure hf (Or.inl ⟨h0, rfl⟩), C45_failure hf' (Or.inl ⟨hi ▸ h0, rfl⟩)]; rfl
    · cases ho : openFile ((lastValue 'i' (getopt argv)).getD []) with
      | none =>
        rw [C45_failure hf (Or.inr (Or.inl ⟨h0, ho, rfl⟩)),
          C45_failure hf' (Or.inr (Or.inl ⟨hi ▸ h0, hi ▸ ho, rfl⟩))]; rfl
      | some txt =>
        cases hp : filePoints num (linesOf txt) with
        | none =>
          have hb : ∃ l ∈ linesOf txt, readPoint num l = none := by
            unfold filePoints at hp
            split at hp
            · cases hp
            · rename_i hn
              simpa [Classical.not_forall] using hn
          rw [C45_failure hf (Or.inr (Or.inr ⟨h0, ⟨txt, ho, hb⟩, rfl⟩)),
            C45_failure hf' (Or.inr (Or.inr ⟨hi ▸ h0, ⟨txt, hi ▸ ho, hb⟩, rfl⟩))]; rfl
        | some pts =>
          rw [C45_run hf h0 ho hp, C45_run hf' (hi ▸ h0) (hi ▸ ho) hp, hprm]
          cases tesellateCpu nb hw (cliParams (getopt argv') pts.length) pts with
          | error e => rfl
          | ok out =>
            simp only [bind, Except.bind, pure, Except.pure]
            cases out.dnn.print <;> rfl
  · have hf' := fun h => hf (hfit.mpr h)
    have e : ∀ av, ¬ NumbersFit (getopt av) →
        cliMain (F := F) nb hw openFile num av = .error (.ub .overflow) := by
      intro av hn
      unfold cliMain
      cases hs : parseArgs av with
      | ok s => exact absurd ((C45_parse_iff av).mp ⟨s, hs⟩) hn
      | error e => rw [C45_parse_error hs]; rfl
    rw [e _ hf, e _ hf']

end run

/-- C45: a text made of lines, each closed by a newline, is read back as these lines; the
last newline may be missing if the last line is not empty. -/
theorem C45_lines (ls : List Txt) (h : ∀ l ∈ ls, '\n' ∉ l) :
    linesOf (ls.map (· ++ ['\n'])).flatten = ls ∧
    ∀ l, '\n' ∉ l → l ≠ [] → linesOf ((ls.map (· ++ ['\n'])).flatten ++ l) = ls ++ [l] := by
  have h1 : ∀ (l : Txt) (rest : Txt), '\n' ∉ l → linesOf (l ++ '\n' :: rest) = l :: linesOf rest := by
    intro l rest hl
    induction l with
    | nil => simp [linesOf]
    | cons c l ih =>
      simp only [List.mem_cons, not_or] at hl
      have hc : c ≠ '\n' := fun e => hl.1 e.symm
      simp only [List.cons_append, linesOf, hc, if_false, ih hl.2]
  have h2 : ∀ l : Txt, '\n' ∉ l → l ≠ [] → linesOf l = [l] := by
    intro l hl hne
    induction l with
    | nil => exact absurd rfl hne
    | cons c l ih =>
      simp only [List.mem_cons, not_or] at hl
      have hc : c ≠ '\n' := fun e => hl.1 e.symm
      simp only [linesOf, hc, if_false]
      cases l with
      | nil => rfl
      | cons d l => rw [ih hl.2 (by simp)]
  constructor
  · induction ls with
    | nil => rfl
    | cons l ls ih =>
      simp only [List.map_cons, List.flatten_cons, List.append_assoc, List.cons_append,
        List.nil_append]
      rw [h1 _ _ (h l (by simp)), ih (fun x hx => h x (List.mem_cons_of_mem _ hx))]
  · intro l hl hne
    induction ls with
    | nil => simpa using h2 l hl hne
    | cons l' ls ih =>
      simp only [List.map_cons, List.flatten_cons, List.append_assoc, List.cons_append,
        List.nil_append]
      rw [h1 _ _ (h l' (by simp)), ih (fun x hx => h x (List.mem_cons_of_mem _ hx))]

/-! ### Concrete cases -/

/-- a command line with every kind of spelling -/
def exArgv : List Txt :=
  ["-urk8", "--infile=points", "--k-i", "12", "extra", "--gridres", "9", "-t", "-1",
   "--grid", "4", "-x", "tpu", "-q", "--", "-k", "3"].map String.toList

example : getopt exArgv = [.flag 'u', .flag 'r', .value 'k' "8".toList,
    .value 'i' "points".toList, .value 'k' "12".toList, .bad, .value 't' "-1".toList,
    .value 'g' "4".toList, .value 'x' "tpu".toList, .bad] := by decide

example : NumbersFit (getopt exArgv) := by
  have e : getopt exArgv = [.flag 'u', .flag 'r', .value 'k' "8".toList,
    .value 'i' "points".toList, .value 'k' "12".toList, .bad, .value 't' "-1".toList,
    .value 'g' "4".toList, .value 'x' "tpu".toList, .bad] := by decide
  intro en _ a ha
  rw [e] at ha
  simp only [List.mem_cons, List.not_mem_nil, or_false, Opt.value.injEq, reduceCtorEq,
    false_or] at ha
  rcases ha with h | h | h | h | h | h <;> (rw [h.2]; decide)

example : cliParams (getopt exArgv) 1000 =
    ⟨12, 4, 32, 32, 4294967295, 8196, true, true⟩ := by decide

example : (getopt exArgv).filterMap msgOf = [.unknownOption, .unknownDevice, .unknownOption] := by
  decide

example : Spelling ["-urk8".toList] [.flag 'u', .flag 'r', .value 'k' "8".toList] :=
  Spelling.shortJoin (fs := ['u', 'r']) (c := 'k') (by
    intro d hd
    simp only [List.mem_cons, List.not_mem_nil, or_false] at hd
    rcases hd with rfl | rfl
    · exact ⟨"use-chunking".toList, by decide⟩
    · exact ⟨"use-recompute".toList, by decide⟩) ⟨"k-init".toList, by decide⟩ "8".toList (by decide)

example : ¬ NumbersFit (getopt ["-k3000000000".toList]) := by
  intro h
  have := h ('k', "k", 64) (by decide) "3000000000".toList (by decide)
  revert this
  decide

example : parseArgs ["-k3000000000".toList] = .error (.ub .overflow) := rfl

/-- `--help` alone fails -/
example {F D : Type} [FP F D] [Inhabited F] (nb hw : Nat) (openFile : Txt → Option Txt)
    (num : Txt → Option (F × Txt)) : ∃ o, cliMain (F := F) (D := D) nb hw openFile num ["--help".toList] = .ok o ∧ o.status = 1 ∧
    o.msgs = [.help, .noInput] := ⟨_, rfl, rfl, rfl⟩

/-- a trailing blank line is an empty line -/
example : linesOf "1 2 3\n\n".toList = ["1 2 3".toList, []] ∧
    linesOf "1 2 3\n4 5 6".toList = ["1 2 3".toList, "4 5 6".toList] := by decide

end Votess
