import Verif.Model.Text
import Verif.Spec.Numeral
import Verif.Proofs.Ieee
import Verif.Props.Cli
import Mathlib.Tactic.Ring
import Mathlib.Tactic.FieldSimp
/-!
# C72 — the numbers in the input file

The coordinates are decimal numerals.  Reading one takes the longest numeral at the beginning of the
text, and stores the nearest `float`.
-/
namespace Votess

/-! ### digits -/

theorem isDigitC_iff (c : Char) : isDigitC c = true ↔ '0' ≤ c ∧ c ≤ '9' := by
  have h0 : ('0' ≤ c) ↔ 48 ≤ c.toNat := by
    rw [Char.le_def, UInt32.le_iff_toNat_le]; rfl
  have h9 : (c ≤ '9') ↔ c.toNat ≤ 57 := by
    rw [Char.le_def, UInt32.le_iff_toNat_le]; rfl
  unfold isDigitC digitVal
  rw [h0, h9]
  split <;> simp_all

theorem digitVal_of {c : Char} (h : '0' ≤ c ∧ c ≤ '9') : (((digitVal c).getD 0 : Nat) : ℚ) = digitOf c := by
  have h' := (isDigitC_iff c).mpr h
  unfold isDigitC digitVal at h'
  unfold digitVal digitOf
  split at h'
  · rename_i hc; rw [if_pos hc]; rfl
  · simp at h'

theorem digitsNat_foldl (ds : Txt) (a : Nat) (h : AllDigits ds) :
    ((ds.foldl (fun a c => a * 10 + (digitVal c).getD 0) a : Nat) : ℚ) = a * 10 ^ ds.length + wholeVal ds := by
  induction ds generalizing a with
  | nil => simp [wholeVal]
  | cons c cs ih =>
    rw [List.foldl_cons, ih _ (fun x hx => h x (List.mem_cons_of_mem _ hx))]
    push_cast
    rw [digitVal_of (h c (by simp)), List.length_cons, wholeVal]
    ring

theorem digitsNat_val {ds : Txt} (h : AllDigits ds) : (digitsNat ds : ℚ) = wholeVal ds := by
  unfold digitsNat; rw [digitsNat_foldl ds 0 h]; simp

theorem digitsNat_frac {fs : Txt} (h : AllDigits fs) (a : Nat) :
    ((fs.foldl (fun a c => a * 10 + (digitVal c).getD 0) a : Nat) : ℚ) = (a + fracVal fs) * 10 ^ fs.length := by
  induction fs generalizing a with
  | nil => simp [fracVal]
  | cons c cs ih =>
    rw [List.foldl_cons, ih (fun x hx => h x (List.mem_cons_of_mem _ hx))]
    push_cast
    rw [digitVal_of (h c (by simp)), List.length_cons, fracVal]
    field_simp
    ring

theorem digitsNat_both {ds fs : Txt} (hd : AllDigits ds) (hf : AllDigits fs) :
    (digitsNat (ds ++ fs) : ℚ) = (wholeVal ds + fracVal fs) * 10 ^ fs.length := by
  have h1 := digitsNat_val hd
  unfold digitsNat at h1 ⊢
  rw [List.foldl_append, digitsNat_frac hf, h1]

theorem digits_split {ds r : Txt} (hd : AllDigits ds) (hr : ∀ c, r.head? = some c → isDigitC c = false) :
    (ds ++ r).takeWhile isDigitC = ds ∧ (ds ++ r).dropWhile isDigitC = r := by
  induction ds with
  | nil =>
    cases r with
    | nil => simp
    | cons c cs => simp [hr c rfl]
  | cons c cs ih =>
    have hc : isDigitC c = true := (isDigitC_iff c).mpr (hd c (by simp))
    obtain ⟨h1, h2⟩ := ih (fun x hx => hd x (List.mem_cons_of_mem _ hx))
    simp only [List.cons_append, List.takeWhile_cons, List.dropWhile_cons, hc, if_true, h1, h2]
    simp

theorem takeWhile_digits (s : Txt) : AllDigits (s.takeWhile isDigitC) := by
  intro c hc
  have := List.all_takeWhile (p := isDigitC) (l := s)
  rw [List.all_eq_true] at this
  exact (isDigitC_iff c).mp (this c hc)

/-! ### the parts of a numeral -/

theorem digit_ne {c : Char} (h : '0' ≤ c ∧ c ≤ '9') : c ≠ '-' ∧ c ≠ '+' ∧ c ≠ '.' ∧ c ≠ 'e' ∧ c ≠ 'E' ∧
    isSpaceC c = false := by
  have h' := (isDigitC_iff c).mpr h
  obtain ⟨h1, h2, h3⟩ := digit_not_space c h'
  refine ⟨h2, h3, ?_, ?_, ?_, h1⟩ <;> (rintro rfl; revert h'; decide)

theorem scanSign_spec (s : Txt) : ∃ t σ, s = t ++ (scanSign s).2 ∧ SignIs t σ ∧
    (σ = if (scanSign s).1 then -1 else 1) := by
  unfold scanSign
  split
  · exact ⟨['-'], -1, rfl, Or.inr (Or.inr ⟨rfl, rfl⟩), rfl⟩
  · exact ⟨['+'], 1, rfl, Or.inr (Or.inl ⟨rfl, rfl⟩), rfl⟩
  · exact ⟨[], 1, rfl, Or.inl ⟨rfl, rfl⟩, rfl⟩

/-- a sign in front of something that does not begin with a sign -/
theorem scanSign_of {t r : Txt} {σ : ℚ} (h : SignIs t σ) (hr : ∀ c, r.head? = some c → c ≠ '-' ∧ c ≠ '+') :
    (scanSign (t ++ r)).2 = r ∧ σ = if (scanSign (t ++ r)).1 then -1 else 1 := by
  rcases h with ⟨rfl, rfl⟩ | ⟨rfl, rfl⟩ | ⟨rfl, rfl⟩
  · cases r with
    | nil => exact ⟨rfl, rfl⟩
    | cons c cs =>
      obtain ⟨h1, h2⟩ := hr c rfl
      simp [scanSign, h1, h2]
  · exact ⟨rfl, rfl⟩
  · exact ⟨rfl, rfl⟩

theorem scanExp_spec {s r : Txt} {e : Int} (h : scanExp s = some (e, r)) : ∃ t, s = t ++ r ∧ ExpIs t e := by
  unfold scanExp at h
  split at h
  · simp only [Option.some.injEq, Prod.mk.injEq] at h
    obtain ⟨rfl, rfl⟩ := h
    exact ⟨[], rfl, Or.inl ⟨rfl, rfl⟩⟩
  · rename_i c s
    split at h
    · rename_i hc
      simp only at h
      split at h
      · cases h
      · rename_i hd
        simp only [Option.some.injEq, Prod.mk.injEq] at h
        obtain ⟨he, rfl⟩ := h
        obtain ⟨t, σ, g1, g2, g3⟩ := scanSign_spec s
        have hdig := takeWhile_digits (scanSign s).2
        refine ⟨c :: (t ++ (scanSign s).2.takeWhile isDigitC), ?_, Or.inr ⟨c, t, _, σ, hc, g2, hdig, hd, rfl, ?_⟩⟩
        · rw [List.cons_append, List.append_assoc, List.takeWhile_append_dropWhile, ← g1]
        · rw [← he, g3]
          split <;> (push_cast; rw [digitsNat_val hdig]; ring)
    · simp only [Option.some.injEq, Prod.mk.injEq] at h
      obtain ⟨rfl, rfl⟩ := h
      exact ⟨[], rfl, Or.inl ⟨rfl, rfl⟩⟩

/-- the text cannot go on with a longer numeral -/
def Ends (r : Txt) : Prop := ∀ c, r.head? = some c → isDigitC c = false ∧ c ≠ '.' ∧ c ≠ 'e' ∧ c ≠ 'E'

theorem head?_digits {ds : Txt} (r : Txt) (h : ds ≠ []) (hd : AllDigits ds) {c : Char}
    (hc : (ds ++ r).head? = some c) : '0' ≤ c ∧ c ≤ '9' := by
  cases ds with
  | nil => exact absurd rfl h
  | cons d ds =>
    simp only [List.cons_append, List.head?_cons, Option.some.injEq] at hc
    subst hc
    exact hd d (by simp)

theorem scanExp_of {t r : Txt} {e : Int} (h : ExpIs t e) (hr : Ends r) : scanExp (t ++ r) = some (e, r) := by
  rcases h with ⟨rfl, rfl⟩ | ⟨c, s, ds, σ, hc, hs, hd, hne, rfl, he⟩
  · cases r with
    | nil => rfl
    | cons c cs =>
      obtain ⟨-, -, h1, h2⟩ := hr c rfl
      simp [scanExp, h1, h2]
  · have hsg := scanSign_of (r := ds ++ r) hs (fun c' h' => by
      obtain ⟨g1, g2, -⟩ := digit_ne (head?_digits r hne hd h')
      exact ⟨g1, g2⟩)
    obtain ⟨t1, t2⟩ := digits_split hd (fun c' h' => (hr c' h').1)
    have e1 : (c :: (s ++ ds)) ++ r = c :: (s ++ (ds ++ r)) := by simp
    rw [e1]
    unfold scanExp
    simp only [hc, if_true, hsg.1, t1, t2]
    rw [if_neg hne]
    congr 2
    have h2 := hsg.2
    have : ((if (scanSign (s ++ (ds ++ r))).1 = true then -(digitsNat ds : Int) else (digitsNat ds : Int) : Int) : ℚ)
        = (e : ℚ) := by
      rw [he, ← digitsNat_val hd, h2]
      split <;> (push_cast; ring)
    exact_mod_cast this

theorem scanFrac_spec (s : Txt) : ∃ pt, s = pt ++ (scanFrac s).1 ++ (scanFrac s).2 ∧
    AllDigits (scanFrac s).1 ∧ (pt = ['.'] ∨ (pt = [] ∧ (scanFrac s).1 = [])) := by
  unfold scanFrac
  split
  · rename_i s
    refine ⟨['.'], ?_, takeWhile_digits s, Or.inl rfl⟩
    simp [List.takeWhile_append_dropWhile]
  · exact ⟨[], rfl, by intro c hc; simp at hc, Or.inr ⟨rfl, rfl⟩⟩

theorem ten_pow_sub (a : ℚ) (e : Int) (n : Nat) : a * 10 ^ n * (10 : ℚ) ^ (e - n) = a * 10 ^ e := by
  rw [zpow_sub₀ (by norm_num : (10 : ℚ) ≠ 0), zpow_natCast]
  field_simp

/-- C72: whatever number is read is the value of a numeral that stands there after white space. -/
theorem C72_read_is_numeral {s r : Txt} {q : ℚ} (h : scanDec s = some (q, r)) :
    ∃ ws t, s = ws ++ t ++ r ∧ (∀ c ∈ ws, isSpaceC c = true) ∧ Numeral t q := by
  unfold scanDec at h
  simp only at h
  set s1 := s.dropWhile isSpaceC with hs1
  set s2 := (scanSign s1).2 with hs2
  set s3 := s2.dropWhile isDigitC with hs3
  split at h
  · cases h
  · rename_i hne
    split at h
    · cases h
    · rename_i e r' he
      simp only [Option.some.injEq, Prod.mk.injEq] at h
      obtain ⟨hq, rfl⟩ := h
      obtain ⟨t, σ, g1, g2, g3⟩ := scanSign_spec s1
      obtain ⟨pt, f1, f2, f3⟩ := scanFrac_spec s3
      obtain ⟨x, e1, e2⟩ := scanExp_spec he
      have hd := takeWhile_digits s2
      refine ⟨s.takeWhile isSpaceC, t ++ s2.takeWhile isDigitC ++ pt ++ (scanFrac s3).1 ++ x, ?_, ?_,
        t, _, pt, _, x, σ, e, rfl, g2, hd, f2, f3, ?_, e2, ?_⟩
      · have : s = s.takeWhile isSpaceC ++ (t ++ (s2.takeWhile isDigitC ++ (pt ++ (scanFrac s3).1 ++ (x ++ r')))) := by
          rw [← e1, ← f1, hs3, List.takeWhile_append_dropWhile, hs2, ← g1, hs1, List.takeWhile_append_dropWhile]
        exact this.trans (by simp only [List.append_assoc])
      · intro c hc
        have := List.all_takeWhile (p := isSpaceC) (l := s)
        rw [List.all_eq_true] at this
        exact this c hc
      · by_contra hc
        push Not at hc
        exact hne hc
      · rw [← hq, digitsNat_both hd f2, g3]
        have := ten_pow_sub ((if (scanSign s1).1 = true then -1 else 1) *
          (wholeVal (s2.takeWhile isDigitC) + fracVal (scanFrac s3).1)) e (scanFrac s3).1.length
        rw [← this]; ring

theorem dropWhile_spaces {ws r : Txt} (h : ∀ c ∈ ws, isSpaceC c = true)
    (hr : ∀ c, r.head? = some c → isSpaceC c = false) : (ws ++ r).dropWhile isSpaceC = r := by
  induction ws with
  | nil =>
    cases r with
    | nil => rfl
    | cons c cs => simp [hr c rfl]
  | cons c cs ih =>
    rw [List.cons_append, List.dropWhile_cons, h c (by simp), if_pos rfl]
    exact ih fun x hx => h x (List.mem_cons_of_mem _ hx)

/-- C72: every numeral is read, with its value, when it stands at the beginning of the text after white
space and is not followed by a digit, a point or an exponent letter. -/
theorem C72_numeral_is_read {ws t r : Txt} {q : ℚ} (hw : ∀ c ∈ ws, isSpaceC c = true) (h : Numeral t q)
    (hr : Ends r) : scanDec (ws ++ t ++ r) = some (q, r) := by
  obtain ⟨s, ds, pt, fs, x, σ, e, rfl, hs, hd, hf, hpt, hne, hx, rfl⟩ := h
  -- the text after the fraction
  have hxr : ∀ c, (x ++ r).head? = some c → isDigitC c = false ∧ c ≠ '.' := by
    intro c hc
    rcases hx with ⟨rfl, -⟩ | ⟨c', s', ds', σ', hc', -, -, -, rfl, -⟩
    · exact ⟨(hr c hc).1, (hr c hc).2.1⟩
    · simp only [List.cons_append, List.head?_cons, Option.some.injEq] at hc
      subst hc
      rcases hc' with rfl | rfl <;> decide
  have hfx : scanFrac (pt ++ (fs ++ (x ++ r))) = (fs, x ++ r) := by
    rcases hpt with rfl | ⟨rfl, rfl⟩
    · obtain ⟨h1, h2⟩ := digits_split hf (fun c hc => (hxr c hc).1)
      simp [scanFrac, h1, h2]
    · simp only [List.nil_append]
      cases hl : x ++ r with
      | nil => rfl
      | cons c cs =>
        have := (hxr c (by rw [hl]; rfl)).2
        simp [scanFrac, this]
  have hpr : ∀ c, (pt ++ (fs ++ (x ++ r))).head? = some c → isDigitC c = false := by
    intro c hc
    rcases hpt with rfl | ⟨rfl, rfl⟩
    · simp only [List.cons_append, List.head?_cons, Option.some.injEq] at hc
      subst hc; decide
    · exact (hxr c hc).1
  obtain ⟨d1, d2⟩ := digits_split hd hpr
  -- the first character after the sign
  have hfirst : ∀ c, (ds ++ (pt ++ (fs ++ (x ++ r)))).head? = some c → ('0' ≤ c ∧ c ≤ '9') ∨ c = '.' := by
    intro c hc
    by_cases h0 : ds = []
    · subst h0
      rcases hpt with rfl | ⟨rfl, rfl⟩
      · simp only [List.nil_append, List.cons_append, List.head?_cons, Option.some.injEq] at hc
        exact Or.inr hc.symm
      · simp at hne
    · exact Or.inl (head?_digits _ h0 hd hc)
  have hsg := scanSign_of (r := ds ++ (pt ++ (fs ++ (x ++ r)))) hs (fun c hc => by
    rcases hfirst c hc with h | rfl
    · exact ⟨(digit_ne h).1, (digit_ne h).2.1⟩
    · decide)
  have hsp : (ws ++ (s ++ ds ++ pt ++ fs ++ x) ++ r).dropWhile isSpaceC = s ++ (ds ++ (pt ++ (fs ++ (x ++ r)))) := by
    have e1 : ws ++ (s ++ ds ++ pt ++ fs ++ x) ++ r = ws ++ (s ++ (ds ++ (pt ++ (fs ++ (x ++ r))))) := by simp
    rw [e1]
    apply dropWhile_spaces hw
    intro c hc
    rcases hs with ⟨rfl, -⟩ | ⟨rfl, -⟩ | ⟨rfl, -⟩
    · rcases hfirst c hc with h | rfl
      · exact (digit_ne h).2.2.2.2.2
      · decide
    · simp only [List.cons_append, List.head?_cons, Option.some.injEq] at hc
      subst hc; decide
    · simp only [List.cons_append, List.head?_cons, Option.some.injEq] at hc
      subst hc; decide
  unfold scanDec
  simp only
  rw [hsp, hsg.1, d1, d2, hfx]
  simp only
  rw [if_neg (by
    rintro ⟨h1, h2⟩
    rcases hne with h | h
    · exact h h1
    · exact h h2), scanExp_of hx hr]
  simp only [Option.some.injEq, Prod.mk.injEq, and_true]
  rw [digitsNat_both hd hf, ← hsg.2]
  have := ten_pow_sub (σ * (wholeVal ds + fracVal fs)) e fs.length
  rw [← this]; ring

/-! ### the nearest `float` -/

theorem rne_nearest (t : ℚ) (n : Int) : |(rne t : ℚ) - t| ≤ |(n : ℚ) - t| := by
  by_cases h : n = rne t
  · rw [h]
  · have h1 := rne_err t
    have h2 : (1 : ℚ) ≤ |(n : ℚ) - rne t| := by
      have : (1 : Int) ≤ |n - rne t| := Int.one_le_abs (sub_ne_zero.mpr h)
      exact_mod_cast this
    have h3 : |(n : ℚ) - rne t| ≤ |(n : ℚ) - t| + |(rne t : ℚ) - t| := by
      have e : (n : ℚ) - rne t = (n - t) - (rne t - t) := by ring
      rw [e]; exact abs_sub _ _
    linarith

theorem rnd_nearest_pos {f : Fmt} (hps : 1 ≤ f.p) (hz : f.ftz = false) {x y : ℚ} (hx : 0 < x) (hy : IsFl f y) :
    |rnd f x - x| ≤ |y - x| := by
  have hq := pow2_pos (quantum f x)
  have hmul : ∀ n : Int, |rnd f x - x| ≤ |(n : ℚ) * pow2 (quantum f x) - x| := by
    intro n
    have he : rnd f x = (rne (x / pow2 (quantum f x)) : ℚ) * pow2 (quantum f x) := by
      rw [rnd_off hz]; unfold nearest; rw [if_neg hx.ne']
    have hn := rne_nearest (x / pow2 (quantum f x)) n
    have e1 : ∀ m : ℚ, m * pow2 (quantum f x) - x = (m - x / pow2 (quantum f x)) * pow2 (quantum f x) := by
      intro m; field_simp
    rw [he, e1, e1, abs_mul, abs_mul]
    exact mul_le_mul_of_nonneg_right hn (abs_nonneg _)
  obtain ⟨m, e, hm, he, rfl⟩ := hy
  rcases le_or_gt (quantum f x) e with hqe | hqe
  · -- a multiple of the last place
    obtain ⟨d, hd⟩ : ∃ d : Nat, e = quantum f x + d := ⟨(e - quantum f x).toNat, by omega⟩
    have := hmul (m * 2 ^ d)
    rw [hd, pow2_add, pow2_nat]
    push_cast at this
    rwa [show (m : ℚ) * (pow2 (quantum f x) * 2 ^ d) = m * 2 ^ d * pow2 (quantum f x) by ring]
  · -- a smaller number with more places
    have h1 : quantum f x = ilog2 x - (f.p - 1) := by
      rw [quantum_eq f hx] at hqe ⊢
      omega
    obtain ⟨l1, l2⟩ := ilog2_spec hx
    have hb : (m : ℚ) * pow2 e ≤ pow2 (ilog2 x) := by
      have hm' : (m : ℚ) ≤ 2 ^ f.p := by
        have := (abs_lt.mp hm).2
        exact_mod_cast this.le
      calc (m : ℚ) * pow2 e ≤ 2 ^ f.p * pow2 e := mul_le_mul_of_nonneg_right hm' (pow2_pos e).le
        _ = pow2 (f.p + e) := by rw [pow2_add, pow2_nat]
        _ ≤ pow2 (ilog2 x) := pow2_le (by omega)
    have := hmul (2 ^ (f.p - 1))
    have e1 : (((2 ^ (f.p - 1) : Int)) : ℚ) * pow2 (quantum f x) = pow2 (ilog2 x) := by
      push_cast
      rw [← pow2_nat, ← pow2_add]
      congr 1
      omega
    rw [e1, abs_of_nonpos (a := pow2 (ilog2 x) - x) (by linarith)] at this
    rw [abs_of_nonpos (a := (m : ℚ) * pow2 e - x) (by linarith)]
    linarith

/-- no value of the format is closer than the rounded one -/
theorem rnd_nearest {f : Fmt} (hps : 1 ≤ f.p) (hz : f.ftz = false) {x y : ℚ} (hy : IsFl f y) : |rnd f x - x| ≤ |y - x| := by
  rcases lt_trichotomy x 0 with hx | rfl | hx
  · have := rnd_nearest_pos hps hz (x := -x) (by linarith) hy.neg
    rw [rnd_neg, show -rnd f x - -x = -(rnd f x - x) by ring, show -y - -x = -(y - x) by ring, abs_neg,
      abs_neg] at this
    exact this
  · rw [rnd_zero]; simp
  · exact rnd_nearest_pos hps hz hx hy

/-- C72: the number stored is a value of the type `float`, and no value of the type is closer to the number
in the text. -/
theorem C72_nearest {s r : Txt} {q : ℚ} {v : F32} (hq : scanDec s = some (q, r)) (h : scanF32 s = some (v, r)) :
    ∃ w, v = .fin w ∧ IsFl b32 w ∧ ∀ y, IsFl b32 y → |w - q| ≤ |y - q| := by
  unfold scanF32 at h
  rw [hq] at h
  simp only at h
  split at h
  · rename_i w hw
    simp only [Option.some.injEq, Prod.mk.injEq, and_true] at h
    have hr : w = rnd b32 q := by
      unfold Fl.round at hw
      simp only at hw
      split at hw
      · cases hw
      · split at hw
        · cases hw
        · cases hw; rfl
    exact ⟨w, h.symm, by rw [hr]; exact rnd_isFl b32_p q, fun y hy => by rw [hr]; exact rnd_nearest b32_p rfl hy⟩
  · cases h

/-- C72: the extraction of a `float` fails exactly if there is no numeral, or it is too large for the type. -/
theorem C72_fails_iff (s : Txt) : scanF32 s = none ↔
    scanDec s = none ∨ ∃ q r, scanDec s = some (q, r) ∧ 2 ^ 128 ≤ |rnd b32 q| := by
  unfold scanF32
  cases h : scanDec s with
  | none => simp
  | some qr =>
    obtain ⟨q, r⟩ := qr
    simp only [reduceCtorEq, false_or, Option.some.injEq, Prod.mk.injEq]
    constructor
    · intro h'
      refine ⟨q, r, ⟨rfl, rfl⟩, ?_⟩
      by_contra hc
      have hc' := abs_lt.mp (not_le.mp hc)
      rw [Fl.round_fin (by linarith [hc'.1]) hc'.2] at h'
      simp at h'
    · rintro ⟨q', r', ⟨rfl, rfl⟩, hc⟩
      have : ∀ w, Fl.round b32 q ≠ .fin w := by
        intro w hw
        unfold Fl.round at hw
        simp only [b32_emax] at hw
        split at hw
        · cases hw
        · split at hw
          · cases hw
          · rename_i h1 h2
            have : |rnd b32 q| < 2 ^ 128 := abs_lt.mpr ⟨by linarith, by linarith⟩
            linarith
      split
      · rename_i w hw; exact absurd hw (this w)
      · rfl

/-! ### lines -/

theorem ends_nil : Ends [] := by intro c hc; cases hc

theorem ends_space {ws r : Txt} (h : ∀ c ∈ ws, isSpaceC c = true) (hne : ws ≠ []) : Ends (ws ++ r) := by
  cases ws with
  | nil => exact absurd rfl hne
  | cons d ds =>
    intro c hc
    simp only [List.cons_append, List.head?_cons, Option.some.injEq] at hc
    subst hc
    have hs := h d (by simp)
    refine ⟨?_, ?_, ?_, ?_⟩
    · by_contra hd
      have := (digit_not_space d (by rwa [Bool.not_eq_false] at hd)).1
      rw [hs] at this; cases this
    all_goals (rintro rfl; revert hs; decide)

/-- C72: a line with three numerals separated by white space is the point with these coordinates,
whatever follows after the third (if it is set off from it). -/
theorem C72_line {w1 w2 w3 tx ty tz rest : Txt} {x y z : ℚ} (h1 : ∀ c ∈ w1, isSpaceC c = true)
    (h2 : ∀ c ∈ w2, isSpaceC c = true) (h3 : ∀ c ∈ w3, isSpaceC c = true) (n2 : w2 ≠ []) (n3 : w3 ≠ [])
    (hx : Numeral tx x) (hy : Numeral ty y) (hz : Numeral tz z) (hr : Ends rest) :
    readPoint scanDec (w1 ++ tx ++ (w2 ++ ty ++ (w3 ++ tz ++ rest))) = some ⟨x, y, z⟩ := by
  rw [readPoint_iff]
  refine ⟨_, _, rest, C72_numeral_is_read h1 hx ?_, C72_numeral_is_read h2 hy ?_, C72_numeral_is_read h3 hz hr⟩
  · rw [List.append_assoc]; exact ends_space h2 n2
  · rw [List.append_assoc]; exact ends_space h3 n3

/-! ### examples -/

example : Numeral "-12.5e-1".toList (-5/4) :=
  ⟨['-'], ['1', '2'], ['.'], ['5'], "e-1".toList, -1, -1, rfl, Or.inr (Or.inr ⟨rfl, rfl⟩),
    by unfold AllDigits; decide, by unfold AllDigits; decide, Or.inl rfl, Or.inl (by simp),
    Or.inr ⟨'e', ['-'], ['1'], -1, Or.inl rfl, Or.inr (Or.inr ⟨rfl, rfl⟩), by unfold AllDigits; decide, by simp,
      rfl, by decide +kernel⟩, by decide +kernel⟩

example : scanDec " 0.1 0.2".toList = some (1/10, " 0.2".toList) := by decide +kernel
example : scanDec "+.5E1x".toList = some (5, "x".toList) := by decide +kernel
example : scanDec "12.".toList = some (12, []) := by decide +kernel
/-- not numbers -/
example : scanDec "inf".toList = none ∧ scanDec "-".toList = none ∧ scanDec ".".toList = none ∧
    scanDec "1e".toList = none ∧ scanDec "".toList = none := by decide +kernel
/-- hexadecimal numbers and decimal commas end early -/
example : scanDec "0x10".toList = some (0, "x10".toList) ∧ scanDec "0,5".toList = some (0, ",5".toList) := by
  decide +kernel
/-- too large for `float` -/
example : scanF32 "1e39".toList = none := by decide +kernel
/-- 0.1 is stored as 13421773 / 2^27 -/
example : scanF32 "0.1".toList = some (.fin (13421773 / 2 ^ 27), []) := by decide +kernel
/-- three numbers, and a fourth that is ignored -/
example : readPoint scanDec "0.5 .25\t1e-1 7".toList = some ⟨1/2, 1/4, 1/10⟩ := by decide +kernel
/-- commas between the numbers are a format error -/
example : readPoint scanDec "0.5,0.25,0.1".toList = none := by decide +kernel
/-- numbers that are not set off from each other are cut where a new one can begin -/
example : readPoint scanDec "0.5.25-3".toList = some ⟨1/2, 1/4, -3⟩ := by decide +kernel

end Votess
