import Verif.Model.Fma
import Verif.Model.Double
import Verif.Proofs.Wide
/-! What the error analysis needs of an arithmetic: that of `float` or `double`, where an addition may use the
exact value of an operand that is a product, and where expressions of `float` and integers may be rounded to
`float`. -/
namespace Votess

/-- an operation of `a` and `b` is one of the format: one of them has its type, or none is a `float` -/
def Okay {F : Type} (Full Ns : F → Prop) (a b : F) : Prop := Full a ∨ Full b ∨ (Ns a ∧ Ns b)

/-- arithmetic of one format, with or without fused multiply-add, and of `float` beside it -/
class Sgl (F : Type) [FP F (WithTop ℚ)] where
  /-- the format of coordinates -/
  fmt : Fmt
  /-- its rounding errors, relative to `float` -/
  om : ℚ
  /-- the format of expressions of the edge length and integers -/
  gfmt : Fmt
  /-- its rounding errors, relative to `float` -/
  ga : ℚ
  fine : Fine fmt om
  gfine : Fine gfmt ga
  om_ga : om ≤ ga
  /-- a stored value -/
  emb : Fl fmt → F
  /-- the rounded value -/
  val : F → Fl fmt
  /-- a value that may be used when this is an operand of an addition -/
  Rd : F → ℚ → Prop
  /-- of the type of the coordinates -/
  Full : F → Prop
  /-- of the type of the coordinates or an integer -/
  Ns : F → Prop
  /-- a stored value or constant -/
  Lf : F → Prop
  /-- not a product -/
  Sm : F → Prop
  full_ns : ∀ {y}, Full y → Ns y
  full_emb : ∀ x, Full (emb x)
  ns_ofInt : ∀ n, Ns (FP.ofInt n)
  val_emb : ∀ x, val (emb x) = x
  rd_emb : ∀ {x v}, Rd (emb x) v → x = .fin v
  rd_val : ∀ {y v}, val y = .fin v → Rd y v
  add_full : ∀ {a b}, Okay Full Ns a b → Full (FP.add a b)
  add_val : ∀ {a b x y}, Okay Full Ns a b → val a = .fin x → val b = .fin y →
    ∃ r s, Rd a r ∧ Rd b s ∧ val (FP.add a b) = Fl.round fmt (r + s)
  add_plain : ∀ {a b v}, Rd (FP.add a b) v → val (FP.add a b) = .fin v
  sub_full : ∀ {a b}, Okay Full Ns a b → Full (FP.sub a b)
  sub_val : ∀ {a b x y}, Okay Full Ns a b → val a = .fin x → val b = .fin y →
    ∃ r s, Rd a r ∧ Rd b s ∧ val (FP.sub a b) = Fl.round fmt (r - s)
  sub_plain : ∀ {a b v}, Rd (FP.sub a b) v → val (FP.sub a b) = .fin v
  neg_full : ∀ {a}, Ns a → Full (FP.neg a)
  neg_val : ∀ {a}, Ns a → val (FP.neg a) = Fl.neg (val a)
  neg_rd : ∀ {a v}, Ns a → Rd (FP.neg a) v → Rd a (-v)
  mul_full : ∀ {a b}, Okay Full Ns a b → Full (FP.mul a b)
  mul_val : ∀ {a b}, Okay Full Ns a b → val (FP.mul a b) = Fl.mul (val a) (val b)
  mul_rd : ∀ {a b x y v}, val a = .fin x → val b = .fin y → Rd (FP.mul a b) v →
    v = x * y ∨ val (FP.mul a b) = .fin v
  div_full : ∀ {a b}, Okay Full Ns a b → Full (FP.div a b)
  sm_add : ∀ a b, Sm (FP.add a b)
  sel_eq : ∀ {c a b}, Full a → Full b → Sm a → Sm b →
    val (FP.add (FP.mul (FP.ofBool !c) a) (FP.mul (FP.ofBool c) b)) = val (if c then b else a) →
    FP.add (FP.mul (FP.ofBool !c) a) (FP.mul (FP.ofBool c) b) = if c then b else a
  lf_ofInt : ∀ n, Lf (FP.ofInt n)
  lf_recip : ∀ n, Lf (FP.recip n)
  div_val : ∀ {a b}, Okay Full Ns a b → Lf b → val (FP.div a b) = Fl.div (val a) (val b)
  div_near : ∀ {a b x y}, Okay Full Ns a b → val a = .fin x → val b = .fin y → y ≠ 0 → 1 / 2 ^ 80 ≤ |x / y| →
    |x / y| ≤ 2 ^ 80 → ∃ q, val (FP.div a b) = Fl.round fmt q ∧ |q - x / y| ≤ 5 * (om / 2 ^ 24) * |x / y|
  div_plain : ∀ {a b v}, Rd (FP.div a b) v → val (FP.div a b) = .fin v
  fmod_full : ∀ {a b}, Full a → Full (FP.fmod a b)
  fmod_val : ∀ {a b}, Full a → val (FP.fmod a b) = Fl.fmod (val a) (val b)
  fmod_plain : ∀ {a b v}, Rd (FP.fmod a b) v → val (FP.fmod a b) = .fin v
  lt_eq : ∀ a b : F, FP.lt a b = Fl.lt (val a) (val b)
  le_eq : ∀ a b : F, FP.le a b = (Fl.lt (val a) (val b) || Fl.beq (val a) (val b))
  eq_eq : ∀ a b : F, FP.eq a b = Fl.beq (val a) (val b)
  ofInt_val : ∀ {n : Int}, |n| ≤ 2 ^ 24 → val (FP.ofInt n) = .fin n
  ofInt_plain : ∀ {n v}, Rd (FP.ofInt n) v → val (FP.ofInt n) = .fin v
  recip_val : ∀ {gr : Int}, 1 ≤ gr → gr ≤ 2 ^ 24 → val (FP.recip gr) = .fin (gl32 gr)
  recip_plain : ∀ {gr v}, Rd (FP.recip gr) v → val (FP.recip gr) = .fin v
  recip_mul : ∀ {gr r : Int}, 1 ≤ gr → gr ≤ 2 ^ 24 → 0 ≤ r → r ≤ gr →
    val (FP.mul (FP.recip gr) (FP.ofInt r)) = .fin (rnd gfmt (gl32 gr * r))
  recip_half : ∀ {gr : Int}, 1 ≤ gr → gr ≤ 2 ^ 24 →
    val (FP.div (FP.recip gr) (FP.ofInt 2)) = .fin (rnd gfmt (gl32 gr / 2))
  floorInt_eq : ∀ a : F, FP.floorInt a = Fl.floorInt (val a)
  toD_eq : ∀ a : F, FP.toD a = Fl.toTop (val a)
  dlt_eq : (FP.dlt F : WithTop ℚ → WithTop ℚ → Bool) = topLt (K := ℚ)
  dinf_eq : (FP.dinf F : WithTop ℚ) = ⊤

/-! ### one format -/

namespace SglFl

variable {f : Fmt}

theorem sub_val {x y : ℚ} : Fl.sub (.fin x) (.fin y) = Fl.round f (x - y) := by
  show Fl.round f (x + -y) = _
  rw [sub_eq_add_neg]

theorem neg_rd {a : Fl f} {v : ℚ} (h : Fl.neg a = .fin v) : a = .fin (-v) := by
  cases a with
  | fin x => injection h with h; rw [← h, neg_neg]
  | _ => cases h

theorem ofInt_val (w : Wide f) {n : Int} (h : |n| ≤ 2 ^ 24) : (FP.ofInt n : Fl f) = .fin (n : ℚ) := by
  show Fl.round f n = _
  have h' : |(n : ℚ)| ≤ 2 ^ 24 := by exact_mod_cast h
  rw [w.small (h'.trans (by norm_num)), w.int h]

theorem recip_val {gr : Int} (h1 : 1 ≤ gr) (h2 : gr ≤ 2 ^ 24) : (FP.recip gr : Fl f) = .fin (gl32 gr) := by
  have h := recip32 h1 h2
  change (match Fl.div (.fin 1) (Fl.round b32 gr) with
    | .fin a => .fin a | .pinf => .pinf | .ninf => .ninf | .nan => .nan : Fl b32) = _ at h
  show (match Fl.div (.fin 1) (Fl.round b32 gr) with
    | .fin a => .fin a | .pinf => .pinf | .ninf => .ninf | .nan => .nan : Fl f) = _
  cases hd : Fl.div (.fin 1) (Fl.round b32 (gr : ℚ)) with
  | fin a => rw [hd] at h; injection h with h; rw [h]
  | _ => rw [hd] at h; cases h

theorem gl_small {gr r : Int} (h1 : 1 ≤ gr) (h2 : gr ≤ 2 ^ 24) (h0 : 0 ≤ r) (hr : r ≤ gr) :
    0 ≤ gl32 gr * r ∧ gl32 gr * r ≤ 2 := by
  have hq : (r : ℚ) ≤ gr := by exact_mod_cast hr
  have h0 : (0 : ℚ) ≤ r := by exact_mod_cast h0
  refine ⟨mul_nonneg (gl32_pos h1 h2).le h0, (gl32_le h1 h2 hq).trans (by norm_num)⟩

theorem recip_mul (w : Wide f) {gr r : Int} (h1 : 1 ≤ gr) (h2 : gr ≤ 2 ^ 24) (h0 : 0 ≤ r) (hr : r ≤ gr) :
    (FP.mul (FP.recip gr) (FP.ofInt r) : Fl f) = .fin (rnd f (gl32 gr * r)) := by
  rw [recip_val h1 h2, ofInt_val w (by rw [abs_of_nonneg h0]; omega)]
  obtain ⟨a, b⟩ := gl_small h1 h2 h0 hr
  exact w.small (by rw [abs_of_nonneg a]; exact b.trans (by norm_num))

theorem recip_half (w : Wide f) {gr : Int} (h1 : 1 ≤ gr) (h2 : gr ≤ 2 ^ 24) :
    (FP.div (FP.recip gr) (FP.ofInt 2) : Fl f) = .fin (rnd f (gl32 gr / 2)) := by
  rw [recip_val h1 h2, ofInt_val w (by norm_num)]
  show Fl.div _ _ = _
  obtain ⟨a, b⟩ := gl_small h1 h2 (r := 1) (by norm_num) h1
  rw [Int.cast_one, mul_one] at a b
  rw [Fl.div_fin, if_neg (by norm_num)]
  push_cast
  exact w.small (by rw [abs_of_nonneg (by linarith)]; norm_num; linarith)

end SglFl

namespace SglFl

/-- a correctly rounded quotient -/
theorem div_near {f : Fmt} {ω : ℚ} (w : Fine f ω) {a b : Fl f} {x y : ℚ} (ha : a = .fin x) (hb : b = .fin y) (hy : y ≠ 0)
    (_ : 1 / 2 ^ 80 ≤ |x / y|) (_ : |x / y| ≤ 2 ^ 80) :
    ∃ q, Fl.div a b = Fl.round f q ∧ |q - x / y| ≤ 5 * (ω / 2 ^ 24) * |x / y| := by
  refine ⟨x / y, by rw [ha, hb, Fl.div_fin, if_neg hy], ?_⟩
  rw [sub_self, abs_zero]
  have := w.pos
  positivity

end SglFl

/-- every operation is one of the format -/
@[reducible] def Sgl.ofFine {f : Fmt} {ω : ℚ} (w : Fine f ω) : Sgl (Fl f) where
  fmt := f
  om := ω
  gfmt := f
  ga := ω
  fine := w
  gfine := w
  om_ga := le_refl _
  emb := id
  val := id
  Rd y v := y = .fin v
  Full _ := True
  Ns _ := True
  Lf _ := True
  Sm _ := True
  full_ns h := h
  full_emb _ := trivial
  ns_ofInt _ := trivial
  val_emb _ := rfl
  rd_emb h := h
  rd_val h := h
  add_full _ := trivial
  add_val := by rintro _ _ x y - rfl rfl; exact ⟨x, y, rfl, rfl, rfl⟩
  add_plain h := h
  sub_full _ := trivial
  sub_val := by rintro _ _ x y - rfl rfl; exact ⟨x, y, rfl, rfl, SglFl.sub_val⟩
  sub_plain h := h
  neg_full _ := trivial
  neg_val _ := rfl
  neg_rd _ h := SglFl.neg_rd h
  mul_full _ := trivial
  mul_val _ := rfl
  mul_rd := by rintro a b x y v rfl rfl h; exact Or.inr h
  div_full _ := trivial
  sm_add _ _ := trivial
  sel_eq _ _ _ _ h := h
  lf_ofInt _ := trivial
  lf_recip _ := trivial
  div_val _ _ := rfl
  div_near _ := SglFl.div_near w
  div_plain h := h
  fmod_full _ := trivial
  fmod_val _ := rfl
  fmod_plain h := h
  lt_eq _ _ := rfl
  le_eq _ _ := rfl
  eq_eq _ _ := rfl
  ofInt_val := SglFl.ofInt_val w.toWide
  ofInt_plain h := h
  recip_val := SglFl.recip_val
  recip_plain h := h
  recip_mul := SglFl.recip_mul w.toWide
  recip_half := SglFl.recip_half w.toWide
  floorInt_eq _ := rfl
  toD_eq _ := rfl
  dlt_eq := rfl
  dinf_eq := rfl

instance : Sgl F32 := Sgl.ofFine fine32

instance : Sgl F64 := Sgl.ofFine fine64

/-- `float`, denormal results flushed -/
instance : Sgl (Fl b32z) := Sgl.ofFine fine32z

/-! ### fused multiply-add -/

namespace SglFm

variable {f : Fmt} {ch : Choice f}

/-- the rounded value or the exact product -/
def Rd (y : Fm ch) (v : ℚ) : Prop := y.v = .fin v ∨ y.ex = some v

theorem sum_val {c : Fuse} {a b : Fl f} {qa qb : Option ℚ} {x y : ℚ} (ha : a = .fin x) (hb : b = .fin y) :
    ∃ r s, (r = x ∨ qa = some r) ∧ (s = y ∨ qb = some s) ∧ Fm.sum c a b qa qb = Fl.round f (r + s) := by
  subst ha hb
  cases c with
  | no => exact ⟨x, y, Or.inl rfl, Or.inl rfl, by cases qa <;> cases qb <;> rfl⟩
  | left =>
    cases qa with
    | none => exact ⟨x, y, Or.inl rfl, Or.inl rfl, by cases qb <;> rfl⟩
    | some q => exact ⟨q, y, Or.inr rfl, Or.inl rfl, by cases qb <;> rfl⟩
  | right =>
    cases qb with
    | none => exact ⟨x, y, Or.inl rfl, Or.inl rfl, by cases qa <;> rfl⟩
    | some q =>
      refine ⟨x, q, Or.inl rfl, Or.inr rfl, ?_⟩
      have : Fm.sum .right (.fin x : Fl f) (.fin y) qa (some q) = Fl.round f (q + x) := by cases qa <;> rfl
      rw [this, add_comm]

theorem rd_emb {x : Fl f} {v : ℚ} (h : Rd (Fm.lit x : Fm ch) v) : x = .fin v := by
  rcases h with h | h; exacts [h, by cases h]

theorem add_val {a b : Fm ch} {x y : ℚ} (ha : a.v = .fin x) (hb : b.v = .fin y) :
    ∃ r s, Rd a r ∧ Rd b s ∧ (FP.add a b).v = Fl.round f (r + s) := by
  obtain ⟨r, s, h1, h2, h3⟩ := sum_val (c := ch.fuse a.tree b.tree) (qa := a.ex) (qb := b.ex) ha hb
  refine ⟨r, s, ?_, ?_, h3⟩
  · rcases h1 with rfl | h1; exacts [Or.inl ha, Or.inr h1]
  · rcases h2 with rfl | h2; exacts [Or.inl hb, Or.inr h2]

theorem add_plain {a b : Fm ch} {v : ℚ} (h : Rd (FP.add a b) v) : (FP.add a b).v = .fin v := by
  rcases h with h | h; exacts [h, by cases h]

theorem sub_val {a b : Fm ch} {x y : ℚ} (ha : a.v = .fin x) (hb : b.v = .fin y) :
    ∃ r s, Rd a r ∧ Rd b s ∧ (FP.sub a b).v = Fl.round f (r - s) := by
  obtain ⟨r, s, h1, h2, h3⟩ := sum_val (c := ch.fuse a.tree b.tree) (qa := a.ex) (qb := b.ex.map (- ·)) (b := Fl.neg b.v)
    (y := -y) ha (by rw [hb]; rfl)
  refine ⟨r, -s, ?_, ?_, by rw [sub_neg_eq_add]; exact h3⟩
  · rcases h1 with rfl | h1; exacts [Or.inl ha, Or.inr h1]
  · rcases h2 with rfl | h2
    · rw [neg_neg]; exact Or.inl hb
    · rw [Option.map_eq_some_iff] at h2
      obtain ⟨q, h2, rfl⟩ := h2
      rw [neg_neg]; exact Or.inr h2

theorem sub_plain {a b : Fm ch} {v : ℚ} (h : Rd (FP.sub a b) v) : (FP.sub a b).v = .fin v := by
  rcases h with h | h; exacts [h, by cases h]

theorem neg_val (a : Fm ch) : (FP.neg a).v = Fl.neg a.v := rfl

theorem neg_rd {a : Fm ch} {v : ℚ} (h : Rd (FP.neg a) v) : Rd a (-v) := by
  rcases h with h | h
  · exact Or.inl (SglFl.neg_rd h)
  · right
    change a.ex.map (- ·) = _ at h
    rw [Option.map_eq_some_iff] at h
    obtain ⟨q, h, rfl⟩ := h
    rw [neg_neg]; exact h

theorem mul_val (a b : Fm ch) : (FP.mul a b).v = Fl.mul a.v b.v := rfl

theorem mul_rd {a b : Fm ch} {x y v : ℚ} (ha : a.v = .fin x) (hb : b.v = .fin y) (h : Rd (FP.mul a b) v) :
    v = x * y ∨ (FP.mul a b).v = .fin v := by
  rcases h with h | h
  · exact Or.inr h
  · left
    change (match a.v, b.v with | .fin x, .fin y => some (x * y) | _, _ => none) = some v at h
    rw [ha, hb] at h
    exact (Option.some.inj h).symm

/-- not a product -/
def Sm (b : Fm ch) : Prop := b.ex = none

theorem sel_eq (w : Wide f) {c : Bool} {a b : Fm ch} (sa : Sm a) (sb : Sm b)
    (h : (FP.add (FP.mul (FP.ofBool !c) a) (FP.mul (FP.ofBool c) b)).v = (if c then b else a).v) :
    FP.add (FP.mul (FP.ofBool !c) a) (FP.mul (FP.ofBool c) b) = if c then b else a := by
  have z : (Fl.round f ((0 : Int) : ℚ)) = .fin 0 :=
    (SglFl.ofInt_val w (n := 0) (by norm_num)).trans (by norm_num)
  have o : (Fl.round f ((1 : Int) : ℚ)) = .fin 1 :=
    (SglFl.ofInt_val w (n := 1) (by norm_num)).trans (by norm_num)
  have tr : (FP.add (FP.mul (FP.ofBool !c) a) (FP.mul (FP.ofBool c) b)).tree = (if c then b else a).tree := by
    show Tree.plus (.mul (FP.ofBool (!c) : Fm ch).tree a.tree) (.mul (FP.ofBool c : Fm ch).tree b.tree) = _
    cases c
    · show Tree.plus (.mul (.leaf (Fl.round f ((1 : Int) : ℚ))) a.tree)
        (.mul (.leaf (Fl.round f ((0 : Int) : ℚ))) b.tree) = _
      rw [z, o]; simp [Tree.plus]
    · show Tree.plus (.mul (.leaf (Fl.round f ((0 : Int) : ℚ))) a.tree)
        (.mul (.leaf (Fl.round f ((1 : Int) : ℚ))) b.tree) = _
      rw [z, o]; simp [Tree.plus]
  have ex : (if c then b else a).ex = none := by cases c; exacts [sa, sb]
  have ex' : (FP.add (FP.mul (FP.ofBool !c) a) (FP.mul (FP.ofBool c) b) : Fm ch).ex = none := rfl
  generalize (FP.add (FP.mul (FP.ofBool !c) a) (FP.mul (FP.ofBool c) b) : Fm ch) = u at *
  generalize (if c then b else a) = t at *
  cases u; cases t
  simp_all

/-- a stored value -/
def Lf (b : Fm ch) : Prop := ∃ x, b.tree = .leaf x

theorem div_val {a b : Fm ch} (h : Lf b) : (FP.div a b).v = Fl.div a.v b.v := by
  obtain ⟨x, h⟩ := h
  show Fm.quotient a b = _
  unfold Fm.quotient
  rw [h]

theorem div_near {ω : ℚ} (w : Fine f ω) {a b : Fm ch} {x y : ℚ} (ha : a.v = .fin x) (hb : b.v = .fin y) (hy : y ≠ 0)
    (h1 : 1 / 2 ^ 80 ≤ |x / y|) (h2 : |x / y| ≤ 2 ^ 80) :
    ∃ q, (FP.div a b).v = Fl.round f q ∧ |q - x / y| ≤ 5 * (ω / 2 ^ 24) * |x / y| := by
  by_cases hl : Lf b
  · rw [div_val hl]
    exact SglFl.div_near w ha hb hy h1 h2
  · refine ⟨ch.quot a.tree b.tree (x / y), ?_, ?_⟩
    · show Fm.quotient a b = _
      unfold Fm.quotient
      rw [ha, hb]
      cases ht : b.tree with
      | leaf z => exact absurd ⟨z, ht⟩ hl
      | _ => simp only [if_neg hy]
    · refine (ch.near _ _ _ (by rw [pow2_eq]; norm_num at h1 ⊢; exact h1) (by rw [pow2_eq]; norm_num at h2 ⊢; exact h2)).trans ?_
      exact mul_le_mul_of_nonneg_right (mul_le_mul_of_nonneg_left w.u (by norm_num)) (abs_nonneg _)

theorem div_plain {a b : Fm ch} {v : ℚ} (h : Rd (FP.div a b) v) : (FP.div a b).v = .fin v := by
  rcases h with h | h; exacts [h, by cases h]

theorem fmod_val (a b : Fm ch) : (FP.fmod a b).v = Fl.fmod a.v b.v := rfl

theorem fmod_plain {a b : Fm ch} {v : ℚ} (h : Rd (FP.fmod a b) v) : (FP.fmod a b).v = .fin v := by
  rcases h with h | h; exacts [h, by cases h]

theorem lt_eq (a b : Fm ch) : FP.lt a b = Fl.lt a.v b.v := rfl

theorem le_eq (a b : Fm ch) : FP.le a b = (Fl.lt a.v b.v || Fl.beq a.v b.v) := rfl

theorem eq_eq (a b : Fm ch) : FP.eq a b = Fl.beq a.v b.v := rfl

theorem ofInt_eq (n : Int) : (FP.ofInt n : Fm ch) = .lit (FP.ofInt n) := rfl

theorem ofInt_val (w : Wide f) {n : Int} (h : |n| ≤ 2 ^ 24) : (FP.ofInt n : Fm ch).v = .fin (n : ℚ) := by
  rw [ofInt_eq]; exact SglFl.ofInt_val w h

theorem ofInt_plain {n : Int} {v : ℚ} (h : Rd (FP.ofInt n : Fm ch) v) : (FP.ofInt n : Fm ch).v = .fin v := by
  rw [ofInt_eq] at h ⊢; exact rd_emb h

theorem recip_eq (n : Int) : (FP.recip n : Fm ch) = .lit (FP.recip n) := rfl

theorem recip_val {gr : Int} (h1 : 1 ≤ gr) (h2 : gr ≤ 2 ^ 24) : (FP.recip gr : Fm ch).v = .fin (gl32 gr) := by
  rw [recip_eq]; exact SglFl.recip_val h1 h2

theorem recip_plain {n : Int} {v : ℚ} (h : Rd (FP.recip n : Fm ch) v) : (FP.recip n : Fm ch).v = .fin v := by
  rw [recip_eq] at h ⊢; exact rd_emb h

theorem recip_mul (w : Wide f) {gr r : Int} (h1 : 1 ≤ gr) (h2 : gr ≤ 2 ^ 24) (h0 : 0 ≤ r) (hr : r ≤ gr) :
    (FP.mul (FP.recip gr) (FP.ofInt r) : Fm ch).v = .fin (rnd f (gl32 gr * r)) := by
  rw [mul_val, recip_eq, ofInt_eq]; exact SglFl.recip_mul w h1 h2 h0 hr

theorem recip_half (w : Wide f) {gr : Int} (h1 : 1 ≤ gr) (h2 : gr ≤ 2 ^ 24) :
    (FP.div (FP.recip gr) (FP.ofInt 2) : Fm ch).v = .fin (rnd f (gl32 gr / 2)) := by
  rw [div_val ⟨_, rfl⟩, recip_eq, ofInt_eq]; exact SglFl.recip_half w h1 h2

theorem floorInt_eq (a : Fm ch) : FP.floorInt a = Fl.floorInt a.v := rfl

theorem toD_eq (a : Fm ch) : FP.toD a = Fl.toTop a.v := rfl

theorem dlt_eq : (FP.dlt (Fm ch) : WithTop ℚ → WithTop ℚ → Bool) = topLt (K := ℚ) := rfl

theorem dinf_eq : (FP.dinf (Fm ch) : WithTop ℚ) = ⊤ := rfl

end SglFm

@[reducible] def Sgl.ofFused {f : Fmt} {ω : ℚ} (w : Fine f ω) (ch : Choice f) : Sgl (Fm ch) where
  fmt := f
  om := ω
  gfmt := f
  ga := ω
  fine := w
  gfine := w
  om_ga := le_refl _
  emb := .lit
  val y := y.v
  Rd := SglFm.Rd
  Full _ := True
  Ns _ := True
  Lf := SglFm.Lf
  Sm := SglFm.Sm
  full_ns h := h
  full_emb _ := trivial
  ns_ofInt _ := trivial
  val_emb _ := rfl
  rd_emb := SglFm.rd_emb
  rd_val h := Or.inl h
  add_full _ := trivial
  add_val _ := SglFm.add_val
  add_plain := SglFm.add_plain
  sub_full _ := trivial
  sub_val _ := SglFm.sub_val
  sub_plain := SglFm.sub_plain
  neg_full _ := trivial
  neg_val _ := SglFm.neg_val _
  neg_rd _ := SglFm.neg_rd
  mul_full _ := trivial
  mul_val _ := SglFm.mul_val _ _
  mul_rd := SglFm.mul_rd
  div_full _ := trivial
  sm_add _ _ := rfl
  sel_eq _ _ := SglFm.sel_eq w.toWide
  lf_ofInt _ := ⟨_, rfl⟩
  lf_recip _ := ⟨_, rfl⟩
  div_val _ := SglFm.div_val
  div_near _ := SglFm.div_near w
  div_plain := SglFm.div_plain
  fmod_full _ := trivial
  fmod_val _ := SglFm.fmod_val _ _
  fmod_plain := SglFm.fmod_plain
  lt_eq := SglFm.lt_eq
  le_eq := SglFm.le_eq
  eq_eq := SglFm.eq_eq
  ofInt_val := SglFm.ofInt_val w.toWide
  ofInt_plain := SglFm.ofInt_plain
  recip_val := SglFm.recip_val
  recip_plain := SglFm.recip_plain
  recip_mul := SglFm.recip_mul w.toWide
  recip_half := SglFm.recip_half w.toWide
  floorInt_eq := SglFm.floorInt_eq
  toD_eq := SglFm.toD_eq
  dlt_eq := SglFm.dlt_eq
  dinf_eq := SglFm.dinf_eq

instance (ch : Choice b32) : Sgl (Fm ch) := Sgl.ofFused fine32 ch

instance (ch : Choice b64) : Sgl (Fm ch) := Sgl.ofFused fine64 ch

instance (ch : Choice b32z) : Sgl (Fm ch) := Sgl.ofFused fine32z ch

instance (ch : Choice b64z) : Sgl (Fm ch) := Sgl.ofFused fine64z ch

/-! ### `double` with `float` beside it -/

namespace SglDbl

/-- a `double` -/
def Full (y : Dbl) : Prop := ∃ x, y = .dbl x

/-- a `double` or an integer -/
def Ns (y : Dbl) : Prop := ∀ x, y ≠ .flt x

theorem full_ns {y : Dbl} (h : Full y) : Ns y := by
  rintro x rfl
  obtain ⟨z, h⟩ := h
  cases h

theorem bin_dbl {f : F32 → F32 → F32} {g : F64 → F64 → F64} {a b : Dbl} (h : Okay Full Ns a b) :
    Dbl.bin f g a b = .dbl (g a.v b.v) := by
  rcases h with ⟨x, rfl⟩ | ⟨x, rfl⟩ | ⟨h1, h2⟩
  · cases b <;> rfl
  · cases a <;> rfl
  · cases a with
    | flt x => exact absurd rfl (h1 x)
    | int n => cases b with
      | flt x => exact absurd rfl (h2 x)
      | _ => rfl
    | dbl x => cases b <;> rfl

theorem neg_dbl {a : Dbl} (h : Ns a) : Dbl.neg a = .dbl (Fl.neg a.v) := by
  cases a with
  | flt x => exact absurd rfl (h x)
  | _ => rfl

theorem widen_fin {x : F32} {a : ℚ} (h : x = .fin a) : Dbl.widen x = .fin a := by rw [h]; rfl

theorem add_dbl {a b : Dbl} (h : Okay Full Ns a b) : FP.add a b = .dbl (Fl.add a.v b.v) := bin_dbl h
theorem sub_dbl {a b : Dbl} (h : Okay Full Ns a b) : FP.sub a b = .dbl (Fl.sub a.v b.v) := bin_dbl h
theorem mul_dbl {a b : Dbl} (h : Okay Full Ns a b) : FP.mul a b = .dbl (Fl.mul a.v b.v) := bin_dbl h
theorem div_dbl {a b : Dbl} (h : Okay Full Ns a b) : FP.div a b = .dbl (Fl.div a.v b.v) := bin_dbl h
theorem fmod_dbl {a b : Dbl} (h : Okay Full Ns a b) : FP.fmod a b = .dbl (Fl.fmod a.v b.v) := bin_dbl h

theorem add_val {a b : Dbl} {x y : ℚ} (h : Okay Full Ns a b) (ha : a.v = .fin x) (hb : b.v = .fin y) :
    ∃ r s, a.v = .fin r ∧ b.v = .fin s ∧ (FP.add a b).v = Fl.round b64 (r + s) :=
  ⟨x, y, ha, hb, by rw [add_dbl h, ha, hb]; rfl⟩

theorem sub_val {a b : Dbl} {x y : ℚ} (h : Okay Full Ns a b) (ha : a.v = .fin x) (hb : b.v = .fin y) :
    ∃ r s, a.v = .fin r ∧ b.v = .fin s ∧ (FP.sub a b).v = Fl.round b64 (r - s) :=
  ⟨x, y, ha, hb, by rw [sub_dbl h, ha, hb]; exact SglFl.sub_val⟩

theorem neg_val {a : Dbl} (h : Ns a) : (FP.neg a).v = Fl.neg a.v := by
  rw [show FP.neg a = Dbl.neg a from rfl, neg_dbl h]; rfl

theorem neg_rd {a : Dbl} {v : ℚ} (h : Ns a) (hv : (FP.neg a).v = .fin v) : a.v = .fin (-v) := by
  rw [neg_val h] at hv; exact SglFl.neg_rd hv

theorem sel_eq {c : Bool} {a b : Dbl} (fa : Full a) (fb : Full b) (_ : True) (_ : True)
    (h : (FP.add (FP.mul (FP.ofBool !c) a) (FP.mul (FP.ofBool c) b)).v = (if c then b else a).v) :
    FP.add (FP.mul (FP.ofBool !c) a) (FP.mul (FP.ofBool c) b) = if c then b else a := by
  have e : FP.add (FP.mul (FP.ofBool !c) a) (FP.mul (FP.ofBool c) b) = .dbl (if c then b else a).v := by
    rw [add_dbl (Or.inl ⟨_, mul_dbl (Or.inr (Or.inl fa))⟩)] at h ⊢
    exact congrArg Dbl.dbl h
  rw [e]
  obtain ⟨x, rfl⟩ := fa
  obtain ⟨y, rfl⟩ := fb
  cases c <;> rfl

theorem lt_eq (a b : Dbl) : FP.lt a b = Fl.lt a.v b.v := rfl

theorem le_eq (a b : Dbl) : FP.le a b = (Fl.lt a.v b.v || Fl.beq a.v b.v) := rfl

theorem eq_eq (a b : Dbl) : FP.eq a b = Fl.beq a.v b.v := rfl

theorem ns_ofInt (n : Int) : Ns (FP.ofInt n) := by rintro x h; cases h

theorem ofInt_val {n : Int} (h : |n| ≤ 2 ^ 24) : (FP.ofInt n : Dbl).v = .fin (n : ℚ) := by
  show Fl.round b64 n = _
  exact SglFl.ofInt_val (f := b64) wide64 h

theorem recip_eq {gr : Int} (h1 : 1 ≤ gr) (h2 : gr ≤ 2 ^ 24) : (FP.recip gr : Dbl) = .flt (.fin (gl32 gr)) := by
  have h := recip32 h1 h2
  change (match Fl.div (.fin 1) (Fl.round b32 gr) with
    | .fin a => .fin a | .pinf => .pinf | .ninf => .ninf | .nan => .nan : Fl b32) = _ at h
  show Dbl.flt (Fl.div (.fin 1) (Fl.round b32 gr)) = _
  cases hd : Fl.div (.fin 1) (Fl.round b32 (gr : ℚ)) with
  | fin a => rw [hd] at h; injection h with h; rw [h]
  | _ => rw [hd] at h; cases h

theorem recip_val {gr : Int} (h1 : 1 ≤ gr) (h2 : gr ≤ 2 ^ 24) : (FP.recip gr : Dbl).v = .fin (gl32 gr) := by
  rw [recip_eq h1 h2]; rfl

theorem recip_mul {gr r : Int} (h1 : 1 ≤ gr) (h2 : gr ≤ 2 ^ 24) (h0 : 0 ≤ r) (hr : r ≤ gr) :
    (FP.mul (FP.recip gr) (FP.ofInt r) : Dbl).v = .fin (rnd b32 (gl32 gr * r)) := by
  have h := SglFl.recip_mul wide32 h1 h2 h0 hr
  rw [SglFl.recip_val h1 h2] at h
  rw [recip_eq h1 h2]
  exact widen_fin h

theorem recip_half {gr : Int} (h1 : 1 ≤ gr) (h2 : gr ≤ 2 ^ 24) :
    (FP.div (FP.recip gr) (FP.ofInt 2) : Dbl).v = .fin (rnd b32 (gl32 gr / 2)) := by
  have h := SglFl.recip_half wide32 h1 h2
  rw [SglFl.recip_val h1 h2] at h
  rw [recip_eq h1 h2]
  exact widen_fin h

theorem floorInt_eq (a : Dbl) : FP.floorInt a = Fl.floorInt a.v := rfl

theorem toD_eq (a : Dbl) : FP.toD a = Fl.toTop a.v := rfl

theorem dlt_eq : (FP.dlt Dbl : WithTop ℚ → WithTop ℚ → Bool) = topLt (K := ℚ) := rfl

theorem dinf_eq : (FP.dinf Dbl : WithTop ℚ) = ⊤ := rfl

end SglDbl

instance : Sgl Dbl where
  fmt := b64
  om := 1 / 2 ^ 29
  gfmt := b32
  ga := 1
  fine := fine64
  gfine := fine32
  om_ga := by norm_num
  emb := .dbl
  val := Dbl.v
  Rd y v := y.v = .fin v
  Full := SglDbl.Full
  Ns := SglDbl.Ns
  Lf _ := True
  Sm _ := True
  full_ns := SglDbl.full_ns
  full_emb x := ⟨x, rfl⟩
  ns_ofInt := SglDbl.ns_ofInt
  val_emb _ := rfl
  rd_emb h := h
  rd_val h := h
  add_full h := ⟨_, SglDbl.add_dbl h⟩
  add_val := SglDbl.add_val
  add_plain h := h
  sub_full h := ⟨_, SglDbl.sub_dbl h⟩
  sub_val := SglDbl.sub_val
  sub_plain h := h
  neg_full h := ⟨_, SglDbl.neg_dbl h⟩
  neg_val := SglDbl.neg_val
  neg_rd := SglDbl.neg_rd
  mul_full h := ⟨_, SglDbl.mul_dbl h⟩
  mul_val h := by rw [SglDbl.mul_dbl h]; rfl
  mul_rd _ _ h := Or.inr h
  div_full h := ⟨_, SglDbl.div_dbl h⟩
  sm_add _ _ := trivial
  sel_eq := SglDbl.sel_eq
  lf_ofInt _ := trivial
  lf_recip _ := trivial
  div_val h _ := by rw [SglDbl.div_dbl h]; rfl
  div_near h := by rw [SglDbl.div_dbl h]; exact SglFl.div_near fine64
  div_plain h := h
  fmod_full h := ⟨_, SglDbl.fmod_dbl (Or.inl h)⟩
  fmod_val h := by rw [SglDbl.fmod_dbl (Or.inl h)]; rfl
  fmod_plain h := h
  lt_eq := SglDbl.lt_eq
  le_eq := SglDbl.le_eq
  eq_eq := SglDbl.eq_eq
  ofInt_val := SglDbl.ofInt_val
  ofInt_plain h := h
  recip_val := SglDbl.recip_val
  recip_plain h := h
  recip_mul := SglDbl.recip_mul
  recip_half := SglDbl.recip_half
  floorInt_eq := SglDbl.floorInt_eq
  toD_eq := SglDbl.toD_eq
  dlt_eq := SglDbl.dlt_eq
  dinf_eq := SglDbl.dinf_eq

end Votess
