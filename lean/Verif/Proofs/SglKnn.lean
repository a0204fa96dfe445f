import Verif.Proofs.Sgl
/-! The neighbour search in the arithmetic of `Sgl`. -/
namespace Votess.Sgl

variable {F : Type} [FP F (WithTop ℚ)] [Sgl F]

/-- nothing is hidden: the value used in an addition is the rounded one -/
def Plain (y : F) : Prop := ∀ v, Rd y v → val y = .fin v

theorem plain_emb (x : Fl (fmt F)) : Plain (emb x : F) := fun v h => by rw [val_emb]; exact rd_emb h
theorem plain_add (a b : F) : Plain (FP.add a b) := fun _ h => add_plain h
theorem plain_sub (a b : F) : Plain (FP.sub a b) := fun _ h => sub_plain h
theorem plain_div (a b : F) : Plain (FP.div a b) := fun _ h => div_plain h
theorem plain_fmod (a b : F) : Plain (FP.fmod a b) := fun _ h => fmod_plain h
theorem plain_ofInt (n : Int) : Plain (FP.ofInt n : F) := fun _ h => ofInt_plain h
theorem plain_recip (n : Int) : Plain (FP.recip n : F) := fun _ h => recip_plain h

theorem Plain.eq {y : F} (h : Plain y) {v w : ℚ} (hv : val y = .fin v) (hw : Rd y w) : w = v := by
  have := h w hw
  rw [hv] at this
  injection this with this
  exact this.symm

/-- an operation of the format of coordinates -/
def Ok (a b : F) : Prop := Okay (Full : F → Prop) Ns a b

theorem okL {a : F} (b : F) (h : Full a) : Ok a b := Or.inl h
theorem okR (a : F) {b : F} (h : Full b) : Ok a b := Or.inr (Or.inl h)
theorem okN {a b : F} (ha : Ns a) (hb : Ns b) : Ok a b := Or.inr (Or.inr ⟨ha, hb⟩)

theorem ns_ofBool (c : Bool) : Ns (FP.ofBool c : F) := by cases c <;> exact ns_ofInt _

theorem om_pos : 0 < om F := fine.pos
theorem om_le : om F ≤ 1 := fine.hi
theorem ga_pos : 0 < ga F := gfine.pos
theorem ga_le : ga F ≤ 1 := gfine.hi

theorem wide : Wide (fmt F) := fine.toWide

theorem small {x : ℚ} (h : |x| ≤ 2 ^ 100) : Fl.round (fmt F) x = .fin (rnd (fmt F) x) :=
  wide.small (h.trans (by norm_num))

theorem val_mul {a b : F} {x y : ℚ} (o : Ok a b) (ha : val a = .fin x) (hb : val b = .fin y) (h : |x * y| ≤ 2 ^ 100) :
    val (FP.mul a b) = .fin (rnd (fmt F) (x * y)) := by
  rw [mul_val o, ha, hb]; exact small h

/-- the readings of a product -/
theorem rd_mul {a b : F} {x y v : ℚ} (o : Ok a b) (ha : val a = .fin x) (hb : val b = .fin y) (h : |x * y| ≤ 2 ^ 100)
    (hv : Rd (FP.mul a b) v) : v = x * y ∨ v = rnd (fmt F) (x * y) := by
  rcases mul_rd ha hb hv with h' | h'
  · exact Or.inl h'
  · rw [val_mul o ha hb h] at h'
    injection h' with h'
    exact Or.inr h'.symm

theorem val_sub_plain {a b : F} {x y : ℚ} (o : Ok a b) (pa : Plain a) (pb : Plain b) (ha : val a = .fin x)
    (hb : val b = .fin y) (h : |x - y| ≤ 2 ^ 100) : val (FP.sub a b) = .fin (rnd (fmt F) (x - y)) := by
  obtain ⟨r, s, h1, h2, h3⟩ := sub_val o ha hb
  rw [h3, pa.eq ha h1, pb.eq hb h2]; exact small h

theorem val_div {a b : F} {x y : ℚ} (o : Ok a b) (hl : Lf b) (ha : val a = .fin x) (hb : val b = .fin y) (hy : y ≠ 0)
    (h : |x / y| ≤ 2 ^ 100) : val (FP.div a b) = .fin (rnd (fmt F) (x / y)) := by
  rw [div_val o hl, ha, hb, Fl.div_fin, if_neg hy]; exact small h

theorem round_rnd (x : ℚ) : Fl.round (fmt F) (rnd (fmt F) x) = Fl.round (fmt F) x := by
  unfold Fl.round
  rw [wide.idem]

theorem val_one : val (FP.ofInt 1 : F) = .fin 1 := by rw [ofInt_val (by norm_num)]; norm_num
theorem val_zero : val (FP.ofInt 0 : F) = .fin 0 := by rw [ofInt_val (by norm_num)]; norm_num

/-- one of two values chosen by factors 0 and 1 -/
theorem blend {a b : F} {x y : ℚ} (na : Ns a) (nb : Ns b) (ha : val a = .fin x) (hb : val b = .fin y) (hx : |x| ≤ 2 ^ 100)
    (hy : |y| ≤ 2 ^ 100) (c : Bool) :
    val (FP.add (FP.mul a (FP.ofBool c)) (FP.mul b (FP.ofBool (!c)))) = .fin (rnd (fmt F) (if c then x else y)) := by
  have one : val (FP.ofInt 1 : F) = .fin 1 := val_one
  have zero : val (FP.ofInt 0 : F) = .fin 0 := val_zero
  have z0 : rnd (fmt F) 0 = 0 := rnd_zero _
  have oa : ∀ n, Ok a (FP.ofInt n) := fun n => okN na (ns_ofInt n)
  have ob : ∀ n, Ok b (FP.ofInt n) := fun n => okN nb (ns_ofInt n)
  cases c with
  | true =>
    simp only [FP.ofBool, Bool.not_true, if_true, Bool.false_eq_true, if_false]
    have m1 := val_mul (oa _) ha one (by rw [mul_one]; exact hx)
    have m2 := val_mul (ob _) hb zero (by simp)
    obtain ⟨r, s, h1, h2, h3⟩ := add_val (okL _ (mul_full (oa _))) m1 m2
    have h1 := rd_mul (oa _) ha one (by rw [mul_one]; exact hx) h1
    have h2 := rd_mul (ob _) hb zero (by simp) h2
    rw [mul_one] at h1
    rw [mul_zero, z0, or_self] at h2
    rw [h3, h2, add_zero]
    rcases h1 with rfl | rfl
    · exact small hx
    · rw [round_rnd]
      exact small hx
  | false =>
    simp only [FP.ofBool, Bool.not_false, if_true, Bool.false_eq_true, if_false]
    have m1 := val_mul (oa _) ha zero (by simp)
    have m2 := val_mul (ob _) hb one (by rw [mul_one]; exact hy)
    obtain ⟨r, s, h1, h2, h3⟩ := add_val (okL _ (mul_full (oa _))) m1 m2
    have h1 := rd_mul (oa _) ha zero (by simp) h1
    have h2 := rd_mul (ob _) hb one (by rw [mul_one]; exact hy) h2
    rw [mul_one] at h2
    rw [mul_zero, z0, or_self] at h1
    rw [h3, h1, zero_add]
    rcases h2 with rfl | rfl
    · exact small hy
    · rw [round_rnd]
      exact small hy

/-- one of two values chosen by factors 0 and 1 on the left -/
theorem blend' {a b : F} {x y : ℚ} (na : Ns a) (nb : Ns b) (ha : val a = .fin x) (hb : val b = .fin y) (hx : |x| ≤ 2 ^ 100)
    (hy : |y| ≤ 2 ^ 100) (c : Bool) :
    val (FP.add (FP.mul (FP.ofBool c) a) (FP.mul (FP.ofBool (!c)) b)) = .fin (rnd (fmt F) (if c then x else y)) := by
  have one : val (FP.ofInt 1 : F) = .fin 1 := val_one
  have zero : val (FP.ofInt 0 : F) = .fin 0 := val_zero
  have z0 : rnd (fmt F) 0 = 0 := rnd_zero _
  have oa : ∀ n, Ok (FP.ofInt n) a := fun n => okN (ns_ofInt n) na
  have ob : ∀ n, Ok (FP.ofInt n) b := fun n => okN (ns_ofInt n) nb
  cases c with
  | true =>
    simp only [FP.ofBool, Bool.not_true, if_true, Bool.false_eq_true, if_false]
    have m1 := val_mul (oa _) one ha (by rw [one_mul]; exact hx)
    have m2 := val_mul (ob _) zero hb (by simp)
    obtain ⟨r, s, h1, h2, h3⟩ := add_val (okL _ (mul_full (oa _))) m1 m2
    have h1 := rd_mul (oa _) one ha (by rw [one_mul]; exact hx) h1
    have h2 := rd_mul (ob _) zero hb (by simp) h2
    rw [one_mul] at h1
    rw [zero_mul, z0, or_self] at h2
    rw [h3, h2, add_zero]
    rcases h1 with rfl | rfl
    · exact small hx
    · rw [round_rnd]
      exact small hx
  | false =>
    simp only [FP.ofBool, Bool.not_false, if_true, Bool.false_eq_true, if_false]
    have m1 := val_mul (oa _) zero ha (by simp)
    have m2 := val_mul (ob _) one hb (by rw [one_mul]; exact hy)
    obtain ⟨r, s, h1, h2, h3⟩ := add_val (okL _ (mul_full (oa _))) m1 m2
    have h1 := rd_mul (oa _) zero ha (by simp) h1
    have h2 := rd_mul (ob _) one hb (by rw [one_mul]; exact hy) h2
    rw [one_mul] at h2
    rw [zero_mul, z0, or_self] at h1
    rw [h3, h1, zero_add]
    rcases h2 with rfl | rfl
    · exact small hy
    · rw [round_rnd]
      exact small hy

/-- the values an addition may use are close to `x` -/
def Nr (e t : ℚ) (y : F) (x : ℚ) : Prop := Full y ∧ (∃ v, val y = .fin v) ∧ ∀ v, Rd y v → Near e t v x

theorem Nr.val {e t x : ℚ} {y : F} (h : Nr e t y x) : ∃ v, val y = .fin v ∧ Near e t v x := by
  obtain ⟨-, ⟨v, h1⟩, h2⟩ := h
  exact ⟨v, h1, h2 v (rd_val h1)⟩

theorem Nr.add {c t x t2 y : ℚ} {a b : F} (h : Nr (c * om F / 2 ^ 24) t a x) (h2 : Nr (c * om F / 2 ^ 24) t2 b y)
    (hx : 0 ≤ x) (hy : 0 ≤ y) (hxy : x + y ≤ 3) (hc : c ≤ 10) (hc0 : 0 ≤ c) (ht : 0 ≤ t) (ht2 : 0 ≤ t2)
    (ht3 : t + t2 ≤ 1) :
    Nr ((c + 1 + 1 / 100) * om F / 2 ^ 24) (2 * (t + t2) + om F / 2 ^ 126) (FP.add a b) (x + y) := by
  obtain ⟨fa, ⟨v, hv⟩, hr⟩ := h
  obtain ⟨-, ⟨w, hw⟩, hs⟩ := h2
  obtain ⟨r, s, g1, g2, g3⟩ := add_val (okL b fa) hv hw
  have n := (hr r g1).add (hs s g2)
  have hs : |r + s| ≤ 2 ^ 100 := by
    have n' := abs_le.mp n
    have k1 : c * om F ≤ 10 * 1 := mul_le_mul hc om_le om_pos.le (by norm_num)
    have k2 : c * om F * (x + y) ≤ 10 * 1 * 3 := mul_le_mul k1 hxy (by linarith) (by norm_num)
    have e : c * om F / 2 ^ 24 * (x + y) = c * om F * (x + y) / 2 ^ 24 := by ring
    rw [e] at n'
    generalize c * om F * (x + y) = A at *
    refine le_trans (b := 100) ?_ (by norm_num)
    rw [abs_le]
    constructor <;> norm_num at * <;> linarith [n'.1, n'.2]
  rw [small hs] at g3
  refine ⟨add_full (okL b fa), ⟨_, g3⟩, fun u hu => ?_⟩
  rw [(plain_add a b).eq g3 hu]
  exact fine.near_rnd n (by linarith) hc hc0 (by linarith)

theorem Nr.mono {e t e2 t2 x : ℚ} {y : F} (h : Nr e t y x) (hx : 0 ≤ x) (he : e ≤ e2) (ht : t ≤ t2) : Nr e2 t2 y x :=
  ⟨h.1, h.2.1, fun v hv => (h.2.2 v hv).mono hx he ht⟩

/-- the point with the given coordinates -/
def toS (p : Pt ℚ) : Pt F := ⟨emb (.fin p.x), emb (.fin p.y), emb (.fin p.z)⟩

theorem toS_F32 : (toS : Pt ℚ → Pt F32) = toF32 := rfl

theorem add_isFl {a b : F} {n x y : ℚ} (o : Ok a b) (ha : val a = .fin x) (hb : val b = .fin y)
    (h : val (FP.add a b) = .fin n) : rnd (fmt F) n = n := by
  obtain ⟨r, s, -, -, h3⟩ := add_val o ha hb
  rw [h3] at h
  unfold Fl.round at h
  simp only at h
  split at h
  · cases h
  · split at h
    · cases h
    · injection h with h; rw [← h]; exact wide.idem _

theorem getDistance_full (p q : Pt ℚ) : Full (getDistance (toS p : Pt F) (toS q)) := by
  have h : ∀ a b : Fl (fmt F), Full (square (FP.sub (emb a) (emb b)) : F) := fun a b =>
    mul_full (okL _ (sub_full (okL _ (full_emb _))))
  exact add_full (okR _ (h _ _))

theorem getDistance_float {p q : Pt ℚ} (hx : |p.x - q.x| ≤ 1) (hy : |p.y - q.y| ≤ 1)
    (hz : |p.z - q.z| ≤ 1) :
    ∃ D, val (getDistance (toS p : Pt F) (toS q)) = .fin D ∧
      Near (6 * om F / 2 ^ 24) (om F / 2 ^ 116) D (sqDist p q) ∧ rnd (fmt F) D = D := by
  have hω : 0 < om F := om_pos
  have hω1 : om F ≤ 1 := om_le
  have bx : (p.x - q.x) ^ 2 ≤ 1 := by rw [← sq_abs]; have := abs_nonneg (p.x - q.x); nlinarith
  have by' : (p.y - q.y) ^ 2 ≤ 1 := by rw [← sq_abs]; have := abs_nonneg (p.y - q.y); nlinarith
  have bz : (p.z - q.z) ^ 2 ≤ 1 := by rw [← sq_abs]; have := abs_nonneg (p.z - q.z); nlinarith
  have sq : ∀ a b : ℚ, |a - b| ≤ 1 → Nr ((3 + 1 / 10) * om F / 2 ^ 24) (om F / 2 ^ 122)
      (square (FP.sub (emb (.fin a)) (emb (.fin b)) : F)) ((a - b) ^ 2) := by
    intro a b hab
    have fv : Full (FP.sub (emb (.fin a)) (emb (.fin b)) : F) := sub_full (okL _ (full_emb _))
    have hv : val (FP.sub (emb (.fin a)) (emb (.fin b)) : F) = .fin (rnd (fmt F) (a - b)) :=
      val_sub_plain (okL _ (full_emb _)) (plain_emb _) (plain_emb _) (val_emb _) (val_emb _) (hab.trans (by norm_num))
    have r := (fine (F := F)).err_le hab
    have hs : |rnd (fmt F) (a - b)| ≤ 2 := by
      rw [abs_le] at r hab ⊢
      norm_num at *
      constructor <;> linarith [r.1, r.2, hab.1, hab.2]
    have hm : |rnd (fmt F) (a - b) * rnd (fmt F) (a - b)| ≤ 2 ^ 100 := by
      rw [abs_mul]
      have := mul_le_mul hs hs (abs_nonneg _) (by norm_num)
      exact this.trans (by norm_num)
    refine ⟨mul_full (okL _ fv), ⟨_, val_mul (okL _ fv) hv hv hm⟩, fun v h => ?_⟩
    rcases rd_mul (okL _ fv) hv hv hm h with rfl | rfl
    · exact (fine.near_square_exact hab).mono (sq_nonneg _) (by norm_num; linarith) (by norm_num; linarith)
    · exact fine.near_square hab
  have n2 := (sq _ _ hx).add (sq _ _ hy) (by positivity) (by positivity) (by linarith) (by norm_num) (by norm_num)
    (by positivity) (by positivity) (by norm_num; linarith)
  have n3 := n2.add ((sq _ _ hz).mono (sq_nonneg _) (e2 := (3 + 1 / 10 + 1 + 1 / 100) * om F / 2 ^ 24)
    (t2 := om F / 2 ^ 122) (by norm_num; linarith) (le_refl _)) (by positivity) (by positivity) (by linarith)
    (by norm_num) (by norm_num) (by positivity) (by positivity) (by norm_num; linarith)
  obtain ⟨D, h1, h2⟩ := n3.val
  obtain ⟨x, hx⟩ := n2.2.1
  obtain ⟨y, hy⟩ := (sq _ _ hz).2.1
  exact ⟨D, h1, h2.mono (by positivity) (by norm_num; linarith) (by norm_num; linarith), add_isFl (okL _ n2.1) hx hy h1⟩

theorem getDistance_near {p q : Pt ℚ} (hx : |p.x - q.x| ≤ 1) (hy : |p.y - q.y| ≤ 1)
    (hz : |p.z - q.z| ≤ 1) :
    ∃ D, val (getDistance (toS p : Pt F) (toS q)) = .fin D ∧
      Near (6 * om F / 2 ^ 24) (om F / 2 ^ 116) D (sqDist p q) := by
  obtain ⟨D, h1, h2, -⟩ := getDistance_float (F := F) hx hy hz
  exact ⟨D, h1, h2⟩

/-! ### cell walls -/

theorem wallDist_full (gr : Int) (x : Fl (fmt F)) : Full (wallDist (FP.recip gr) (emb x) : F) :=
  add_full (okL _ (mul_full (okL _ (fmod_full (full_emb _)))))

/-- distance to the nearer wall, as computed -/
theorem wallDist_val {gr : Int} (h1 : 1 ≤ gr) (h2 : gr ≤ 2 ^ 24) {x : ℚ} (hx : 0 ≤ x) :
    val (wallDist (FP.recip gr) (emb (.fin x)) : F)
      = .fin (rnd (fmt F) (if flush (fmt F) (x - ⌊x / gl32 gr⌋ * gl32 gr) ≤ rnd (gfmt F) (gl32 gr / 2)
        then flush (fmt F) (x - ⌊x / gl32 gr⌋ * gl32 gr)
        else rnd (fmt F) (gl32 gr - flush (fmt F) (x - ⌊x / gl32 gr⌋ * gl32 gr)))) := by
  have hg := gl32_pos h1 h2
  have hg1 : gl32 gr ≤ 1 + 1 / 2 ^ 24 := by
    have := gl32_le h1 h2 (r := 1) (by exact_mod_cast h1)
    simpa using this
  have ht0 : 0 ≤ x / gl32 gr := div_nonneg hx hg.le
  have n1 := Int.floor_le (x / gl32 gr)
  have n2 := Int.lt_floor_add_one (x / gl32 gr)
  rw [le_div_iff₀ hg] at n1
  rw [div_lt_iff₀ hg] at n2
  have htr : truncK (x / gl32 gr) = ⌊x / gl32 gr⌋ := by unfold truncK; rw [if_pos ht0]
  have fd : Full (FP.fmod (emb (.fin x)) (FP.recip gr) : F) := fmod_full (full_emb _)
  have vd : val (FP.fmod (emb (.fin x)) (FP.recip gr) : F) = .fin (flush (fmt F) (x - ⌊x / gl32 gr⌋ * gl32 gr)) := by
    rw [fmod_val (full_emb _), val_emb, recip_val h1 h2, ← htr]
    show (if gl32 gr = 0 then _ else _) = _
    rw [if_neg hg.ne']
  have vh := recip_half (F := F) h1 h2
  have d0 : 0 ≤ flush (fmt F) (x - ⌊x / gl32 gr⌋ * gl32 gr) := flush_nonneg _ (by linarith)
  have d1 : flush (fmt F) (x - ⌊x / gl32 gr⌋ * gl32 gr) < gl32 gr :=
    lt_of_le_of_lt (flush_le _ (by linarith)) (by linarith)
  generalize hd : flush (fmt F) (x - ⌊x / gl32 gr⌋ * gl32 gr) = d at *
  have sm : ∀ t : ℚ, 0 ≤ t → t ≤ 4 → |t| ≤ 2 ^ 100 := by
    intro t t0 t2; rw [abs_of_nonneg t0]; exact t2.trans (by norm_num)
  have s0 : 0 ≤ gl32 gr - d := by linarith
  have s2 : gl32 gr - d ≤ 2 := by norm_num at *; linarith
  have vs : val (FP.sub (FP.recip gr) (FP.fmod (emb (.fin x)) (FP.recip gr)) : F)
      = .fin (rnd (fmt F) (gl32 gr - d)) :=
    val_sub_plain (okR _ fd) (plain_recip _) (plain_fmod _ _) (recip_val h1 h2) vd (sm _ s0 (by linarith))
  have r := abs_le.mp ((wide (F := F)).err (gl32 gr - d))
  rw [abs_of_nonneg s0] at r
  have b := blend (full_ns fd) (full_ns (sub_full (okR _ fd))) vd vs (sm _ d0 (by norm_num at *; linarith))
    (sm _ (rnd_nonneg _ s0) (by norm_num at *; linarith [r.2])) (decide (d ≤ rnd (gfmt F) (gl32 gr / 2)))
  unfold wallDist
  simp only
  have e1 : FP.le (FP.fmod (emb (.fin x)) (FP.recip gr) : F) (FP.div (FP.recip gr) (FP.ofInt 2))
      = decide (d ≤ rnd (gfmt F) (gl32 gr / 2)) := by
    rw [le_eq, vd, vh]
    exact le32 _ _
  have e2 : FP.lt (FP.div (FP.recip gr) (FP.ofInt 2)) (FP.fmod (emb (.fin x)) (FP.recip gr) : F)
      = !decide (d ≤ rnd (gfmt F) (gl32 gr / 2)) := by
    rw [lt_eq, vd, vh]
    show decide (rnd (gfmt F) (gl32 gr / 2) < d) = _
    rw [← decide_not, decide_eq_decide, not_le]
  rw [e1, e2, b]
  simp only [decide_eq_true_eq]

/-- distance to the nearer wall -/
theorem wall {gr : Int} (h1 : 1 ≤ gr) (h2 : gr ≤ 2 ^ 24) {x : ℚ} (hx : 0 ≤ x) (hx1 : x ≤ 1) :
    ∃ w, val (wallDist (FP.recip gr) (emb (.fin x)) : F) = .fin w ∧ 0 ≤ w ∧ w ≤ 2 ∧
      w ≤ x - gl32 gr * gcoordF (fmt F) gr x + 7 * ga F / 2 ^ 24 ∧
      w ≤ gl32 gr * (gcoordF (fmt F) gr x + 1) - x + 7 * ga F / 2 ^ 24 := by
  refine ⟨_, wallDist_val h1 h2 hx, ?_⟩
  have hg := gl32_pos h1 h2
  have hg1 : gl32 gr ≤ 1 + 1 / 2 ^ 24 := by
    have := gl32_le h1 h2 (r := 1) (by exact_mod_cast h1)
    simpa using this
  have hω := om_pos (F := F)
  have hωκ := om_ga (F := F)
  have hκ1 := ga_le (F := F)
  obtain ⟨c1, c2⟩ := (fine (F := F)).gcoord_bounds h1 h2 hx hx1
  have n1 := Int.floor_le (x / gl32 gr)
  have n2 := Int.lt_floor_add_one (x / gl32 gr)
  rw [le_div_iff₀ hg] at n1
  rw [div_lt_iff₀ hg] at n2
  have hgle2 : gl32 gr ≤ 101 / 100 := by norm_num at *; linarith
  have r2 := abs_le.mp ((gfine (F := F)).err_le (x := gl32 gr / 2) (B := 51 / 100) (by
    rw [abs_of_pos (by positivity)]; linarith))
  have err : ∀ t : ℚ, 0 ≤ t → t ≤ 101 / 100 →
      rnd (fmt F) t ≤ t + (om F * (101 / 100) / 2 ^ 24 + om F / 2 ^ 126) := by
    intro t t0 t1
    have := (abs_le.mp ((fine (F := F)).err_le (x := t) (B := 101 / 100) (by rwa [abs_of_nonneg t0]))).2
    linarith
  have d0 : 0 ≤ flush (fmt F) (x - ⌊x / gl32 gr⌋ * gl32 gr) := flush_nonneg _ (by linarith)
  have d1 : flush (fmt F) (x - ⌊x / gl32 gr⌋ * gl32 gr) ≤ x - ⌊x / gl32 gr⌋ * gl32 gr := flush_le _ (by linarith)
  have d2 : x - ⌊x / gl32 gr⌋ * gl32 gr - om F / 2 ^ 126 ≤ flush (fmt F) (x - ⌊x / gl32 gr⌋ * gl32 gr) := by
    have h := (abs_le.mp (flush_err (fmt F) (x - ⌊x / gl32 gr⌋ * gl32 gr))).1
    have := (fine (F := F)).eta
    linarith
  generalize flush (fmt F) (x - ⌊x / gl32 gr⌋ * gl32 gr) = d at *
  generalize ⌊x / gl32 gr⌋ = n at *
  generalize gcoordF (fmt F) gr x = i at *
  generalize rnd (gfmt F) (gl32 gr / 2) = h at *
  generalize gl32 gr = g at *
  generalize om F = ω at *
  generalize ga F = κ at *
  have hdx0 : 0 ≤ d := d0
  have hdx1 : d < g := by linarith
  have bnd : ∀ w : ℚ, 0 ≤ w → w ≤ 2 → w ≤ x - n * g + 3 * κ / 2 ^ 24 → w ≤ g - (x - n * g) + 3 * κ / 2 ^ 24 →
      0 ≤ w ∧ w ≤ 2 ∧ w ≤ x - g * i + 7 * κ / 2 ^ 24 ∧ w ≤ g * (i + 1) - x + 7 * κ / 2 ^ 24 := by
    intro w w0 w2 wa wb
    refine ⟨w0, w2, ?_⟩
    have k : 2 * ω / 2 ^ 24 ≤ 2 * κ / 2 ^ 24 := by gcongr
    rcases lt_trichotomy i n with h | h | h
    · have hi : (i : ℚ) + 1 ≤ n := by exact_mod_cast h
      have : g * (i + 1) ≤ g * n := mul_le_mul_of_nonneg_left hi hg.le
      constructor
      · linarith
      · linarith
    · subst h
      constructor <;> linarith
    · have hi : (n : ℚ) + 1 ≤ i := by exact_mod_cast h
      have : g * (n + 1) ≤ g * i := mul_le_mul_of_nonneg_left hi hg.le
      constructor
      · linarith
      · linarith
  by_cases hc : d ≤ h
  · rw [if_pos hc]
    have r3 := err _ hdx0 (by linarith)
    refine bnd _ (rnd_nonneg _ hdx0) ?_ ?_ ?_
    · norm_num at *; linarith
    · norm_num at *; linarith
    · norm_num at *; linarith [r2.1, r2.2]
  · rw [if_neg hc, wide.idem]
    have hc' := not_le.mp hc
    have hy0 : 0 ≤ g - d := by linarith
    have r3 := err _ hy0 (by linarith)
    refine bnd _ (rnd_nonneg _ hy0) ?_ ?_ ?_
    · norm_num at *; linarith
    · norm_num at *; linarith [r2.1, r2.2]
    · norm_num at *; linarith

/-- `std::min` of finite values -/
theorem min3_val {a b c : F} {x y z : ℚ} (ha : val a = .fin x) (hb : val b = .fin y) (hc : val c = .fin z)
    (pa : Plain a) (pb : Plain b) (pc : Plain c) (fa : Full a) (fb : Full b) (fc : Full c) :
    val (min3 a b c) = .fin (min (min x y) z) ∧ Plain (min3 a b c) ∧ Full (min3 a b c) := by
  have h1 : val (if FP.lt b a then b else a) = .fin (min x y) ∧ Plain (if FP.lt b a then b else a) ∧
      Full (if FP.lt b a then b else a) := by
    rw [lt_eq, ha, hb]
    show val (if decide (y < x) = true then b else a) = _ ∧ Plain (if decide (y < x) = true then b else a) ∧
      Full (if decide (y < x) = true then b else a)
    by_cases h : y < x
    · rw [if_pos (by simpa using h), min_eq_right h.le]; exact ⟨hb, pb, fb⟩
    · rw [if_neg (by simpa using h), min_eq_left (not_lt.mp h)]; exact ⟨ha, pa, fa⟩
  unfold min3
  simp only
  generalize (if FP.lt b a then b else a) = m at *
  obtain ⟨h1, pm, fm⟩ := h1
  rw [lt_eq, h1, hc]
  show val (if decide (z < min x y) = true then c else m) = _ ∧ Plain (if decide (z < min x y) = true then c else m) ∧
    Full (if decide (z < min x y) = true then c else m)
  by_cases h : z < min x y
  · rw [if_pos (by simpa using h), min_eq_right h.le]; exact ⟨hc, pc, fc⟩
  · rw [if_neg (by simpa using h), min_eq_left (not_lt.mp h)]; exact ⟨h1, pm, fm⟩

/-- the bound of the exit test, as computed -/
theorem exit_val {gr : Int} (h1 : 1 ≤ gr) (h2 : gr ≤ 2 ^ 24) {r : Nat} (hr : (r : Int) ≤ gr) {m : F} {mn : ℚ}
    (hm : val m = .fin mn) (pm : Plain m) (fm : Full m) (m0 : 0 ≤ mn) (m2 : mn ≤ 2) :
    ∃ B, val (square (FP.add (FP.mul (FP.recip gr) (FP.ofInt (r : Int))) m)) = .fin (rnd (fmt F) (B * B)) ∧
    0 ≤ B ∧ B ≤ gl32 gr * r + mn + 5 * ga F / 2 ^ 24 := by
  have hg := gl32_pos h1 h2
  have hω := om_pos (F := F)
  have hωκ := om_ga (F := F)
  have hκ1 := ga_le (F := F)
  have hr0 : (0 : ℚ) ≤ r := Nat.cast_nonneg r
  have hrq : (r : ℚ) ≤ gr := by exact_mod_cast hr
  have hgr := gl32_le h1 h2 hrq
  have hgr0 : 0 ≤ gl32 gr * r := mul_nonneg hg.le hr0
  have hgr1 : gl32 gr * r ≤ 101 / 100 := by norm_num at *; linarith
  have e1 := abs_le.mp ((gfine (F := F)).err_le (x := gl32 gr * r) (B := 101 / 100) (by rwa [abs_of_nonneg hgr0]))
  have p1 := rnd_nonneg (gfmt F) hgr0
  have er : ((r : Int) : ℚ) = (r : ℚ) := by push_cast; rfl
  have vr : val (FP.ofInt (r : Int) : F) = .fin (r : ℚ) := by
    rw [ofInt_val (by rw [abs_of_nonneg (by omega)]; omega), er]
  have vm := recip_mul (F := F) h1 h2 (r := r) (by omega) hr
  rw [er] at vm
  obtain ⟨a, b, g1, g2, g3⟩ := add_val (okR _ fm) vm hm
  rw [pm.eq hm g2] at g3
  have g1 : a = gl32 gr * r ∨ a = rnd (gfmt F) (gl32 gr * r) := by
    rcases mul_rd (recip_val (F := F) h1 h2) vr g1 with h | h
    · exact Or.inl h
    · rw [vm] at h
      injection h with h
      exact Or.inr h.symm
  have a0 : 0 ≤ a := by rcases g1 with rfl | rfl <;> assumption
  have a1 : a ≤ gl32 gr * r + (ga F * (101 / 100) / 2 ^ 24 + ga F / 2 ^ 126) := by
    rcases g1 with rfl | rfl
    · have := ga_pos (F := F)
      linarith [show (0 : ℚ) ≤ ga F * (101 / 100) / 2 ^ 24 by positivity, show (0 : ℚ) ≤ ga F / 2 ^ 126 by positivity]
    · linarith [e1.2]
  have s0 : 0 ≤ a + mn := by linarith
  have s4 : a + mn ≤ 31 / 10 := by norm_num at *; linarith
  have e2 := abs_le.mp ((fine (F := F)).err_le (x := a + mn) (B := 31 / 10) (by rwa [abs_of_nonneg s0]))
  have p2 := rnd_nonneg (fmt F) s0
  rw [small (by
    rw [abs_of_nonneg s0]
    exact s4.trans (by norm_num))] at g3
  have hB : rnd (fmt F) (a + mn) ≤ gl32 gr * r + mn + 5 * ga F / 2 ^ 24 := by
    norm_num at *
    linarith [e2.2]
  have hB4 : rnd (fmt F) (a + mn) ≤ 4 := by norm_num at *; linarith
  have fB : Full (FP.add (FP.mul (FP.recip gr) (FP.ofInt (r : Int))) m) := add_full (okR _ fm)
  refine ⟨rnd (fmt F) (a + mn), val_mul (okL _ fB) g3 g3 ?_, p2, hB⟩
  rw [abs_of_nonneg (mul_nonneg p2 p2)]
  have := mul_le_mul hB4 hB4 p2 (by norm_num)
  exact this.trans (by norm_num)

/-- a coordinate `r + 1` cells away is at least as far as the bound, up to `14` rounding errors -/
theorem far_axis {gr : Int} (h1 : 1 ≤ gr) (h2 : gr ≤ 2 ^ 24) {a b mn w B : ℚ} {r : Nat}
    (hB : B ≤ gl32 gr * r + mn + 5 * ga F / 2 ^ 24) (ha : 0 ≤ a ∧ a ≤ 1) (hb : 0 ≤ b ∧ b ≤ 1)
    (h : (r : Int) + 1 ≤ |gcoordF (fmt F) gr b - gcoordF (fmt F) gr a|)
    (hw : val (wallDist (FP.recip gr) (emb (.fin a)) : F) = .fin w) (hle : mn ≤ w) :
    B ≤ |b - a| + 14 * ga F / 2 ^ 24 := by
  obtain ⟨w', e, -, -, w1, w2⟩ := wall (F := F) h1 h2 ha.1 ha.2
  rw [hw] at e; cases e
  obtain ⟨b1, b2⟩ := (fine (F := F)).gcoord_bounds h1 h2 hb.1 hb.2
  have hg := gl32_pos h1 h2
  have k : 2 * om F / 2 ^ 24 ≤ 2 * ga F / 2 ^ 24 := by have := om_ga (F := F); gcongr
  generalize gcoordF (fmt F) gr a = i at *
  generalize gcoordF (fmt F) gr b = j at *
  generalize gl32 gr = g at *
  rcases le_abs.mp h with h | h
  · have hj : (i : ℚ) + r + 1 ≤ j := by exact_mod_cast (by omega : i + r + 1 ≤ j)
    have := mul_le_mul_of_nonneg_left hj hg.le
    have := le_abs_self (b - a)
    linarith
  · have hj : (j : ℚ) + r + 1 ≤ i := by exact_mod_cast (by omega : j + r + 1 ≤ i)
    have := mul_le_mul_of_nonneg_left hj hg.le
    have := neg_le_abs (b - a)
    linarith

theorem gridCoord_val {gr : Int} (h1 : 1 ≤ gr) (h2 : gr ≤ 2 ^ 24) {x : ℚ} (hx : 0 ≤ x) (hx1 : x ≤ 1) :
    gridCoord (FP.recip gr) (emb (.fin x) : F) = .ok (gcoordF (fmt F) gr x) := by
  have hg := gl32_pos h1 h2
  obtain ⟨t0, t1, -, -⟩ := (wide (F := F)).gcoord_range h1 h2 hx hx1
  have vd : val (FP.div (emb (.fin x)) (FP.recip gr) : F) = .fin (rnd (fmt F) (x / gl32 gr)) :=
    val_div (okL _ (full_emb _)) (lf_recip _) (val_emb _) (recip_val h1 h2) hg.ne' (by
      rw [abs_of_nonneg t0]; exact t1.trans (by norm_num))
  unfold gridCoord
  rw [floorInt_eq, vd, wide.floorInt_gcoord h1 h2 hx hx1]

theorem cellId_toS {gr : Int} (h1 : 1 ≤ gr) (h2 : gr ≤ 2 ^ 24) {p : Pt ℚ} (hp : GridF (fmt F) gr p) :
    cellId gr (toS p : Pt F)
      = .ok (gcoordF (fmt F) gr p.x + gcoordF (fmt F) gr p.y * gr + gcoordF (fmt F) gr p.z * gr * gr) := by
  unfold cellId toS
  simp only [gridCoord_val h1 h2 hp.x.1 hp.x.2, gridCoord_val h1 h2 hp.y.1 hp.y.2,
    gridCoord_val h1 h2 hp.z.1 hp.z.2, bind_ok, pure_eq_ok]

theorem GridF_in {gr : Int} (h1 : 1 ≤ gr) (h2 : gr ≤ 2 ^ 24) {p : Pt ℚ} (hp : GridF (fmt F) gr p) :
    InGrid gr (gcoordF (fmt F) gr p.x, gcoordF (fmt F) gr p.y, gcoordF (fmt F) gr p.z) :=
  have w := wide (F := F)
  ⟨⟨w.gcoord_nonneg h1 h2 hp.x.1, hp.rx⟩, ⟨w.gcoord_nonneg h1 h2 hp.y.1, hp.ry⟩, ⟨w.gcoord_nonneg h1 h2 hp.z.1, hp.rz⟩⟩

theorem coords_toS {gr : Int} (h1 : 1 ≤ gr) (h2 : gr ≤ 2 ^ 24) {p : Pt ℚ} (hp : GridF (fmt F) gr p) {c : Int}
    (h : cellId gr (toS p : Pt F) = .ok c) :
    coords gr c = (gcoordF (fmt F) gr p.x, gcoordF (fmt F) gr p.y, gcoordF (fmt F) gr p.z) := by
  rw [cellId_toS h1 h2 hp] at h
  cases h
  rw [← coords_cellOf (GridF_in h1 h2 hp)]
  congr 1
  unfold cellOf; simp only; ring

/-- a point in a cell outside the shells searched is at least as far as the exit bound, up to `14` rounding errors -/
theorem far_point {gr : Int} (h1 : 1 ≤ gr) (h2 : gr ≤ 2 ^ 24) {q p : Pt ℚ} (hq : GridF (fmt F) gr q)
    (hp : GridF (fmt F) gr p) {cq cp : Int} (hcq : cellId gr (toS q : Pt F) = .ok cq)
    (hcp : cellId gr (toS p : Pt F) = .ok cp) {r : Nat} (hrg : (r : Int) ≤ gr)
    (hr : ((r + 1 : Nat) : Int) ≤ cheb (coords gr cp) (coords gr cq)) :
    ∃ B, val (square (FP.add (FP.mul (FP.recip gr) (FP.ofInt (r : Int)))
      (min3 (wallDist (FP.recip gr) (toS q : Pt F).x) (wallDist (FP.recip gr) (toS q : Pt F).y)
        (wallDist (FP.recip gr) (toS q : Pt F).z)))) = .fin (rnd (fmt F) (B * B)) ∧ 0 ≤ B ∧
      ∀ d, 0 ≤ d → sqDist p q ≤ d ^ 2 → B ≤ d + 14 * ga F / 2 ^ 24 := by
  rw [coords_toS h1 h2 hp hcp, coords_toS h1 h2 hq hcq] at hr
  obtain ⟨wx, ex, x0, x2, -, -⟩ := wall (F := F) h1 h2 hq.x.1 hq.x.2
  obtain ⟨wy, ey, y0, y2, -, -⟩ := wall (F := F) h1 h2 hq.y.1 hq.y.2
  obtain ⟨wz, ez, z0, z2, -, -⟩ := wall (F := F) h1 h2 hq.z.1 hq.z.2
  unfold toS
  simp only
  obtain ⟨hm, pm, fm⟩ := min3_val ex ey ez
    (plain_add _ _) (plain_add _ _) (plain_add _ _) (wallDist_full _ _) (wallDist_full _ _) (wallDist_full _ _)
  have m0 : 0 ≤ min (min wx wy) wz := le_min (le_min x0 y0) z0
  have l1 : min (min wx wy) wz ≤ wx := (min_le_left _ _).trans (min_le_left _ _)
  have l2 : min (min wx wy) wz ≤ wy := (min_le_left _ _).trans (min_le_right _ _)
  have l3 : min (min wx wy) wz ≤ wz := min_le_right _ _
  have m2 := l1.trans x2
  obtain ⟨B, e1, e2, e3⟩ := exit_val h1 h2 hrg hm pm fm m0 m2
  refine ⟨B, e1, e2, fun d d0 hd => ?_⟩
  have ax : ∀ t : ℚ, t ^ 2 ≤ d ^ 2 → |t| ≤ d := fun t ht => abs_le_of_sq_le_sq ht d0
  unfold sqDist at hd
  have s1 := sq_nonneg (p.x - q.x)
  have s2 := sq_nonneg (p.y - q.y)
  have s3 := sq_nonneg (p.z - q.z)
  simp only [cheb, le_max_iff] at hr
  rcases hr with hr | hr | hr
  · have := far_axis (F := F) h1 h2 e3 hq.x hp.x (by push_cast at hr ⊢; exact hr) ex l1
    have := ax (p.x - q.x) (by linarith)
    linarith
  · have := far_axis (F := F) h1 h2 e3 hq.y hp.y (by push_cast at hr ⊢; exact hr) ey l2
    have := ax (p.y - q.y) (by linarith)
    linarith
  · have := far_axis (F := F) h1 h2 e3 hq.z hp.z (by push_cast at hr ⊢; exact hr) ez l3
    have := ax (p.z - q.z) (by linarith)
    linarith

theorem emb_inj {x y : ℚ} (h : (emb (.fin x) : F) = emb (.fin y)) : x = y := by
  have := congrArg val h
  rw [val_emb, val_emb] at this
  injection this

theorem toS_inj {p q : Pt ℚ} (h : (toS p : Pt F) = toS q) : p = q := by
  unfold toS at h
  injection h with h1 h2 h3
  have h1 := emb_inj h1; have h2 := emb_inj h2; have h3 := emb_inj h3
  cases p; cases q; simp_all

theorem gridF_dist {gr : Int} {p q : Pt ℚ} (hp : GridF (fmt F) gr p) (hq : GridF (fmt F) gr q) :
    ∃ D, val (getDistance (toS p : Pt F) (toS q)) = .fin D ∧ Near (6 * om F / 2 ^ 24) (om F / 2 ^ 116) D (sqDist p q) :=
  getDistance_near (hp.diff hq).1 (hp.diff hq).2.1 (hp.diff hq).2.2

/-- an entry of the result that is the point number `j` -/
def IsEntry (xyz : List (Pt F)) (index : Nat) (q : Pt ℚ) (e : Int × WithTop ℚ) (j : Nat) (v : Pt ℚ) :
    Prop :=
  e.1 = j ∧ j ≠ index ∧ xyz[j]? = some (toS v) ∧ e.2 = FP.toD (getDistance (toS v : Pt F) (toS q))

theorem knn {gr : Int} (h1 : 1 ≤ gr) (h2 : gr ≤ 2 ^ 24) (xyz : List (Pt F)) (id offset : List Int)
    (hbox : ∀ p ∈ xyz, ∃ v, p = toS v ∧ GridF (fmt F) gr v) (hg : GridOK gr xyz.length id offset)
    (hids : ∀ (i : Nat) p, xyz[i]? = some p → ∃ c, id[i]? = some c ∧ cellId gr p = .ok c)
    (index : Nat) (q : Pt ℚ) (hq : xyz[index]? = some (toS q)) (k : Nat) (hk : 1 ≤ k) :
    ∃ res, knnCompute xyz id offset index k gr (List.replicate k ((0 : Int), (⊤ : WithTop ℚ)))
        = .ok res ∧ res.length = k ∧ res.Pairwise (fun a b => a.2 ≤ b.2) ∧
      ((res.filter fun e => decide (e.2 ≠ ⊤)).map (·.1)).Nodup ∧
      (∀ e ∈ res, e.2 ≠ ⊤ → ∃ j v, IsEntry xyz index q e j v) ∧
      ∀ (j : Nat) (v : Pt ℚ), xyz[j]? = some (toS v) → j ≠ index →
        (∀ e ∈ res, e.2 ≠ ⊤ → e.1 ≠ j) →
        ∀ e ∈ res, ∃ i w, IsEntry xyz index q e i w ∧ DistLe (ga F / 2 ^ 19) (sqDist w q) (sqDist v q) := by
  have hi := (List.getElem?_eq_some_iff.mp hq).1
  obtain ⟨res, h, q', c, m, e, hperm, hq', hc, hsort, ⟨hlen, V, d, hV, hcand, hp, hord⟩, hm, hexit⟩ :=
    knnCompute_inv xyz index k hk hg (List.replicate k ((0 : Int), (⊤ : WithTop ℚ))) (by simp) hi
  rw [dlt_eq] at hsort hord
  rw [dlt_eq] at hexit
  rw [hq] at hq'
  injection hq' with hq'
  subst hq'
  have hqg : GridF (fmt F) gr q := by
    obtain ⟨v, e1, e2⟩ := hbox _ (List.mem_of_getElem? hq)
    rw [toS_inj e1]; exact e2
  have w := topLt_weakOrd (K := ℚ)
  have hheap0 : HeapEx (topLt (K := ℚ)) (List.replicate k ((0 : Int), (⊤ : WithTop ℚ)))
      (List.replicate k ((0 : Int), (⊤ : WithTop ℚ))).length 0 none := by
    intro p c _ _ _ _ x y hx hy
    have hx' := List.eq_of_mem_replicate (List.mem_of_getElem? hx)
    have hy' := List.eq_of_mem_replicate (List.mem_of_getElem? hy)
    rw [hx', hy']; rfl
  obtain ⟨hheap, hdisc⟩ := hord w hheap0
  -- entries are candidates or padding
  have hVe : ∀ e ∈ V, ∃ j v, IsEntry xyz index q e j v ∧ GridF (fmt F) gr v := by
    intro e he
    have hvis : e.1 ∈ visited gr offset index (coords gr c) m := by
      rw [← hV]; exact List.mem_map_of_mem he
    obtain ⟨pt, g1, g2, g3⟩ := hcand e he
    have hne := ((mem_visited hg _ _ _ _).mp hvis).1
    obtain ⟨v, rfl, gv⟩ := hbox pt (List.mem_of_getElem? g2)
    exact ⟨e.1.toNat, v, ⟨by omega, by omega, g2, g3⟩, gv⟩
  have hVfin : ∀ e ∈ V, e.2 ≠ ⊤ := by
    intro e he
    obtain ⟨j, v, ⟨-, -, -, h4⟩, gv⟩ := hVe e he
    obtain ⟨D, hD, -⟩ := gridF_dist (F := F) gv hqg
    rw [h4, toD_eq, hD]; exact WithTop.coe_ne_top
  have hmem : ∀ e ∈ res, e ∈ V ∨ e = ((0 : Int), (⊤ : WithTop ℚ)) := by
    intro e he
    have : e ∈ V ++ List.replicate k ((0 : Int), (⊤ : WithTop ℚ)) :=
      hp.mem_iff.mp (List.mem_append_left _ (hperm.mem_iff.mp he))
    rcases List.mem_append.mp this with h | h
    · exact Or.inl h
    · exact Or.inr (List.eq_of_mem_replicate h)
  refine ⟨res, e, by rw [hperm.length_eq, hlen], (hsort w).imp (fun hab => (topLt_false _ _).mp hab), ?_, ?_, ?_⟩
  · -- distinct
    have hVnd : (V.map (·.1)).Nodup := by rw [hV]; exact visited_nodup hg _ _ _
    have hsub : ((res ++ d).filter fun e => decide (e.2 ≠ ⊤)).Perm V := by
      have p1 := ((hperm.append_right d).trans hp).filter (fun e => decide (e.2 ≠ ⊤))
      have e1 : (V ++ List.replicate k ((0 : Int), (⊤ : WithTop ℚ))).filter (fun e => decide (e.2 ≠ ⊤)) = V := by
        rw [List.filter_append, List.filter_eq_self.mpr (fun e he => by simpa using hVfin e he)]
        have : (List.replicate k ((0 : Int), (⊤ : WithTop ℚ))).filter (fun e => decide (e.2 ≠ ⊤)) = [] := by
          rw [List.filter_eq_nil_iff]
          intro e he
          rw [List.eq_of_mem_replicate he]; simp
        rw [this, List.append_nil]
      rw [e1] at p1
      exact p1
    have hn := (hsub.map (·.1)).nodup_iff.mpr hVnd
    rw [List.filter_append, List.map_append] at hn
    exact (List.nodup_append.mp hn).1
  · intro e he hfin
    rcases hmem e he with h | h
    · obtain ⟨j, v, h, -⟩ := hVe e h; exact ⟨j, v, h⟩
    · rw [h] at hfin; exact absurd rfl hfin
  · intro j v hj hji hnot x hx
    obtain ⟨v', e1, gv⟩ := hbox _ (List.mem_of_getElem? hj)
    have := toS_inj e1
    subst this
    have hxh := hperm.mem_iff.mp hx
    obtain ⟨E, hE, hEn⟩ := gridF_dist (F := F) gv hqg
    obtain ⟨cj, hcj, hcell⟩ := hids j _ hj
    by_cases hvis : (j : Int) ∈ visited gr offset index (coords gr c) m
    · -- visited and discarded
      rw [← hV, List.mem_map] at hvis
      obtain ⟨e', he', heq⟩ := hvis
      obtain ⟨j', v', ⟨f1, f2, f3, f4⟩, gv'⟩ := hVe e' he'
      have hjj : j' = j := by have := f1.symm.trans heq; exact_mod_cast this
      subst hjj
      rw [hj] at f3
      injection f3 with f3
      have := toS_inj f3
      subst this
      have hin : e' ∈ h ++ d := hp.mem_iff.mpr (List.mem_append_left _ he')
      have hd' : e' ∈ d := by
        rcases List.mem_append.mp hin with h' | h'
        · exact absurd f1 (hnot e' (hperm.mem_iff.mpr h') (hVfin e' he'))
        · exact h'
      have hle := (topLt_false _ _).mp (hdisc e' hd' x hxh)
      rw [f4, toD_eq, hE] at hle
      have hxfin : x.2 ≠ ⊤ := by
        intro ht
        rw [ht, top_le_iff] at hle
        exact WithTop.coe_ne_top hle
      rcases hmem x hx with hxV | hxV
      · obtain ⟨i, u, hu, gu⟩ := hVe x hxV
        refine ⟨i, u, hu, fun dd d0 hdd => ?_⟩
        obtain ⟨D, hD, hDn⟩ := gridF_dist (F := F) gu hqg
        have h4 := hu.2.2.2
        rw [toD_eq, hD] at h4
        rw [h4] at hle
        exact fine.near_visited om_ga ga_le hDn hEn (WithTop.coe_le_coe.mp hle) d0 hdd (gu.sqDist_le hqg)
      · rw [hxV] at hxfin; exact absurd rfl hxfin
    · -- not visited
      have hnv : ¬ cheb (coords gr cj) (coords gr c) < m := by
        intro hlt
        apply hvis
        rw [mem_visited hg]
        exact ⟨by simpa using hji, cj, by simp, by simpa using hcj, hlt⟩
      rcases hexit with rfl | ⟨r, top, rfl, htop, hx2⟩
      · exfalso
        apply hnv
        have hcr := hg.id_range _ (List.mem_of_getElem? hcj)
        have hccr := hg.id_range _ (List.mem_of_getElem? hc)
        obtain ⟨⟨x0, x1⟩, ⟨y0, y1⟩, ⟨z0, z1⟩⟩ := coords_inGrid hg.gr_pos hcr
        obtain ⟨⟨u0, u1⟩, ⟨v0, v1⟩, ⟨w0, w1⟩⟩ := coords_inGrid hg.gr_pos hccr
        unfold cheb
        have := hg.gr_pos
        rw [Int.toNat_of_nonneg (by omega)]
        simp only [max_lt_iff, abs_lt]
        omega
      · have hqc : cellId gr (toS q : Pt F) = .ok c := by
          obtain ⟨c', e1, e2⟩ := hids index _ hq
          rw [hc] at e1; cases e1; exact e2
        obtain ⟨B, hB, hB0, hBd⟩ := far_point (F := F) h1 h2 hqg gv hqc hcell (r := r) (by omega) (by omega)
        rw [toD_eq, hB] at hx2
        have hlt := (topLt_iff _ _).mp hx2
        have hxt : x.2 ≤ top.2 := by
          have hl : HeapEx (topLt (K := ℚ)) h h.length 0 none := by rw [hlen]; exact hheap
          exact (topLt_false _ _).mp (root_max_mem w hl htop x hxh)
        have hle := hxt.trans hlt.le
        have hxfin : x.2 ≠ ⊤ := by
          intro ht
          rw [ht, top_le_iff] at hle
          exact WithTop.coe_ne_top hle
        rcases hmem x hx with hxV | hxV
        · obtain ⟨i, u, hu, gu⟩ := hVe x hxV
          refine ⟨i, u, hu, fun dd d0 hdd => ?_⟩
          obtain ⟨D, hD, hDn⟩ := gridF_dist (F := F) gu hqg
          have h4 := hu.2.2.2
          rw [toD_eq, hD] at h4
          rw [h4] at hle
          exact fine.near_unvisited om_ga ga_le hDn hB0 (WithTop.coe_le_coe.mp hle) d0 (hBd dd d0 hdd) (gu.sqDist_le hqg)
        · rw [hxV] at hxfin; exact absurd rfl hxfin

end Votess.Sgl
