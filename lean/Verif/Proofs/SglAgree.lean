import Verif.Proofs.SglCell
import Verif.Proofs.MarginReach
import Mathlib.Algebra.Order.Archimedean.Basic
/-! Points with margins: rounded arithmetic, with or without fused multiply-add, and exact arithmetic take the
same decisions. -/
namespace Votess.Sgl

variable {F : Type} [FP F (WithTop ℚ)] [Sgl F]

/-- the list stored and the list meant -/
def Stored (ω μ : ℚ) (R L : List (Pt ℚ)) : Prop := List.Forall₂ (PtAp ω μ) R L

theorem Stored.of {ω μ : ℚ} {R L : List (Pt ℚ)} (h : Stored ω μ R L) {i : Nat} {p : Pt ℚ} (hp : L[i]? = some p) :
    ∃ p', R[i]? = some p' ∧ PtAp ω μ p' p := by
  obtain ⟨hi, rfl⟩ := List.getElem?_eq_some_iff.mp hp
  have hi' : i < R.length := by rw [h.length_eq]; exact hi
  exact ⟨_, List.getElem?_eq_getElem hi', List.Forall₂.get h hi' hi⟩

theorem Stored.to {ω μ : ℚ} {R L : List (Pt ℚ)} (h : Stored ω μ R L) {i : Nat} {p' : Pt ℚ} (hp : R[i]? = some p') :
    ∃ p, L[i]? = some p ∧ PtAp ω μ p' p := by
  obtain ⟨hi, rfl⟩ := List.getElem?_eq_some_iff.mp hp
  have hi' : i < L.length := by rw [← h.length_eq]; exact hi
  exact ⟨_, List.getElem?_eq_getElem hi', List.Forall₂.get h hi hi'⟩

/-- what is needed of a point: the margins, and a cut behind the last candidate that the search can see -/
def Clear (F : Type) [FP F (WithTop ℚ)] [Sgl F] (μ : ℚ) (k : Nat) (L : List (Pt ℚ)) (i : Nat) (p : Pt ℚ) : Prop :=
  MarginsBy μ L i p ∧ CutBy (ga F + (μ - om F)) k L i p

def AllClear (F : Type) [FP F (WithTop ℚ)] [Sgl F] (μ : ℚ) (k : Nat) (L : List (Pt ℚ)) : Prop :=
  ∀ i p, L[i]? = some p → Clear F μ k L i p

theorem AllClear.perm {μ : ℚ} {k : Nat} {L L' : List (Pt ℚ)} (h : L.Perm L') (hm : AllClear F μ k L) : AllClear F μ k L' := by
  intro i p hp
  obtain ⟨j, hj, e⟩ := List.getElem_of_mem (h.mem_iff.mpr (List.mem_of_getElem? hp))
  have hj' : L[j]? = some p := by rw [List.getElem?_eq_getElem hj, e]
  exact ⟨MarginsBy.perm h hj' hp (hm j p hj').1, CutBy.perm h hj' hp (hm j p hj').2⟩

/-- where the search is as exact as the rest, margins are enough -/
theorem Clear.of (e : ga F = om F) {μ : ℚ} (h0 : 0 < μ) {k : Nat} (hk : 1 ≤ k) {L : List (Pt ℚ)} {i : Nat} {p : Pt ℚ}
    (hp : L[i]? = some p) (h : MarginsBy μ L i p) : Clear F μ k L i p :=
  ⟨h, by rw [e, add_sub_cancel]; exact CutBy.of_margins hk h0.le hp h⟩

theorem AllClear.of (e : ga F = om F) {μ : ℚ} (h0 : 0 < μ) {k : Nat} (hk : 1 ≤ k) {L : List (Pt ℚ)} (h : AllMarginsBy μ L) :
    AllClear F μ k L :=
  fun i p hp => .of e h0 hk hp (h i p hp)

/-- where all other points are candidates, margins are enough -/
theorem AllClear.of_all {μ : ℚ} {k : Nat} {L : List (Pt ℚ)} (hk : L.length ≤ k + 1) (h : AllMarginsBy μ L) : AllClear F μ k L :=
  fun i p hp => ⟨h i p hp, CutBy.of_all hk⟩

theorem distLe_le {κ s : ℚ} (k0 : 0 < κ) (k1 : κ ≤ 1) (s0 : 1 / 2 ^ 12 ≤ s) {a b : ℚ} (h : DistLe (κ / 2 ^ 19) a b)
    (hb0 : 0 ≤ b) (hb : b ≤ 303 / 100 * (s * s)) : a ≤ b + 92 / 100 * κ / 2 ^ 17 * s := by
  have sp : 0 < s := lt_of_lt_of_le (by norm_num) s0
  have ks : 0 < κ * s := mul_pos k0 sp
  have ks1 : κ * s ≤ 1 * s := mul_le_mul_of_nonneg_right k1 sp.le
  have ss : 1 / 2 ^ 12 * s ≤ s * s := mul_le_mul_of_nonneg_right s0 sp.le
  obtain ⟨d, d0, d1, d2⟩ := exists_rat_pow_btwn (K := ℚ) (n := 2) (by norm_num)
    (show b < b + κ * s / 2 ^ 22 by linarith) (by linarith)
  simp only [Rat.cast_id] at d1 d2
  have hd : d ≤ 175 / 100 * s := by
    by_contra hc
    rw [not_le] at hc
    have : (175 / 100 * s) * (175 / 100 * s) ≤ d * d := mul_le_mul hc.le hc.le (by positivity) d0.le
    rw [pow_two] at d2
    norm_num at *
    linarith
  have := h d d0.le d1.le
  have e : (d + κ / 2 ^ 19) ^ 2 = d ^ 2 + d * κ / 2 ^ 18 + κ * κ / 2 ^ 38 := by ring
  rw [e] at this
  have m1 : d * κ ≤ 175 / 100 * s * κ := mul_le_mul_of_nonneg_right hd k0.le
  have m2 : κ * κ ≤ 1 * κ := mul_le_mul_of_nonneg_right k1 k0.le
  have m3 : κ * (1 / 2 ^ 12) ≤ κ * s := mul_le_mul_of_nonneg_left s0 k0.le
  linarith

theorem sqDist_le_span (p q : Pt ℚ) : sqDist q p ≤ 3 * (span p q * span p q) := by
  have k : ∀ {x : ℚ}, |x| ≤ span p q → x ^ 2 ≤ span p q * span p q := fun {x} hx => by
    rw [← sq_abs, pow_two]; exact mul_le_mul hx hx (abs_nonneg _) (span_pos p q).le
  have e : sqDist q p = (q.x - p.x) ^ 2 + (q.y - p.y) ^ 2 + (q.z - p.z) ^ 2 := by simp only [sqDist]
  rw [e]
  linarith [k (span_x p q), k (span_y p q), k (span_z p q)]

theorem span_le_sq {p q : Pt ℚ} (h : 1 / 2 ^ 12 < span p q) : span p q * span p q ≤ sqDist q p := by
  have e : sqDist q p = (q.x - p.x) ^ 2 + (q.y - p.y) ^ 2 + (q.z - p.z) ^ 2 := by simp only [sqDist]
  have e2 : span p q = max (1 / 2 ^ 12) (max |q.x - p.x| (max |q.y - p.y| |q.z - p.z|)) := rfl
  have hs : span p q = |q.x - p.x| ∨ span p q = |q.y - p.y| ∨ span p q = |q.z - p.z| := by
    rw [e2] at h ⊢
    rcases max_choice (1 / 2 ^ 12) (max |q.x - p.x| (max |q.y - p.y| |q.z - p.z|)) with h1 | h1
    · rw [h1] at h; exact absurd h (lt_irrefl _)
    rw [h1]
    rcases max_choice |q.x - p.x| (max |q.y - p.y| |q.z - p.z|) with h2 | h2
    · exact Or.inl h2
    rw [h2]
    exact Or.inr (max_choice _ _)
  rw [e]
  have a := sq_nonneg (q.x - p.x); have b := sq_nonneg (q.y - p.y); have c := sq_nonneg (q.z - p.z)
  rcases hs with hs | hs | hs <;> (rw [hs, ← pow_two, sq_abs]; linarith)

/-- a point that is not clearly farther away is not more than twice as far along an axis -/
theorem span_near {p q q' : Pt ℚ} {ε : ℚ} (e1 : ε ≤ 1 / 2 ^ 16)
    (h : sqDist q p ≤ sqDist q' p + ε * (span p q + span p q')) : span p q ≤ 2 * span p q' := by
  by_contra hc
  rw [not_le] at hc
  have s' := span_lo p q'
  have hs : 1 / 2 ^ 12 < span p q := by linarith
  have h1 := span_le_sq hs
  have h2 := sqDist_le_span p q'
  have h3 : ε * (span p q + span p q') ≤ 1 / 2 ^ 16 * (span p q + span p q') :=
    mul_le_mul_of_nonneg_right e1 (by linarith)
  have h4 : span p q' * span p q' ≤ (1 / 2 * span p q) * (1 / 2 * span p q) :=
    mul_le_mul (by linarith) (by linarith) (by linarith) (by linarith)
  have h5 : 1 / 2 ^ 12 * span p q < span p q * span p q := mul_lt_mul_of_pos_right hs (by linarith)
  linarith

/-- the list the search returns -/
theorem knnApprox {μ : ℚ} (hμ : Fac (om F) μ) {R L : List (Pt ℚ)} {index : Nat} {p p' : Pt ℚ} {k : Nat} {res : List (Int × WithTop ℚ)}
    (hst : Stored (om F) μ R L) (hbox' : ∀ v ∈ R, InUnitBox v) (hbox : ∀ v ∈ L, InUnitBox v)
    (hp : L[index]? = some p) (hp' : R[index]? = some p')
    (hl : res.length = k) (hsort : res.Pairwise (fun a b => a.2 ≤ b.2)) (hnd : (res.map (·.1)).Nodup)
    (hent : ∀ e ∈ res, ∃ j v, IsEntry (R.map (toS : Pt ℚ → Pt F)) index p' e j v)
    (hmiss : ∀ (j : Nat) (v : Pt ℚ), (R.map (toS : Pt ℚ → Pt F))[j]? = some (toS v) → j ≠ index →
      (∀ e ∈ res, e.1 ≠ j) → ∀ e ∈ res, ∃ i w, IsEntry (R.map (toS : Pt ℚ → Pt F)) index p' e i w ∧
        DistLe (ga F / 2 ^ 19) (sqDist w p') (sqDist v p')) :
    ∃ id pt, KnnApprox L index p k (μ / 2 ^ 17) ((ga F + (μ - om F)) / 2 ^ 17) (res.map (·.1)) id pt := by
  have hpb := hbox p (List.mem_of_getElem? hp)
  have hpb' := hbox' p' (List.mem_of_getElem? hp')
  have g0' := hμ.pos
  have gm := hμ.mpos
  have g1' := hμ.one
  have g2' := hμ.four
  have hap : PtAp (om F) μ p' p := by
    obtain ⟨x, h1, h2⟩ := hst.of hp
    rw [hp'] at h1; cases h1; exact h2
  have get : ∀ {j : Nat} {v : Pt ℚ}, (R.map (toS : Pt ℚ → Pt F))[j]? = some (toS v) → R[j]? = some v := by
    intro j v h
    rw [List.getElem?_map, Option.map_eq_some_iff] at h
    obtain ⟨w, h1, h2⟩ := h
    rw [h1, toS_inj h2]
  -- the distance stored
  have close : ∀ {v v' : Pt ℚ}, PtAp (om F) μ v' v → sqDist v' p' ≤ 303 / 100 * (span p v * span p v) := by
    intro v v' hav
    have h4 := (abs_le.mp (PtAp.dist hμ hap hav)).2
    have h1 := sqDist_le_span p v
    have h2 := mul_le_mul_of_nonneg_right (span_lo p v) (span_pos p v).le
    have h3 : 7 * (μ - om F) / 2 ^ 24 * span p v ≤ 28 / 2 ^ 24 * span p v :=
      mul_le_mul_of_nonneg_right (by linarith) (span_pos p v).le
    linarith [span_pos p v]
  -- an entry and its distances
  have ent : ∀ m, ∃ (j : Nat) (v : Pt ℚ), ∀ hm : m < res.length, ∃ D : ℚ, res[m].1 = j ∧ j ≠ index ∧ L[j]? = some v ∧
      res[m].2 = ((D : ℚ) : WithTop ℚ) ∧ |D - sqDist v p| ≤ (19 * om F + 7 * (μ - om F)) / 2 ^ 24 * span p v ∧ InUnitBox v := by
    intro m
    by_cases hm : m < res.length
    · obtain ⟨j, v', h1, h2, h3, h4⟩ := hent _ (List.getElem_mem hm)
      have hv' := get h3
      have hvb' := hbox' v' (List.mem_of_getElem? hv')
      obtain ⟨v, hv, hav⟩ := hst.to hv'
      have hvb := hbox v (List.mem_of_getElem? hv)
      obtain ⟨d1, d2, d3⟩ := hvb'.diff hpb'
      obtain ⟨D, hD, hn⟩ := getDistance_near (F := F) d1 d2 d3
      refine ⟨j, v, fun _ => ⟨D, h1, h2, hv, ?_, ?_, hvb⟩⟩
      · rw [h4]
        rw [toD_eq, hD]; rfl
      · unfold Near at hn
        have h4 := PtAp.dist hμ hap hav
        have h3 := close hav
        have h5 : om F * sqDist v' p' ≤ om F * (303 / 100 * (span p v * span p v)) := mul_le_mul_of_nonneg_left h3 g0'.le
        have h6 : om F * (span p v * span p v) ≤ om F * span p v :=
          mul_le_mul_of_nonneg_left (mul_le_of_le_one_right (span_pos p v).le (span_le_one hpb hvb)) g0'.le
        have h7 : om F * (1 / 2 ^ 12) ≤ om F * span p v := mul_le_mul_of_nonneg_left (span_lo p v) g0'.le
        have e6 : 6 * om F / 2 ^ 24 * sqDist v' p' = 6 * (om F * sqDist v' p') / 2 ^ 24 := by ring
        rw [e6] at hn
        calc |D - sqDist v p| = |(D - sqDist v' p') + (sqDist v' p' - sqDist v p)| := by congr 1; ring
          _ ≤ _ := (abs_add_le _ _).trans (by norm_num at *; linarith)
    · exact ⟨0, p, fun h => absurd h hm⟩
  choose id pt hv using ent
  have hnd' := List.pairwise_iff_getElem.mp hnd
  refine ⟨id, pt, by simpa using hl, fun m hm => ?_, fun m hm => ?_, fun m hm => ?_, fun m m' h1 h2 he => ?_,
    fun m m' h1 h2 => ?_, fun j c hj hji hno m hm => ?_⟩
  · obtain ⟨D, a1, -⟩ := hv m (by omega)
    rw [List.getElem?_map, List.getElem?_eq_getElem (by omega : m < res.length)]; simp [a1]
  · obtain ⟨D, a1, a2, a3, -⟩ := hv m (by omega)
    exact a3
  · obtain ⟨D, a1, a2, -⟩ := hv m (by omega)
    exact a2
  · obtain ⟨D, a1, -⟩ := hv m (by omega)
    obtain ⟨D', b1, -⟩ := hv m' (by omega)
    refine hnd' m m' (by simpa using by omega) (by simpa using by omega) h1 ?_
    rw [List.getElem_map, List.getElem_map, a1, b1, he]
  · obtain ⟨D, a1, a2, a3, a4, a5, a6⟩ := hv m (by omega)
    obtain ⟨D', b1, b2, b3, b4, b5, b6⟩ := hv m' (by omega)
    have hle := List.pairwise_iff_getElem.mp hsort m m' (by omega) (by omega) h1
    rw [a4, b4, WithTop.coe_le_coe] at hle
    have a5' := abs_le.mp a5
    have b5' := abs_le.mp b5
    have h2 := span_near (p := p) (q := pt m) (q' := pt m') (ε := (19 * om F + 7 * (μ - om F)) / 2 ^ 24) (by linarith)
      (by linarith [a5'.1, b5'.2])
    have h3 : (19 * om F + 7 * (μ - om F)) / 2 ^ 24 * span p (pt m) ≤ 19 * μ / 2 ^ 24 * (2 * span p (pt m')) :=
      mul_le_mul (by linarith) h2 (span_pos _ _).le (by positivity)
    have h4 : (19 * om F + 7 * (μ - om F)) / 2 ^ 24 * span p (pt m') ≤ 19 * μ / 2 ^ 24 * span p (pt m') :=
      mul_le_mul_of_nonneg_right (by linarith) (span_pos _ _).le
    have h5 : 0 < μ * span p (pt m') := mul_pos gm (span_pos _ _)
    linarith [a5'.1, b5'.2]
  · obtain ⟨D, a1, a2, a3, a4, a5, a6⟩ := hv m (by omega)
    have hno' : ∀ e ∈ res, e.1 ≠ j := by
      intro e he heq
      obtain ⟨m', hm', rfl⟩ := List.getElem_of_mem he
      obtain ⟨D', b1, -⟩ := hv m' hm'
      rw [b1] at heq
      exact hno m' (by omega) (by exact_mod_cast heq)
    obtain ⟨u, hu1, hu2⟩ := hst.of hj
    obtain ⟨i, w, hw, hle⟩ := hmiss j u (by rw [List.getElem?_map, hu1]; rfl) hji hno' _ (List.getElem_mem (show m < res.length by omega))
    obtain ⟨w1, w2, w3, w4⟩ := hw
    have hij : i = id m := by rw [w1] at a1; exact_mod_cast a1
    have hwv := get w3
    obtain ⟨w', hw', haw⟩ := hst.to hwv
    rw [hij, a3] at hw'; cases hw'
    have hvb := hbox c (List.mem_of_getElem? hj)
    have hub := hbox' u (List.mem_of_getElem? hu1)
    have hle := distLe_le ga_pos ga_le (span_lo p c) hle (sqDist_nonneg _ _) (close hu2)
    have q1 := abs_le.mp (PtAp.dist hμ hap haw)
    have q2 := abs_le.mp (PtAp.dist hμ hap hu2)
    have gk := ga_le (F := F)
    have gk0 := ga_pos (F := F)
    have w1 : 7 * (μ - om F) / 2 ^ 24 * span p (pt m) ≤ 28 / 2 ^ 24 * span p (pt m) :=
      mul_le_mul_of_nonneg_right (by linarith) (span_pos _ _).le
    have w2 : (92 / 100 * ga F / 2 ^ 17 + 7 * (μ - om F) / 2 ^ 24) * span p c ≤ 1 / 2 ^ 16 * span p c :=
      mul_le_mul_of_nonneg_right (by linarith) (span_pos _ _).le
    have s1 := span_pos p (pt m)
    have h2 := span_near (p := p) (q := pt m) (q' := c) (le_refl _) (by linarith [q1.1, q2.2])
    have h3 : 7 * (μ - om F) / 2 ^ 24 * span p (pt m) ≤ 7 * (μ - om F) / 2 ^ 24 * (2 * span p c) :=
      mul_le_mul_of_nonneg_left h2 (div_nonneg (by linarith) (by norm_num))
    have h4 : 0 < ga F * span p c := mul_pos gk0 (span_pos _ _)
    have h5 : 0 ≤ (μ - om F) * span p c := mul_nonneg (by linarith) (span_pos _ _).le
    linarith [q1.1, q2.2]

theorem agree {μ : ℚ} (hμ : Fac (om F) μ) {a : CCArgs} {R L : List (Pt ℚ)} {index : Nat} {p p' : Pt ℚ} {P : List (Plane ℚ)} {T : List Tri}
    {dR : List Nat} {knn dknn : List Int} {id : Nat → Nat} {pt : Nat → Pt ℚ}
    (hin : CellInput a L index P T dR knn dknn) (hst : Stored (om F) μ R L)
    (hbox' : ∀ v ∈ R, InUnitBox v) (hbox : ∀ v ∈ L, InUnitBox v)
    (hp : L[index]? = some p) (hp' : R[index]? = some p') (hm : MarginsBy μ L index p)
    (hview : KnnView L index p a.k knn id pt) {s0 : CCState ℚ} (hs0 : ccInit .init P T dR dknn = .ok s0) {nb : Nat}
    (hnb : nb < a.k) {s : CCState F} {s' : CCState ℚ}
    (hr : CellReach a L knn p s0 nb false s') (hs : Sim (PlaneAp μ) s s') {q' : Pt ℚ} (haq : PtAp (om F) μ q' (candPt L knn nb))
    (hq' : InUnitBox q') :
    Agree s s' (toS p') (toS q') p (candPt L knn nb) := by
  have hpb := hbox p (List.mem_of_getElem? hp)
  have hpb' := hbox' p' (List.mem_of_getElem? hp')
  have g0' := hμ.pos
  have gm := hμ.mpos
  have g1' := hμ.one
  have g2' := hμ.four
  have hap : PtAp (om F) μ p' p := by
    obtain ⟨x, h1, h2⟩ := hst.of hp
    rw [hp'] at h1; cases h1; exact h2
  have hf := reach_full hin hpb hs0 hr
  have hmat := reach_matters hin hpb hp hview hs0 hnb hr
  obtain ⟨q, hqe⟩ : ∃ q, pt nb = q := ⟨_, rfl⟩
  have k2 := hview.site nb hnb
  have k3 := hview.other nb hnb
  have k4 := hview.cand nb hnb
  rw [hqe] at hmat k2 k4
  have hqb := hbox q (List.mem_of_getElem? k2)
  rw [k4] at haq
  have cand : ∀ i, i < nb → candPt L knn i ∈ closerTo L p q := by
    intro i hi
    unfold closerTo
    rw [List.mem_filter, decide_eq_true_eq]
    rw [hview.cand i (by omega), sqDist_comm p, sqDist_comm p, ← hqe]
    exact ⟨List.mem_of_getElem? (hview.site i (by omega)), hview.strict hμ.mpos hm hi hnb (hqe ▸ hmat)⟩
  obtain ⟨js, hh, -⟩ := hf.hist
  -- stored planes
  have hpl : ∀ j, j < s'.psize → s'.P.getD j zeroPlane ∈ boundaryPlanes p (closerTo L p q) := by
    intro j hj
    rw [getD_of_take hh.planes hj]
    have hlen := hh.psize
    have hj2 : j < ((pInit : List (Plane ℚ)) ++
        js.map (fun i => bisect (candPt L knn i) p)).length := by
      rw [List.length_append, List.length_map, show (pInit : List (Plane ℚ)).length = 6 from rfl]; omega
    rw [List.getD_eq_getElem?_getD, List.getElem?_eq_getElem hj2, Option.getD_some]
    obtain ⟨g, hg⟩ : ∃ g, g = (((pInit : List (Plane ℚ)) ++
        js.map (fun i => bisect (candPt L knn i) p))[j]'hj2) := ⟨_, rfl⟩
    have hmem := List.getElem_mem hj2
    rw [← hg] at hmem ⊢
    unfold boundaryPlanes
    rcases List.mem_append.mp hmem with hmem | hmem
    · exact List.mem_append_left _ (by rw [← pInit_boxFaces]; exact hmem)
    · obtain ⟨i, hi, e⟩ := List.mem_map.mp hmem
      apply List.mem_append_right
      rw [← e, bisect_bisectorPlane]
      exact List.mem_map.mpr ⟨_, cand i (hh.lt i hi), rfl⟩
  have hmem : q ∈ L.eraseIdx index := MarginsBy.mem k2 k3
  -- the cell
  have hcell : ∀ x, InCell s'.psize (inward s'.P) x ↔ VoronoiCell p (closerTo L p q) x := by
    intro x
    rw [hf.geo.cell]
    constructor
    · rintro ⟨c1, c2⟩
      refine ⟨c1, fun c hc => ?_⟩
      rcases hview.closer hp hnb (hqe ▸ hc) with rfl | ⟨i, hi, rfl⟩
      · exact le_refl _
      · rw [← hview.cand i (by omega)]; exact c2 i hi
    · rintro ⟨c1, c2⟩
      exact ⟨c1, fun i hi => c2 _ (cand i hi)⟩
  -- one vertex
  have vert : ∀ t ∈ s'.T.take s'.tsize, ∃ f g h, Meet p (closerTo L p q) (vtx s'.P t).pt f g h ∧
      TriMargin μ s.P p q (vtx s'.P t).pt t (blur μ f g h) := by
    intro t ht
    have hv := isVertex_tv hf ht
    have hlt : t.a < s'.psize ∧ t.b < s'.psize ∧ t.c < s'.psize := by
      have := hf.inv.valid.tri t ht; omega
    have hin' := (hcell _).mp (hf.geo.poly.feasible ht)
    rw [← vtx_pt] at hv hin'
    obtain ⟨pa, pb, pc, ga, gb, gc, hd, ea, eb, ec⟩ := hv
    have ga' : s'.P.getD t.a zeroPlane = pa := by rw [List.getD_eq_getElem?_getD, ga]; rfl
    have gb' : s'.P.getD t.b zeroPlane = pb := by rw [List.getD_eq_getElem?_getD, gb]; rfl
    have gc' : s'.P.getD t.c zeroPlane = pc := by rw [List.getD_eq_getElem?_getD, gc]; rfl
    have hcor : Meet p (closerTo L p q) (vtx s'.P t).pt pa pb pc :=
      ⟨hin', hd, ga' ▸ hpl _ hlt.1, gb' ▸ hpl _ hlt.2.1, gc' ▸ hpl _ hlt.2.2, ea, eb, ec⟩
    obtain ⟨r1, r2, r3⟩ := hm.room q hmem hmat _ _ _ _ hcor
    have apa := hs.planes t.a (by rw [hs.psize]; exact hlt.1)
    have apb := hs.planes t.b (by rw [hs.psize]; exact hlt.2.1)
    have apc := hs.planes t.c (by rw [hs.psize]; exact hlt.2.2)
    rw [ga'] at apa; rw [gb'] at apb; rw [gc'] at apc
    obtain ⟨x1, x2, x3, x4⟩ := vertex_ap hμ apa apb apc ea eb ec hin'.1 r1
    have hdp : 0 < sharp pa pb pc := lt_of_lt_of_le (by positivity) r1
    refine ⟨pa, pb, pc, hcor, ?_, ?_, hin'.1, x1, x2, x3, r2, r3⟩
    · unfold blur
      rw [le_div_iff₀ hdp]
      have : 42 * μ / 2 ^ 24 * sharp pa pb pc ≤ 42 * μ / 2 ^ 24 * 6 := mul_le_mul_of_nonneg_left x4 (by positivity)
      exact this.trans (by linarith)
    · unfold blur
      rw [div_le_iff₀ hdp]
      have : 1 / 16 * (μ / 2 ^ 12) ≤ 1 / 16 * sharp pa pb pc := mul_le_mul_of_nonneg_left r1 (by norm_num)
      refine le_trans (by linarith) this
  rw [k4]
  refine ⟨fun t ht => ?_, fun vs hvs => ?_⟩
  · obtain ⟨f, g, h, -, hη⟩ := vert t ht
    rw [isCut_eq hμ hη hpb hqb hap haq, Bool.eq_iff_iff, decide_eq_true_eq, isCut_iff, vtx_pt]
  · refine srReached_sgl hμ hpb hqb hpb' hq' hap haq ?_ (fun t ht => by
      obtain ⟨f, g, h, -, hη⟩ := vert t ((hvs t).mp ht)
      exact ⟨_, hη⟩) ?_
    · intro he
      obtain ⟨t, ht, -⟩ := hf.geo.poly.radius (x := p) ((hf.geo.cell p).mpr ⟨hpb, fun i hi => by
        have : sqDist p p = 0 := by simp [sqDist]
        rw [this]; exact sqDist_nonneg _ _⟩) p
      rw [← hvs t, he] at ht
      cases ht
    · rcases hm.radius q hmem hmat with hb | ⟨v, f0, g0, k0, h1, h2⟩
      · left
        intro t ht
        obtain ⟨f, g, h, c1, hη⟩ := vert t ((hvs t).mp ht)
        refine ⟨_, hη, ?_⟩
        rw [sqDist_comm p q, sqDist_comm p (vtx s'.P t).pt]
        exact hb _ _ _ _ c1
      · right
        obtain ⟨t, ht, hle⟩ := hf.geo.poly.radius ((hcell v).mpr h1.cell) p
        obtain ⟨f, g, h, c1, hη⟩ := vert t ht
        refine ⟨t, (hvs t).mpr ht, _, hη, ?_⟩
        rw [sqDist_comm p q, sqDist_comm p (vtx s'.P t).pt]
        refine h2 _ _ _ _ c1 ?_
        rw [vtx_pt, sqDist_comm v p, sqDist_comm _ p]
        exact hle

/-- one cell: both arithmetics give the same status and, if it is no error, the same row -/
theorem cell_sgl {μ : ℚ} (hμ : Fac (om F) μ) {a : CCArgs} {R L : List (Pt ℚ)} {index : Nat} {p : Pt ℚ} {P : List (Plane F)}
    {P' : List (Plane ℚ)} {T : List Tri} {dR : List Nat} {knn knn' dknn : List Int} {id id' : Nat → Nat} {pt pt' : Nat → Pt ℚ}
    (hin : CellInput a L index P' T dR knn' dknn) (hP : P.length = a.pm) (hdk : ∀ v ∈ dknn, v = kUndefined)
    (hst : Stored (om F) μ R L) (hbox' : ∀ v ∈ R, InUnitBox v) (hbox : ∀ v ∈ L, InUnitBox v)
    (hp : L[index]? = some p) (hm : Clear F μ a.k L index p)
    (hview : KnnView L index p a.k knn' id' pt')
    (happ : KnnApprox L index p a.k (μ / 2 ^ 17) ((ga F + (μ - om F)) / 2 ^ 17) knn id pt) :
    ∃ o o', ccCompute a (R.map (toS : Pt ℚ → Pt F)) index .init P T dR knn dknn = .ok o ∧
      ccCompute a L index .init P' T dR knn' dknn = .ok o' ∧ (NoError o'.s.state → o.knn = o'.knn) ∧
      o.s.state = o'.s.state := by
  have hpb := hbox p (List.mem_of_getElem? hp)
  obtain ⟨p', hp', hap⟩ := hst.of hp
  have hlen : R.length = L.length := hst.length_eq
  have hin32 : CellInput a (R.map (toS : Pt ℚ → Pt F)) index P T dR knn dknn := by
    obtain ⟨h1, h2, h3, h4, h5, h6, h7, h8, h9, h10, h11, h12⟩ := hin
    refine ⟨h1, h2, h3, h4, h5, by simpa [hlen] using h6, ?_, happ.len, hP, h10, h11, h12⟩
    intro v hv
    obtain ⟨m, hm, rfl⟩ := List.getElem_of_mem hv
    have hmk : m < a.k := by rw [← happ.len]; exact hm
    have h1 := happ.get m hmk
    rw [List.getElem?_eq_getElem hm] at h1
    injection h1 with h1
    have h2 := (List.getElem?_eq_some_iff.mp (happ.site m hmk)).1
    rw [h1, List.length_map, hlen]
    omega
  have rmap : ∀ {i : Int} {v : Pt F} {v' : Pt ℚ}, rdI (R.map (toS : Pt ℚ → Pt F)) i = .ok v → rdI L i = .ok v' →
      ∃ u, v = toS u ∧ PtAp (om F) μ u v' ∧ InUnitBox u := by
    intro i v v' h1 h2
    have h1 := (rdI_eq_ok.mp h1).2
    have h2 := (rdI_eq_ok.mp h2).2
    obtain ⟨u, u1, u2⟩ := hst.of h2
    rw [List.getElem?_map, u1] at h1
    cases h1
    exact ⟨u, rfl, u2, hbox' u (List.mem_of_getElem? u1)⟩
  obtain ⟨o, o', h1, h2, h4, h3⟩ := ccCompute_sim (R := PlaneAp μ) hin32.pre hin.pre hdk (p := toS p') (p' := p)
    (rdI_eq_ok.mpr ⟨by omega, by simp [hp']⟩) (rdI_eq_ok.mpr ⟨by omega, by simpa using hp⟩) (planeAp_init hμ)
    (by
      intro qi q q' h1 h2
      obtain ⟨u, rfl, hu, -⟩ := rmap h1 h2
      exact planeAp_bisect hμ hpb (hbox q' (List.mem_of_getElem? (rdI_eq_ok.mp h2).2)) hap hu)
    (by
      intro s0' nb s' h0 hnb hr
      exact happ.prefix hview hp hm.1 (le_refl _) (le_refl _) hm.2 hnb (reach_matters hin hpb hp hview h0 hnb hr))
    (by
      intro s0' nb s s' qi q q' h0 hnb hr hs hq h1 h2
      obtain ⟨u, rfl, hu, hub⟩ := rmap h1 h2
      have := agree hμ hin hst hbox' hbox hp hp' hm.1 hview h0 hnb hr hs (q' := u)
        (by rw [candPt_eq hq h2]; exact hu) hub
      rw [candPt_eq hq h2] at this
      exact this)
  exact ⟨o, o', h1, h2, h3, h4.state⟩

end Votess.Sgl
