import Verif.Spec.Walk
import Verif.Props.Flush
/-!
# C84 — walking along the rows

With correct rows the point nearest to any location of the box is found by walking along listed neighbours.
-/
namespace Votess

section
variable {K : Type} [Field K] [LinearOrder K] [IsStrictOrderedRing K] {L : List (Pt K)} {d : Dnn}

/-- every row is correct -/
def AllRows (L : List (Pt K)) (d : Dnn) : Prop :=
  ∀ i p, L[i]? = some p → ∃ row, RowIs d i row ∧ CorrectRow L i p row

theorem listed_of_mem {i : Nat} {row : List Int} {w : Nat} (h : RowIs d i row) (hw : (w : Int) ∈ row) :
    Listed d i w := by
  obtain ⟨j, hj, e⟩ := List.getElem_of_mem hw
  exact ⟨row.length, j, h.1, hj, h.2 j _ (by rw [List.getElem?_eq_getElem hj, e])⟩

theorem mem_sites {ids : List Int} {q : Pt K} : q ∈ sitesOf L ids ↔ ∃ v ∈ ids, L[v.toNat]? = some q := by
  unfold sitesOf; rw [List.mem_filterMap]

/-- a site of the row is a listed point -/
theorem listed_of_site {i : Nat} {p q : Pt K} {row : List Int} (h : RowIs d i row) (hc : CorrectRow L i p row)
    (hq : q ∈ sitesOf L row) : ∃ w, Listed d i w ∧ L[w]? = some q := by
  obtain ⟨v, hv, e⟩ := mem_sites.mp hq
  obtain ⟨w, r, rfl, -⟩ := hc.touch v hv
  exact ⟨w, listed_of_mem h hv, e⟩

theorem exists_step (hrows : AllRows L d) {x : Pt K} (hx : InUnitBox x) {i : Nat} (hi : i < L.length)
    (hn : ¬ NearestTo L x i) : ∃ w, StepTo L d x i w := by
  have hp := List.getElem?_eq_getElem hi
  obtain ⟨row, h1, h2⟩ := hrows i _ hp
  have : ¬ VoronoiCell L[i] L x := fun h => hn ⟨_, hp, h.2⟩
  rw [← h2.cell] at this
  unfold VoronoiCell at this
  push Not at this
  obtain ⟨q, hq, hlt⟩ := this hx
  obtain ⟨w, w1, w2⟩ := listed_of_site h1 h2 hq
  exact ⟨w, w1, _, q, hp, w2, hlt⟩

omit [IsStrictOrderedRing K] in
theorem StepTo.lt {x : Pt K} {i w : Nat} (h : StepTo L d x i w) : w < L.length := by
  obtain ⟨-, p, q, -, h, -⟩ := h
  exact (List.getElem?_eq_some_iff.mp h).1

/-- distance of point `i`, for numbering the points by it -/
def walkDist (L : List (Pt K)) (x : Pt K) (i : Nat) : K := ((L[i]?).map (sqDist x)).getD 0

omit [IsStrictOrderedRing K] in
theorem StepTo.dist {x : Pt K} {i w : Nat} (h : StepTo L d x i w) : walkDist L x w < walkDist L x i := by
  obtain ⟨-, p, q, e1, e2, h⟩ := h
  simpa [walkDist, e1, e2] using h

/-- the points closer to `x` than point `i` -/
def closerCount (L : List (Pt K)) (x : Pt K) (i : Nat) : Nat :=
  ((Finset.range L.length).filter fun j => walkDist L x j < walkDist L x i).card

theorem StepTo.count {x : Pt K} {i w : Nat} (h : StepTo L d x i w) : closerCount L x w < closerCount L x i := by
  apply Finset.card_lt_card
  rw [Finset.ssubset_iff_of_subset]
  · exact ⟨w, by simp [h.lt, h.dist], by simp⟩
  · intro j hj
    simp only [Finset.mem_filter] at hj ⊢
    exact ⟨hj.1, hj.2.trans h.dist⟩

omit [IsStrictOrderedRing K] in
theorem closerCount_lt {x : Pt K} {i : Nat} (hi : i < L.length) : closerCount L x i < L.length := by
  have : closerCount L x i < (Finset.range L.length).card := by
    apply Finset.card_lt_card
    rw [Finset.ssubset_iff_of_subset (Finset.filter_subset _ _)]
    exact ⟨i, by simpa using hi, by simp⟩
  simpa using this

theorem walk_arrives (hrows : AllRows L d) {x : Pt K} (hx : InUnitBox x) (n : Nat) : ∀ i, i < L.length →
    closerCount L x i = n → ∃ j, Relation.ReflTransGen (StepTo L d x) i j ∧ NearestTo L x j := by
  induction n using Nat.strong_induction_on with
  | _ n ih =>
    intro i hi hn
    by_cases h : NearestTo L x i
    · exact ⟨i, .refl, h⟩
    · obtain ⟨w, hw⟩ := exists_step hrows hx hi h
      obtain ⟨j, h1, h2⟩ := ih _ (hn ▸ hw.count) w hw.lt rfl
      exact ⟨j, .head hw h1, h2⟩

theorem walk_short {x : Pt K} : ∀ (c : List Nat) (i : Nat), (i :: c).IsChain (StepTo L d x) →
    c.length ≤ closerCount L x i
  | [], _, _ => Nat.zero_le _
  | w :: c, i, h => by
    rw [List.isChain_cons_cons] at h
    have := walk_short c w h.2
    have := h.1.count
    simp only [List.length_cons]
    omega

theorem sqDist_eq_zero {p q : Pt K} (h : sqDist p q ≤ 0) : p = q := by
  unfold sqDist at h
  have h1 := sq_nonneg (p.x - q.x); have h2 := sq_nonneg (p.y - q.y); have h3 := sq_nonneg (p.z - q.z)
  have e1 : p.x - q.x = 0 := by apply pow_eq_zero_iff (two_ne_zero) |>.mp; linarith
  have e2 : p.y - q.y = 0 := by apply pow_eq_zero_iff (two_ne_zero) |>.mp; linarith
  have e3 : p.z - q.z = 0 := by apply pow_eq_zero_iff (two_ne_zero) |>.mp; linarith
  cases p; cases q
  simp only [Pt.mk.injEq] at *
  exact ⟨by linarith, by linarith, by linarith⟩

theorem sqDist_pos_of_ne {p q : Pt K} (h : p ≠ q) : 0 < sqDist p q := by
  by_contra hn
  exact h (sqDist_eq_zero (not_lt.mp hn))

/-- a positive number small enough for finitely many bounds -/
theorem small_enough {α : Type} (f s : α → K) : ∀ l : List α, (∀ a ∈ l, 0 < s a) →
    ∃ e, 0 < e ∧ e ≤ 1 / 2 ∧ ∀ a ∈ l, e * f a ≤ s a
  | [], _ => ⟨1 / 2, by norm_num, le_rfl, by simp⟩
  | a :: l, h => by
    obtain ⟨e, h1, h2, h3⟩ := small_enough f s l fun b hb => h b (List.mem_cons_of_mem _ hb)
    have ha := h a (by simp)
    have hpos : 0 < |f a| + 1 := by positivity
    have hm : 0 < min e (s a / (|f a| + 1)) := lt_min h1 (div_pos ha hpos)
    refine ⟨min e (s a / (|f a| + 1)), hm, (min_le_left _ _).trans h2, ?_⟩
    intro b hb
    rcases List.mem_cons.mp hb with rfl | hb'
    · have : min e (s b / (|f b| + 1)) * (|f b| + 1) ≤ s b := by
        rw [← le_div_iff₀ hpos]; exact min_le_right _ _
      have := mul_le_mul_of_nonneg_left (le_abs_self (f b)) hm.le
      nlinarith
    · have hs := h b hb
      rcases le_total (f b) 0 with hf | hf
      · have := mul_nonpos_of_nonneg_of_nonpos hm.le hf
        linarith
      · exact (mul_le_mul_of_nonneg_right (min_le_left _ _) hf).trans (h3 b hb')

/-- the point `p + t (q - p)` -/
def between (p q : Pt K) (t : K) : Pt K := ⟨p.x + t * (q.x - p.x), p.y + t * (q.y - p.y), p.z + t * (q.z - p.z)⟩

theorem between_box {p q : Pt K} {t : K} (hp : InUnitBox p) (hq : InUnitBox q) (h0 : 0 ≤ t) (h1 : t ≤ 1) :
    InUnitBox (between p q t) := by
  have key : ∀ a b : K, 0 ≤ a ∧ a ≤ 1 → 0 ≤ b ∧ b ≤ 1 → 0 ≤ a + t * (b - a) ∧ a + t * (b - a) ≤ 1 := by
    intro a b ha hb
    constructor <;> nlinarith
  exact ⟨key _ _ hp.1 hq.1, key _ _ hp.2.1 hq.2.1, key _ _ hp.2.2 hq.2.2⟩

/-- of two points alone in the ball between them each is among the sites of the other's row -/
theorem gabriel_site {p q : Pt K} {i : Nat} {row : List Int} (hbox : ∀ p ∈ L, InUnitBox p) (hp : L[i]? = some p)
    (hq : q ∈ L) (hne : q ≠ p) (hg : Gabriel L p q) (hc : CorrectRow L i p row) : q ∈ sitesOf L row := by
  by_contra hnot
  have hsite : ∀ r ∈ sitesOf L row, r ∈ L := fun r hr => by
    obtain ⟨v, -, e⟩ := mem_sites.mp hr
    exact List.mem_of_getElem? e
  obtain ⟨e, e0, e1, he⟩ := small_enough
    (fun r : Pt K => sqDist p q + sqDist p r - sqDist r q)
    (fun r => if r = p then 1 else (sqDist p r + sqDist r q - sqDist p q) / 2) (sitesOf L row) (by
      intro r hr
      split
      · exact one_pos
      · rename_i hrp
        have := hg r (hsite r hr) hrp (fun h => hnot (h ▸ hr))
        linarith)
  have hb := between_box (t := 1 / 2 + e) (hbox p (List.mem_of_getElem? hp)) (hbox q hq) (by linarith) (by linarith)
  have hin : VoronoiCell p (sitesOf L row) (between p q (1 / 2 + e)) := by
    refine ⟨hb, fun r hr => ?_⟩
    by_cases hrp : r = p
    · rw [hrp]
    · have := he r hr
      simp only [if_neg hrp] at this
      unfold between
      unfold sqDist at this ⊢
      simp only
      nlinarith
  have hcell := ((hc.cell _).mp hin).2 q hq
  have hpos := sqDist_pos_of_ne hne
  have : sqDist (between p q (1 / 2 + e)) p - sqDist (between p q (1 / 2 + e)) q = 2 * e * sqDist q p := by
    unfold between sqDist
    simp only
    ring
  nlinarith

/-- C84: with correct rows one can navigate. -/
theorem C84_navigable (hbox : ∀ p ∈ L, InUnitBox p) (hrows : AllRows L d) : Navigable L d := by
  have gab : ∀ (i : Nat) (p q : Pt K), L[i]? = some p → q ∈ L → q ≠ p → Gabriel L p q → ∃ w, Listed d i w ∧ L[w]? = some q := by
    intro i p q hp hq hne hg
    obtain ⟨row, h1, h2⟩ := hrows i p hp
    exact listed_of_site h1 h2 (gabriel_site hbox hp hq hne hg h2)
  have arr : ∀ x, InUnitBox x → ∀ i, i < L.length →
      ∃ j, Relation.ReflTransGen (StepTo L d x) i j ∧ NearestTo L x j :=
    fun x hx i hi => walk_arrives hrows hx _ i hi rfl
  refine ⟨?_, arr, ?_, ?_, ?_, gab, ?_⟩
  · intro x hx i hi h
    by_contra hn
    obtain ⟨w, hw⟩ := exists_step hrows hx hi hn
    exact h w hw
  · intro x i c hi h
    exact (walk_short c i h).trans_lt (closerCount_lt hi)
  · intro i j p hi hj
    have hpL := List.mem_of_getElem? hj
    obtain ⟨j', h1, q, h2, h3⟩ := arr p (hbox p hpL) i hi
    refine ⟨j', Relation.ReflTransGen.mono (r := StepTo L d p) (fun _ _ h => h.1) _ _ h1, ?_⟩
    have := h3 p hpL
    rw [show sqDist p p = 0 by simp [sqDist]] at this
    rw [h2, ← sqDist_eq_zero this]
  · rintro i p hp ⟨q, hq, hne⟩
    have hi := (List.getElem?_eq_some_iff.mp hp).1
    obtain ⟨w, hw⟩ := exists_step hrows (hbox q hq) hi (by
      rintro ⟨p', e, h⟩
      rw [hp] at e; cases e
      have := h q hq
      rw [show sqDist q q = 0 by simp [sqDist]] at this
      exact hne (sqDist_eq_zero this))
    exact ⟨w, hw.1⟩
  · intro i p q hp hq hne hmin
    refine gab i p q hp hq hne fun r hr hrp hrq => ?_
    have h1 := hmin r hr hrp
    have h2 := sqDist_pos_of_ne hrq
    linarith

end

section exact
variable {K : Type} [Field K] [LinearOrder K] [IsStrictOrderedRing K] [FloorRing K] [Inhabited K] {nb hw : Nat}
  {prm : Params} {xyz : List (Pt K)}

omit [IsStrictOrderedRing K] [FloorRing K] [Inhabited K] in
theorem InBox.unit {p : Pt K} (h : InBox p) : InUnitBox p :=
  ⟨⟨h.1.1, h.1.2.le⟩, ⟨h.2.1.1, h.2.1.2.le⟩, h.2.2.1, h.2.2.2.le⟩

/-- C84: exact arithmetic. -/
theorem C84_exact (h : ExactJob nb hw prm xyz) (hr : prm.useRecompute = false) :
    ∃ out, tesellateCpu nb hw prm xyz = .ok out ∧ out.xyz.Perm xyz ∧
      ((out.report.srNotReached = 0 ∨ (xyz.length - 1 ≤ prm.k.toNat ∧ out.report.infBoundary = 0 ∧
          out.report.pOverflow = 0 ∧ out.report.tOverflow = 0)) → Navigable out.xyz out.dnn) := by
  obtain ⟨out, h1, h2, h3⟩ := C24_tessellation h hr
  refine ⟨out, h1, h2, fun hw' => C84_navigable (fun p hp => (h.box p (h2.subset hp)).unit) ?_⟩
  intro i p hp
  obtain ⟨row, r1, r2, -⟩ := h3 hw' i p hp
  exact ⟨row, r1, r2⟩

/-- C84: exact arithmetic, with all other points as candidates and room for their planes and vertices. -/
theorem C84_exact_room (h : ExactJob nb hw prm xyz) (hr : prm.useRecompute = false)
    (hk : (xyz.length : Int) - 1 ≤ prm.k) (hp : prm.k + 6 ≤ prm.pm) (ht : 2 * prm.k + 8 ≤ prm.tm) :
    ∃ out, tesellateCpu nb hw prm xyz = .ok out ∧ out.xyz.Perm xyz ∧ Navigable out.xyz out.dnn := by
  obtain ⟨out, h1, h2, -, h3⟩ := C64_enough_room h hr hk hp ht
  refine ⟨out, h1, h2, C84_navigable (fun p hp => (h.box p (h2.subset hp)).unit) ?_⟩
  intro i p hp
  obtain ⟨row, r1, r2, -⟩ := h3 i p hp
  exact ⟨row, r1, r2⟩

/-- C84: exact arithmetic, with recompute. -/
theorem C84_exact_recompute (h : ExactJob nb hw prm xyz) (hr : prm.useRecompute = true)
    (hn : 2 ≤ xyz.length) (hk : prm.k + 6 ≤ prm.pm) (hp : (xyz.length : Int) + 5 ≤ prm.pm)
    (ht : 2 * prm.k + 8 ≤ prm.tm) (ht' : 2 * (xyz.length : Int) + 6 ≤ prm.tm) :
    ∃ out, tesellateCpu nb hw prm xyz = .ok out ∧ out.xyz.Perm xyz ∧ Navigable out.xyz out.dnn := by
  obtain ⟨out, h1, h2, h3⟩ := C64_recompute h hr hn hk hp ht ht'
  refine ⟨out, h1, h2, C84_navigable (fun p hp => (h.box p (h2.subset hp)).unit) ?_⟩
  intro i p hp
  obtain ⟨row, r1, r2, -⟩ := h3 i p hp
  exact ⟨row, r1, r2⟩

theorem knn_real {index k : Nat} {p : Pt K} {res : List (Int × WithTop K)} (hi : index < xyz.length)
    (h : KnnSpec xyz index p k res) (hk : k < xyz.length) : ∀ e ∈ res, ∃ (j : Nat) (q : Pt K), e.1 = j ∧
      xyz[j]? = some q ∧ e.2 = ((sqDist q p : K) : WithTop K) := by
  intro e he
  rcases knn_entry h he with ⟨j, q, h1, h2, -, h3⟩ | rfl
  · exact ⟨j, q, h1, h2, h3⟩
  · exfalso
    obtain ⟨h2, -, rest, hp, hle⟩ := h
    have hcount := (filter_fin_spec hp).length_eq
    rw [List.length_append, otherPoints_length _ _ _ hi] at hcount
    have hrest : rest.filter fin = [] := by
      rw [List.filter_eq_nil_iff]
      intro y hy hfy
      have := fin_of_le (hle _ he y hy) hfy
      simp [fin] at this
    rw [hrest] at hcount
    have : (res.filter fin).length < res.length := by
      rw [List.length_filter_lt_length_iff_exists]
      exact ⟨_, he, by simp [fin]⟩
    simp only [List.length_nil] at hcount
    omega

/-- C84: in exact arithmetic the entries of every row are in the order of their distance from the point. -/
theorem C84_ordered (h : ExactJob nb hw prm xyz) (hr : prm.useRecompute = false) (hk : prm.k < xyz.length) :
    ∃ out, tesellateCpu nb hw prm xyz = .ok out ∧ ∀ i p, out.xyz[i]? = some p → ∃ row, RowIs out.dnn i row ∧
      row.Pairwise fun v w => ∃ q r, out.xyz[v.toNat]? = some q ∧ out.xyz[w.toNat]? = some r ∧
        sqDist p q ≤ sqDist p r := by
  obtain ⟨S, hs⟩ := h.sorts
  obtain ⟨out, e1, e2, -, e3⟩ := C32_rows h.job hs hr
  have hperm := C01_sort_permutes nb prm.gr xyz S hs
  refine ⟨out, e1, fun i p hp => ?_⟩
  rw [e2] at hp ⊢
  have hi := (List.getElem?_eq_some_iff.mp hp).1
  refine ⟨_, e3 i hi, ?_⟩
  obtain ⟨res, o, j1, j2, -⟩ := h.cell hs h.job.size hp
  rw [j2]
  obtain ⟨P, T, dR, r1, r2, r3, r4⟩ := j1.run
  refine List.Pairwise.sublist (C31_sublist (j1.input r1 r2 r3) r4).1 (List.pairwise_map.mpr ?_)
  have hk1 := h.k1
  have hreal := knn_real hi j1.knn (by rw [hperm.length_eq]; simp only [Params.args]; omega)
  refine j1.knn.2.1.imp_of_mem ?_
  intro a b ha hb hab
  obtain ⟨j, q, a1, a2, a3⟩ := hreal a ha
  obtain ⟨j', q', b1, b2, b3⟩ := hreal b hb
  refine ⟨q, q', by rw [a1]; exact a2, by rw [b1]; exact b2, ?_⟩
  rw [a3, b3, WithTop.coe_le_coe] at hab
  rwa [sqDist_comm p q, sqDist_comm p q']

/-- C84: in exact arithmetic the first entry of the row of a point is a nearest other point, if all points are
different and the report is clean. -/
theorem C84_first (h : ExactJob nb hw prm xyz) (hr : prm.useRecompute = false) (hk : prm.k < xyz.length)
    (hn : 2 ≤ xyz.length) (hd : xyz.Nodup) :
    ∃ out, tesellateCpu nb hw prm xyz = .ok out ∧ (out.report.srNotReached = 0 →
      ∀ i p, out.xyz[i]? = some p → ∃ (w : Nat) (q : Pt K), out.dnn.at i 0 = .ok (w : Int) ∧ w ≠ i ∧
        out.xyz[w]? = some q ∧ ∀ (j : Nat) (r : Pt K), j ≠ i → out.xyz[j]? = some r → sqDist p q ≤ sqDist p r) := by
  obtain ⟨out, e1, e2⟩ := C84_ordered h hr hk
  obtain ⟨out', f1, f2, f3⟩ := C24_tessellation h hr
  rw [e1] at f1; cases f1
  refine ⟨out, e1, fun hrep i p hp => ?_⟩
  obtain ⟨row, r1, r2⟩ := e2 i p hp
  obtain ⟨row', s1, s2, -⟩ := f3 (Or.inl hrep) i p hp
  obtain rfl := r1.unique s1
  have hbox : ∀ p ∈ out.xyz, InUnitBox p := fun p hp => (h.box p (f2.subset hp)).unit
  have hnd : out.xyz.Nodup := f2.nodup_iff.mpr hd
  have hlen := f2.length_eq
  have hi := (List.getElem?_eq_some_iff.mp hp).1
  have hpL := List.mem_of_getElem? hp
  -- a nearest other point
  obtain ⟨q, hq, hne, hmin⟩ : ∃ q ∈ out.xyz, q ≠ p ∧ ∀ r ∈ out.xyz, r ≠ p → sqDist p q ≤ sqDist p r := by
    obtain ⟨j, hj, hji⟩ : ∃ j, j < out.xyz.length ∧ j ≠ i := by
      by_cases hz : i = 0
      · exact ⟨1, by omega, by omega⟩
      · exact ⟨0, by omega, fun h => hz h.symm⟩
    have hother : out.xyz[j] ≠ p := fun e => hji ((hnd.getElem_inj_iff (hi := hj) (hj := hi)).mp (by
      rw [e, (List.getElem?_eq_some_iff.mp hp).2]))
    obtain ⟨q, hq, hqm⟩ := Finset.exists_min_image ((out.xyz.toFinset).filter (· ≠ p)) (fun r => sqDist p r)
      ⟨out.xyz[j], by simp [hother]⟩
    simp only [Finset.mem_filter, List.mem_toFinset] at hq hqm
    exact ⟨q, hq.1, hq.2, fun r hr hrp => hqm r ⟨hr, hrp⟩⟩
  have hsite := gabriel_site hbox hp hq hne (fun r hr hrp hrq => by
    have h1 := hmin r hr hrp
    have h2 := sqDist_pos_of_ne hrq
    linarith) s2
  obtain ⟨v, hv, hvq⟩ := mem_sites.mp hsite
  match row, r1, r2, s2, hv with
  | u :: us, r1, r2, s2, hv =>
    obtain ⟨w, q', rfl, w2, w3, w4, -⟩ := s2.touch u (by simp)
    refine ⟨w, q', r1.2 0 _ rfl, w3, w2, fun j r hj hr => ?_⟩
    have hrp : r ≠ p := by
      rintro rfl
      have h1 := List.getElem?_eq_some_iff.mp hr
      have h2 := List.getElem?_eq_some_iff.mp hp
      exact hj ((hnd.getElem_inj_iff (hi := h1.1) (hj := h2.1)).mp (h1.2.trans h2.2.symm))
    have hqr := hmin r (List.mem_of_getElem? hr) hrp
    rcases List.mem_cons.mp hv with rfl | hv'
    · simp only [Int.toNat_natCast] at hvq
      rw [hvq] at w2; cases w2
      exact hqr
    · obtain ⟨a, b, a1, b1, hab⟩ := (List.pairwise_cons.mp r2).1 v hv'
      simp only [Int.toNat_natCast] at a1
      rw [w2] at a1; cases a1
      rw [hvq] at b1; cases b1
      exact hab.trans hqr

end exact

section rounded
variable {hw : Nat} {prm : Params} {X L : List (Pt ℚ)} {d : Dnn}

theorem InputOK.unit (h : InputOK X) (hperm : L.Perm X) : ∀ p ∈ L, InUnitBox p := by
  intro p hp
  obtain ⟨⟨a, a'⟩, ⟨b, b'⟩, c, c'⟩ := h p (hperm.subset hp)
  have e : (1 : ℚ) - 1 / 2 ^ 22 ≤ 1 := by norm_num
  exact ⟨⟨a, a'.trans e⟩, ⟨b, b'.trans e⟩, c, c'.trans e⟩

theorem navigable_of_rows (hX : InputOK X) (hperm : L.Perm X)
    (h : ∀ i p, L[i]? = some p → ∃ row, RowIs d i row ∧ CorrectRow L i p row ∧ ExactRow L i p row) :
    Navigable L d :=
  C84_navigable (hX.unit hperm) fun i p hp => let ⟨row, r1, r2, _⟩ := h i p hp; ⟨row, r1, r2⟩

/-- C84: single precision; the walk is along the points as given, before they were rounded. -/
theorem C84_float (h : FloatSizes hw prm) (hX : InputOK X) (hm : AllMarginsBy 2 X) (hroom : Roomy prm X.length) :
    ∃ (out : TessOut F32) (L : List (Pt ℚ)), tesellateCpu 4 hw prm (X.map storePt) = .ok out ∧
      out.xyz = L.map storePt ∧ L.Perm X ∧ Navigable L out.dnn := by
  obtain ⟨out, L, h1, h2, h3, h4⟩ := C71_enough_room h hX hm hroom
  exact ⟨out, L, h1, h2, h3, navigable_of_rows hX h3 h4⟩

/-- C84: single precision, few candidates: the report decides. -/
theorem C84_float_report (h : FloatSizes hw prm) (hX : InputOK X) (hm : AllMarginsBy 2 X) (hk : prm.k < X.length)
    (hr : prm.useRecompute = false) :
    ∃ (out : TessOut F32) (L : List (Pt ℚ)), tesellateCpu 4 hw prm (X.map storePt) = .ok out ∧
      out.xyz = L.map storePt ∧ L.Perm X ∧ (out.report.srNotReached = 0 → Navigable L out.dnn) := by
  obtain ⟨out, L, h1, h2, h3, -, h4⟩ := C71_tessellation h hX hm hk hr
  exact ⟨out, L, h1, h2, h3, fun e => navigable_of_rows hX h3 (h4 (Or.inl e))⟩

/-- C84: single precision with recompute. -/
theorem C84_float_recompute (h : FloatSizes hw prm) (hX : InputOK X) (hm : AllMarginsBy 2 X)
    (hk : prm.k < X.length) (hr : prm.useRecompute = true) (hp : (X.length : Int) + 5 ≤ prm.pm)
    (ht : 2 * (X.length : Int) + 6 ≤ prm.tm) :
    ∃ (out : TessOut F32) (L : List (Pt ℚ)), tesellateCpu 4 hw prm (X.map storePt) = .ok out ∧
      out.xyz = L.map storePt ∧ L.Perm X ∧ Navigable L out.dnn := by
  obtain ⟨out, L, h1, h2, h3, h4⟩ := C71_recompute h hX hm hk hr hp ht
  exact ⟨out, L, h1, h2, h3, navigable_of_rows hX h3 h4⟩

/-- C84: products fused in any way. -/
theorem C84_fused (ch : Choice b32) (h : FloatSizes hw prm) (hX : InputOK X) (hm : AllMarginsBy 2 X)
    (hroom : Roomy prm X.length) :
    ∃ (out : TessOut (Fm ch)) (L : List (Pt ℚ)), tesellateCpu 4 hw prm (X.map (storeFm ch)) = .ok out ∧
      out.xyz = L.map (storeFm ch) ∧ L.Perm X ∧ Navigable L out.dnn := by
  obtain ⟨out, L, h1, h2, h3, h4⟩ := C75_enough_room ch h hX hm hroom
  exact ⟨out, L, h1, h2, h3, navigable_of_rows hX h3 h4⟩

/-- C84: denormal numbers flushed to zero as well. -/
theorem C84_flush (ch : Choice b32z) (h : FloatSizes hw prm) (hX : InputOK X) (hm : AllMarginsBy 2 X)
    (hroom : Roomy prm X.length) :
    ∃ (out : TessOut (Fm ch)) (L : List (Pt ℚ)), tesellateCpu 4 hw prm (X.map (storeFm ch)) = .ok out ∧
      out.xyz = L.map (storeFm ch) ∧ L.Perm X ∧ Navigable L out.dnn := by
  obtain ⟨out, L, h1, h2, h3, h4⟩ := C83_enough_room ch h hX hm hroom
  exact ⟨out, L, h1, h2, h3, navigable_of_rows hX h3 h4⟩

/-- C84: every execution on a GPU. -/
theorem C84_gpu (ch : Choice b32) {ndsize : Int} (h : FloatSizes hw prm) (hX : InputOK X) (hm : AllMarginsBy 2 X)
    (hroom : Roomy prm X.length) (hgr : prm.gr ≤ 255) (htm : prm.tm ≤ 254) (hu : Unchunked prm X.length)
    {out : TessOut (Fm ch)} (ho : TesellateGpu 4 hw ndsize true prm (X.map (storeFm ch)) out) :
    ∃ L : List (Pt ℚ), out.xyz = L.map (storeFm ch) ∧ L.Perm X ∧ Navigable L out.dnn := by
  obtain ⟨L, h2, h3, h4⟩ := C75_gpu ch h hX hm hroom hgr htm hu ho
  exact ⟨L, h2, h3, navigable_of_rows hX h3 h4⟩

/-- C84: double precision coordinates. -/
theorem C84_double (h : FloatSizes hw prm) (hX : InputOK X) (hm : AllMarginsBy (2 / 2 ^ 29) X)
    (hroom : Roomy prm X.length) :
    ∃ (out : TessOut Dbl) (L : List (Pt ℚ)), tesellateCpu 4 hw prm (X.map storeDbl) = .ok out ∧
      out.xyz = L.map storeDbl ∧ L.Perm X ∧ Navigable L out.dnn := by
  obtain ⟨out, L, h1, h2, h3, h4⟩ := C77_enough_room h hX hm hroom
  exact ⟨out, L, h1, h2, h3, navigable_of_rows hX h3 h4⟩

end rounded

/-! ### too few candidates -/

/-- two pairs of points -/
def twoPairs : List (Pt ℚ) :=
  [⟨1 / 8, 1 / 8, 1 / 8⟩, ⟨1 / 4, 1 / 8, 1 / 8⟩, ⟨3 / 4, 3 / 4, 3 / 4⟩, ⟨7 / 8, 3 / 4, 3 / 4⟩]

set_option maxRecDepth 100000 in
theorem twoPairs_run : sglRunIs F32 (onePrm 1) twoPairs [[1], [0], [3], [2]] = true := by decide +kernel

theorem twoPairs_safe : Sgl.Safe F32 (onePrm 1).gr twoPairs := by
  intro v hv
  have h : ∀ p ∈ twoPairs, (0 ≤ p.x ∧ p.x ≤ 1 - 1 / 2 ^ 23) ∧ (0 ≤ p.y ∧ p.y ≤ 1 - 1 / 2 ^ 23) ∧
      (0 ≤ p.z ∧ p.z ≤ 1 - 1 / 2 ^ 23) := by decide +kernel
  obtain ⟨hx, hy, hz⟩ := h v hv
  have key : ∀ {x : ℚ}, 0 ≤ x ∧ x ≤ 1 - 1 / 2 ^ 23 → (0 ≤ x ∧ x ≤ 1) ∧ gcoordF (Sgl.fmt F32) 1 x < 1 :=
    fun h => ⟨⟨h.1, h.2.trans (by norm_num)⟩, Sgl.wide.gcoord_lt (by decide) (by decide) h.1 h.2⟩
  exact ⟨(key hx).1, (key hy).1, (key hz).1, (key hx).2, (key hy).2, (key hz).2⟩

theorem listed_row {d : Dnn} {i w : Nat} {row : List Int} (h : RowIs d i row) (hl : Listed d i w) : (w : Int) ∈ row := by
  obtain ⟨s, j, h1, h2, h3⟩ := hl
  rw [h.1] at h1; cases h1
  rw [h.2 j _ (List.getElem?_eq_getElem h2), Except.ok.injEq] at h3
  exact h3 ▸ List.getElem_mem _

/-- C84: the condition on the report is needed.  With one candidate per point two pairs of points do not know of
each other: there is no way from the first point to the third one. -/
theorem C84_few_disconnected (hw : Nat) : ∃ out : TessOut F32,
    tesellateCpu 4 hw (onePrm 1) (twoPairs.map Sgl.toS) = .ok out ∧ out.xyz = twoPairs.map Sgl.toS ∧
      ¬ Relation.ReflTransGen (Listed out.dnn) 0 2 ∧ ¬ Navigable twoPairs out.dnn := by
  obtain ⟨out, h1, h2, h3⟩ := sglRunIs_call (onePrm_sizes (k := 1) (by decide) (by decide) hw)
    twoPairs_safe rfl twoPairs_run
  have key : ∀ j, Relation.ReflTransGen (Listed out.dnn) 0 j → j = 0 ∨ j = 1 := by
    intro j hj
    induction hj with
    | refl => exact Or.inl rfl
    | tail _ hb ih =>
      rcases ih with rfl | rfl
      · have := listed_row (h3 0 _ rfl) hb
        simp at this; omega
      · have := listed_row (h3 1 _ rfl) hb
        simp at this; omega
  refine ⟨out, h1, h2, fun h => by have := key 2 h; omega, fun h => ?_⟩
  obtain ⟨j', e1, e2⟩ := h.connected 0 2 _ (by decide) rfl
  rcases key j' e1 with rfl | rfl
  · revert e2; decide +kernel
  · revert e2; decide +kernel

/-! ### examples -/

/-- walking along four points, one of which has a denormal coordinate -/
example (ch : Choice b32z) : ∃ (out : TessOut (Fm ch)) (L : List (Pt ℚ)),
    tesellateCpu 4 8 ⟨3, 3, 9, 14, 0, 0, false, false⟩ (tiny4.map (storeFm ch)) = .ok out ∧
    out.xyz = L.map (storeFm ch) ∧ L.Perm tiny4 ∧ Navigable L out.dnn :=
  C84_flush ch tiny4_sizes tiny4_input tiny4_margins tiny4_room

example : ∃ (out : TessOut F32) (L : List (Pt ℚ)),
    tesellateCpu 4 8 ⟨3, 3, 9, 14, 0, 0, false, false⟩ (tiny4.map storePt) = .ok out ∧
    out.xyz = L.map storePt ∧ L.Perm tiny4 ∧ Navigable L out.dnn :=
  C84_float tiny4_sizes tiny4_input tiny4_margins tiny4_room

/-- fifteen points in exact arithmetic, eleven candidates: the walks arrive, and the first entry of every row is a
nearest other point -/
example : ∃ out, tesellateCpu 4 8 ⟨11, 3, 17, 30, 0, 0, false, false⟩ fifteen = .ok out ∧ Navigable out.xyz out.dnn ∧
    ∀ i p, out.xyz[i]? = some p → ∃ (w : Nat) (q : Pt ℚ), out.dnn.at i 0 = .ok (w : Int) ∧ w ≠ i ∧
      out.xyz[w]? = some q ∧ ∀ (j : Nat) (r : Pt ℚ), j ≠ i → out.xyz[j]? = some r → sqDist p q ≤ sqDist p r := by
  obtain ⟨out, h1, h2, -⟩ := C81_report fifteen_exact rfl (by decide) (by decide) (by decide)
  have h0 := h2 fifteen_enough
  obtain ⟨out', e1, -, e2⟩ := C84_exact fifteen_exact rfl
  rw [h1] at e1; cases e1
  obtain ⟨out', f1, f2⟩ := C84_first fifteen_exact rfl (by decide) (by decide) (by decide +kernel)
  rw [h1] at f1; cases f1
  exact ⟨out, h1, e2 (Or.inl h0), f2 h0⟩

end Votess
