import Verif.Spec.Enough
import Verif.Proofs.MarginReach
/-! When the security radius is reached. -/
namespace Votess

variable {K : Type} [Field K] [LinearOrder K] [IsStrictOrderedRing K] [FloorRing K]

/-- with fewer candidates than points there is no padding -/
theorem knn_finite {L : List (Pt K)} {i : Nat} {p : Pt K} {k : Nat} {E : List (Int × WithTop K)} (h : KnnSpec L i p k E)
    (hi : i < L.length) (hk : k < L.length) : ∀ e ∈ E, e.2 ≠ ⊤ := by
  obtain ⟨hlen, -, rest, hperm, hle⟩ := h
  intro e he htop
  haveI : Inhabited K := ⟨0⟩
  have hfp := (filter_fin_spec hperm).length_eq
  have hr : rest.filter fin = [] := by
    rw [List.filter_eq_nil_iff]
    intro y hy
    have := hle e he y hy
    rw [htop, top_le_iff] at this
    simp [fin, this]
  rw [hr, List.append_nil, otherPoints_length _ _ _ hi] at hfp
  have h1 : (E.filter fin).length = E.length :=
    le_antisymm (List.length_filter_le _ _) (by omega)
  have h2 := List.length_filter_eq_length_iff.mp h1 e he
  simp [fin, htop] at h2

/-- a point that so few are as close as is among the candidates -/
theorem KnnView.found {L : List (Pt K)} {i : Nat} {p : Pt K} {k : Nat} {ids : List Int} {id : Nat → Nat} {pt : Nat → Pt K}
    (h : KnnView L i p k ids id pt) (hp : L[i]? = some p) {w : Nat} {c : Pt K} (hw : L[w]? = some c) (hwi : w ≠ i)
    (hr : (notBeyond L p c).length ≤ k + 1) : ∃ m, m < k ∧ id m = w := by
  by_contra hno
  have hno' : ∀ m, m < k → id m ≠ w := fun m hm he => hno ⟨m, hm, he⟩
  have hle : ∀ m, m < k → sqDist (pt m) p ≤ sqDist c p := by
    intro m hm
    by_contra hc
    obtain ⟨m', h1, h2⟩ := h.before m hm w c hw hwi (not_le.mp hc)
    exact hno' m' (by omega) h2
  have hnd : (i :: w :: (List.range k).map id).Nodup := by
    rw [List.nodup_cons, List.nodup_cons]
    refine ⟨?_, ?_, ?_⟩
    · intro hm
      rcases List.mem_cons.mp hm with e | hm
      · exact hwi e.symm
      · obtain ⟨m, h1, h2⟩ := List.mem_map.mp hm
        exact h.other m (List.mem_range.mp h1) h2
    · intro hm
      obtain ⟨m, h1, h2⟩ := List.mem_map.mp hm
      exact hno' m (List.mem_range.mp h1) h2
    · unfold List.Nodup
      rw [List.pairwise_map]
      refine List.pairwise_lt_range.imp_of_mem ?_
      intro a b ha hb hab
      exact h.nodup a b hab (List.mem_range.mp hb)
  have := le_length_filter (L := L) (f := fun x => decide (sqDist p x ≤ sqDist p c)) hnd (by
    intro j hj
    rcases List.mem_cons.mp hj with rfl | hj
    · refine ⟨p, hp, decide_eq_true ?_⟩
      have : sqDist p p = 0 := by simp [sqDist]
      rw [this]; exact sqDist_nonneg _ _
    · rcases List.mem_cons.mp hj with rfl | hj
      · exact ⟨c, hw, decide_eq_true (le_refl _)⟩
      · obtain ⟨m, h1, rfl⟩ := List.mem_map.mp hj
        refine ⟨pt m, h.site m (List.mem_range.mp h1), decide_eq_true ?_⟩
        rw [sqDist_comm p (pt m), sqDist_comm p c]
        exact hle m (List.mem_range.mp h1))
  unfold notBeyond at hr
  simp only [List.length_cons, List.length_map, List.length_range] at this
  omega

/-- the point opposite to `p` -/
theorem four_of_closer {p q x : Pt K} (h : ∀ q', sqDist q p ≤ sqDist q' p → sqDist x p < sqDist x q') :
    4 * sqDist x p < sqDist q p := by
  by_contra hc
  have := h ⟨2 * x.x - p.x, 2 * x.y - p.y, 2 * x.z - p.z⟩ (by
    refine (not_lt.mp hc).trans (le_of_eq ?_)
    simp only [sqDist]; ring)
  refine absurd this (not_lt.mpr (le_of_eq ?_))
  simp only [sqDist]; ring

section cell
variable {a : CCArgs} {xyz : List (Pt K)} {index : Nat} {p : Pt K} {res : List (Int × WithTop K)} {o : CCOut K}

/-- the security radius is reached if there are enough candidates -/
theorem reached_of_enough (h : CellJob a xyz index p res o) (hk : a.k < xyz.length) (hok : NoError o.s.state)
    (he : Enough a.k xyz index p) : o.s.state.get .security_radius_reached = true := by
  obtain ⟨P, T, dR, hP, hT, hd, hrun⟩ := h.run
  have hin := h.input hP hT hd
  have hi := (List.getElem?_eq_some_iff.mp h.self).1
  have hself : rdI xyz (index : Int) = .ok p := rdI_eq_ok.mpr ⟨by omega, by simpa using h.self⟩
  obtain ⟨s0, i1, -⟩ := ccInit_spec .init xyz (res.map (·.1)) p hin.plen hin.tlen hin.dlen hin.dklen
    hin.pm6 hin.tm8
  obtain ⟨nb, b, r1, r2, r3, -⟩ := ccCompute_reach State.get_init hin.pre hself i1 hrun hok
  rw [r3]
  cases b with
  | true => rfl
  | false =>
    exfalso
    obtain ⟨id, pt, hv⟩ := knn_view h.knn (knn_finite h.knn hi hk)
    obtain ⟨c, c1, c2, c3⟩ := he
    obtain ⟨w, hw, hwi⟩ : ∃ w : Nat, xyz[w]? = some c ∧ w ≠ index := by
      obtain ⟨j, hj⟩ := List.getElem?_of_mem c1
      rw [List.getElem?_eraseIdx] at hj
      split at hj
      · exact ⟨j, hj, by omega⟩
      · exact ⟨j + 1, hj, by omega⟩
    obtain ⟨m, m1, m2⟩ := hv.found h.self hw hwi c3
    have hpt : pt m = c := by
      have := hv.site m m1
      rw [m2, hw] at this
      cases this; rfl
    have := r2 rfl
    subst this
    exact reach_not_beyond hin h.box h.self hv i1 r1 m m1 (hpt ▸ c2)

/-- and only then, if no other point is as far as one that matters -/
theorem enough_of_reached (h : CellJob a xyz index p res o) (hk : a.k < xyz.length) (hok : NoError o.s.state)
    (ht : NoTies xyz index p) (hr : o.s.state.get .security_radius_reached = true) : Enough a.k xyz index p := by
  obtain ⟨P, T, dR, hP, hT, hd, hrun⟩ := h.run
  have hin := h.input hP hT hd
  have hi := (List.getElem?_eq_some_iff.mp h.self).1
  have hself : rdI xyz (index : Int) = .ok p := rdI_eq_ok.mpr ⟨by omega, by simpa using h.self⟩
  obtain ⟨s0, i1, -⟩ := ccInit_spec .init xyz (res.map (·.1)) p hin.plen hin.tlen hin.dlen hin.dklen
    hin.pm6 hin.tm8
  obtain ⟨nb, b, r1, r2, r3, -⟩ := ccCompute_reach State.get_init hin.pre hself i1 hrun hok
  rw [hr] at r3
  subst r3
  obtain ⟨id, pt, hv⟩ := knn_view h.knn (knn_finite h.knn hi hk)
  cases r1 with
  | @brk nb s s' hrc hnb hstep =>
    have hmat := reach_matters hin h.box h.self hv i1 hnb hrc
    have hf := reach_full hin h.box i1 hrc
    obtain ⟨-, g2⟩ := (ccStep_geo hin.pre.ctx h.box hnb hf.inv hf.geo hstep).2.2 _ rfl
    rw [hv.cand nb hnb] at g2
    -- distances of the others differ from that of this candidate
    have hne : ∀ (w : Nat) (c : Pt K), xyz[w]? = some c → w ≠ index → w ≠ id nb → sqDist c p ≠ sqDist (pt nb) p := by
      intro w c hw hwi hwn
      obtain ⟨a1, a2⟩ := List.getElem?_eq_some_iff.mp (getElem?_eraseIdx_of hw hwi)
      obtain ⟨b1, b2⟩ := List.getElem?_eq_some_iff.mp (getElem?_eraseIdx_of (hv.site nb hnb) (hv.other nb hnb))
      have key := List.pairwise_iff_getElem.mp ht
      have hoth := hv.other nb hnb
      have hd' : (if w < index then w else w - 1) ≠ (if id nb < index then id nb else id nb - 1) := by
        split <;> split <;> omega
      rcases Nat.lt_or_gt_of_ne hd' with hl | hl
      · have := key _ _ a1 b1 hl
        rw [a2, b2] at this; exact this (Or.inr hmat)
      · have := key _ _ b1 a1 hl
        rw [a2, b2] at this; exact (this (Or.inl hmat)).symm
    refine ⟨pt nb, MarginsBy.mem (hv.site nb hnb) (hv.other nb hnb), ?_, ?_⟩
    · intro v hvc
      refine four_of_closer (g2 v ((hf.geo.cell v).mpr ⟨hvc.1, fun m hm => hvc.2 _ ?_⟩))
      rw [hv.cand m (by omega)]
      unfold closerTo
      rw [List.mem_filter, decide_eq_true_eq, sqDist_comm p, sqDist_comm p]
      exact ⟨List.mem_of_getElem? (hv.site m (by omega)), lt_of_le_of_ne (hv.sorted m nb hm hnb)
        (hne _ _ (hv.site m (by omega)) (hv.other m (by omega)) (hv.nodup m nb hm hnb))⟩
    · have : (notBeyond xyz p (pt nb)).length ≤ (index :: (List.range (nb + 1)).map id).length := by
        refine length_filter_le fun j q hj hq => ?_
        rw [decide_eq_true_eq, sqDist_comm p q, sqDist_comm p (pt nb)] at hq
        by_cases hji : j = index
        · rw [hji]; exact List.mem_cons_self
        · refine List.mem_cons_of_mem _ (List.mem_map.mpr ?_)
          by_cases hjn : j = id nb
          · exact ⟨nb, List.mem_range.mpr (by omega), hjn.symm⟩
          · obtain ⟨m', h1, h2⟩ := hv.before nb hnb j q hj hji (lt_of_le_of_ne hq (hne j q hj hji hjn))
            exact ⟨m', List.mem_range.mpr (by omega), h2⟩
      simp only [List.length_cons, List.length_map, List.length_range] at this
      omega

end cell

/-! ### the set counts -/

theorem Enough.perm {k : Nat} {L L' : List (Pt K)} (h : L.Perm L') {i i' : Nat} {p : Pt K} (hi : L[i]? = some p)
    (hi' : L'[i']? = some p) (he : Enough k L i p) : Enough k L' i' p := by
  obtain ⟨c, h1, h2, h3⟩ := he
  refine ⟨c, (eraseIdx_perm h hi hi').mem_iff.mp h1, beyond_perm h h2, ?_⟩
  unfold notBeyond at h3 ⊢
  rwa [← (h.filter _).length_eq]

theorem AllEnough.perm {k : Nat} {L L' : List (Pt K)} (h : L.Perm L') (he : AllEnough k L) : AllEnough k L' := by
  intro i p hp
  obtain ⟨j, hj⟩ := List.getElem?_of_mem (h.mem_iff.mpr (List.mem_of_getElem? hp))
  exact (he j p hj).perm h hj hp

theorem NoTies.perm {L L' : List (Pt K)} (h : L.Perm L') {i i' : Nat} {p : Pt K} (hi : L[i]? = some p)
    (hi' : L'[i']? = some p) (hn : NoTies L i p) : NoTies L' i' p := by
  refine ((eraseIdx_perm h hi hi').pairwise_iff (fun {a b} hab hm => (hab hm.symm).symm)).mp (hn.imp fun {a b} hab hm => ?_)
  exact hab (hm.imp (matters_perm h.symm) (matters_perm h.symm))

theorem Enough.mono {k k' : Nat} (hk : k ≤ k') {L : List (Pt K)} {i : Nat} {p : Pt K} (he : Enough k L i p) :
    Enough k' L i p := by
  obtain ⟨c, h1, h2, h3⟩ := he
  exact ⟨c, h1, h2, by omega⟩

theorem MarginsBy.noTies {μ : ℚ} (hμ : 0 < μ) {L : List (Pt ℚ)} {i : Nat} {p : Pt ℚ} (h : MarginsBy μ L i p) :
    NoTies L i p := by
  refine h.sep.imp fun {q q'} hab hm he => ?_
  rw [he, sub_self, abs_zero] at hab
  rcases hm with hm | hm
  · exact absurd (hab.1 hm) (not_lt.mpr (mul_nonneg (by positivity) (span_pos p _).le))
  · exact absurd (hab.2 hm) (not_lt.mpr (mul_nonneg (by positivity) (span_pos p _).le))

end Votess
