import Verif.Proofs.MarginBase
/-! The candidates an exact cell computation comes to are candidates that matter. -/
namespace Votess

variable {K : Type} [Field K] [LinearOrder K] [IsStrictOrderedRing K] [FloorRing K]

theorem radius_attained (p : Pt K) : ∀ (vs : List (Pt K)) (r : K),
    vs.foldl (fun sr v => srUpdate p v.x v.y v.z sr) r = r ∨
    ∃ v ∈ vs, vs.foldl (fun sr v => srUpdate p v.x v.y v.z sr) r = sqDist p v := by
  intro vs
  induction vs with
  | nil => intro r; left; rfl
  | cons v vs ih =>
    intro r
    rw [List.foldl_cons, srUpdate_eq]
    rcases ih (max r (sqDist p v)) with h | ⟨w, h1, h2⟩
    · rw [h]
      rcases max_choice r (sqDist p v) with e | e
      · left; exact e
      · right; exact ⟨v, List.mem_cons_self, e⟩
    · right; exact ⟨w, List.mem_cons_of_mem _ h1, h2⟩

/-- if the loop goes on, the cell reaches half way to the candidate -/
theorem ccStep_next_near {a : CCArgs} {L : List (Pt K)} {knn : List Int} {p : Pt K} {dk0 : List Int} {nb : Nat} {b : Bool}
    {s s' : CCState K} (hc : Ctx a L knn) (hp : InUnitBox p) (hf : CellFull a L knn p dk0 nb b s) (hnb : nb < a.k)
    (hstep : ccStep a L knn p nb s = .ok (.next s')) :
    ∃ x, InCell s.psize (inward s.P) x ∧ sqDist (candPt L knn nb) p ≤ 4 * sqDist x p := by
  obtain ⟨qi, q, hq, hq'⟩ := hc.ids nb hnb
  rw [candPt_eq hq hq']
  obtain ⟨kept, R, sr, vs, o, h1, h2, h3, h4, h5, h6, h7⟩ := ccStep_spec hc.pm (p := p) hf.inv hnb hq hq'
  rw [hstep] at h1
  injection h1 with h1
  have hpin : InCell s.psize (inward s.P) p := (hf.geo.cell p).mpr ⟨hp, fun i hi => by
    have : sqDist p p = 0 := by simp [sqDist]
    rw [this]; exact sqDist_nonneg _ _⟩
  have hsr : sr = 0 ∨ ∃ x, InCell s.psize (inward s.P) x ∧ sr = sqDist p x := by
    have e : (vs.map (vtx s.P)).foldl (fun sr v => srUpdate p v.x v.y v.z sr) (FP.ofInt 0)
        = (vs.map (fun t => tv (inward s.P) t)).foldl (fun sr v => srUpdate p v.x v.y v.z sr) 0 := by
      rw [List.foldl_map, List.foldl_map]
      have e0 : (FP.ofInt 0 : K) = 0 := by simp [FP.ofInt]
      rw [e0]
      congr 1
      funext sr t
      have := vtx_pt s.P t
      rw [← this]; rfl
    rw [h5, e]
    rcases radius_attained p (vs.map fun t => tv (inward s.P) t) 0 with h | ⟨v, hv, h⟩
    · left; exact h
    · right
      obtain ⟨t, ht, rfl⟩ := List.mem_map.mp hv
      exact ⟨_, hf.geo.poly.feasible ((h6 t).mp ht), h⟩
  have key : ∀ s1 : CCState K, ccFinish p q sr s1 = .next s' → ∃ x, InCell s.psize (inward s.P) x ∧ sqDist q p ≤ 4 * sqDist x p := by
    intro s1 hs1
    rw [ccFinish_eq] at hs1
    split at hs1
    · cases hs1
    · rename_i hr
      rw [srReached_eq, not_lt, sqDist_comm] at hr
      rcases hsr with h | ⟨x, h, e⟩
      · refine ⟨p, hpin, ?_⟩
        rw [h] at hr
        have : sqDist p p = 0 := by simp [sqDist]
        rw [this]; exact hr
      · refine ⟨x, h, ?_⟩
        rw [sqDist_comm x p, ← e]; exact hr
  subst h1
  generalize ho : CCStep.next s' = o at h7
  cases h7
  case keep => exact key _ ho.symm
  case poverflow => cases ho
  case infinite => cases ho
  case toverflow => cases ho
  case clip => exact key _ ho.symm

/-- the candidates the computation went past are not beyond the cell -/
theorem reach_not_beyond {a : CCArgs} {L : List (Pt K)} {index : Nat} {p : Pt K} {P : List (Plane K)} {T : List Tri}
    {dR : List Nat} {knn dknn : List Int} {id : Nat → Nat} {pt : Nat → Pt K}
    (hin : CellInput a L index P T dR knn dknn) (hpb : InUnitBox p) (hp : L[index]? = some p)
    (hv : KnnView L index p a.k knn id pt) {s0 : CCState K} (hs0 : ccInit .init P T dR dknn = .ok s0) {nb : Nat}
    {s : CCState K} (hr : CellReach a L knn p s0 nb false s) : ∀ m, m < nb → ¬ Beyond L p (pt m) := by
  have key : ∀ (nb : Nat) (b : Bool) (s : CCState K), CellReach a L knn p s0 nb b s → b = false →
      ∀ m, m < nb → ¬ Beyond L p (pt m) := by
    intro nb b s hr
    induction hr with
    | init => intro _ m hm; omega
    | @next nb s s' hr hk hstep ih =>
      intro _ m hm
      rcases Nat.lt_or_ge m nb with h | h
      · exact ih rfl m h
      · have : m = nb := by omega
        subst this
        have hf := reach_full hin hpb hs0 hr
        obtain ⟨x, h1, h2⟩ := ccStep_next_near hin.pre.ctx hpb hf hk hstep
        rw [hv.cand m hk] at h2
        intro hb
        have h3 := hb x (by
          obtain ⟨c1, c2⟩ := (hf.geo.cell x).mp h1
          refine ⟨c1, fun c hc => ?_⟩
          rcases hv.closer hp hk hc with rfl | ⟨m', h4, rfl⟩
          · exact le_refl _
          · rw [← hv.cand m' (by omega)]; exact c2 m' h4)
        linarith
    | brk _ _ _ _ => intro h; cases h
  exact key nb false s hr rfl

/-- a candidate the computation comes to matters -/
theorem reach_matters {a : CCArgs} {L : List (Pt K)} {index : Nat} {p : Pt K} {P : List (Plane K)} {T : List Tri}
    {dR : List Nat} {knn dknn : List Int} {id : Nat → Nat} {pt : Nat → Pt K}
    (hin : CellInput a L index P T dR knn dknn) (hpb : InUnitBox p) (hp : L[index]? = some p)
    (hv : KnnView L index p a.k knn id pt) {s0 : CCState K} (hs0 : ccInit .init P T dR dknn = .ok s0) {nb : Nat}
    (hnb : nb < a.k) {s : CCState K} (hr : CellReach a L knn p s0 nb false s) : Matters L p (pt nb) := by
  intro c hc
  rcases hv.closer hp hnb hc with rfl | ⟨m', h4, rfl⟩
  · exact not_beyond_self hpb
  · exact reach_not_beyond hin hpb hp hv hs0 hr m' h4

end Votess
