import Verif.Proofs.IntMargin
import Verif.Spec.Enough
/-! A test, in integers, for the number of candidates a cell needs. -/
namespace Votess.IntM

/-- go through at most `k` other points in order of distance, up to one that is beyond the cell -/
def goE (S : Int) (P : Pt Int) : Nat → List IPl → List ICo → List (Pt Int) → Bool
  | 0, _, _, _ => false
  | _ + 1, _, _, [] => false
  | k + 1, bs, cs, q :: rest =>
    let R := isq P q
    decide (0 < R) && (rest.all fun q' => decide (R < isq P q')) &&
      ((cs.all fun c => decide (4 * c.far P < R * (c.w * c.w))) ||
        goE S P k (bis P q :: bs) (addPl S bs cs (bis P q)) rest)

def enoughI (S : Int) (k : Nat) (M : List (Pt Int)) (i : Nat) (P : Pt Int) : Bool :=
  goE S P k [] (boxCorners S) ((M.eraseIdx i).insertionSort fun a b => isq P a ≤ isq P b)

/-- the test for all points -/
def allEnoughI (S : Int) (k : Nat) (M : List (Pt Int)) : Bool := M.zipIdx.all fun e => enoughI S k M e.2 e.1

section
variable {S : Int} (hS : 0 < S)
include hS

theorem goE_sound {P : Pt Int} {X : List (Pt ℚ)} : ∀ (k : Nat) (rest done : List (Pt Int)) (cs : List ICo),
    X.Perm (scale S P :: (done ++ rest).map (scale S)) →
    (∀ d ∈ done, ∀ r ∈ rest, isq P d < isq P r) →
    Rep S P done cs → goE S P k (done.map (bis P)) cs rest = true →
    ∃ q ∈ rest.map (scale S), Beyond X (scale S P) q ∧ (notBeyond X (scale S P) q).length ≤ done.length + k + 1
  | 0, _, _, _, _, _, _, h => by simp [goE] at h
  | _ + 1, [], _, _, _, _, _, h => by simp [goE] at h
  | k + 1, q :: rest, done, cs, hX, hord, hr, h => by
    unfold goE at h
    simp only [Bool.and_eq_true, Bool.or_eq_true, decide_eq_true_eq] at h
    obtain ⟨⟨hR, hsep⟩, hrad⟩ := h
    have h1 := Sq hS
    have hlt : ∀ a b : Pt Int, sqDist (scale S P) (scale S a) < sqDist (scale S P) (scale S b) ↔ isq P a < isq P b := by
      intro a b
      rw [sq_scale hS, sq_scale hS, div_lt_div_iff_of_pos_right (by positivity)]
      exact_mod_cast Iff.rfl
    have hltr : ∀ q' ∈ rest, isq P q < isq P q' := fun q' hq' => of_decide_eq_true (List.all_eq_true.mp hsep q' hq')
    rcases hrad with hnear | hgo
    · refine ⟨scale S q, by simp, ?_, ?_⟩
      · have hclose : ∀ c, c ∈ closerTo X (scale S P) (scale S q) ↔ c = scale S P ∨ c ∈ done.map (scale S) := by
          intro c
          unfold closerTo
          rw [List.mem_filter, decide_eq_true_eq, hX.mem_iff, List.mem_cons]
          constructor
          · rintro ⟨rfl | hc, hd⟩
            · exact Or.inl rfl
            · rw [List.mem_map] at hc
              obtain ⟨d, hd', rfl⟩ := hc
              rw [hlt] at hd
              rcases List.mem_append.mp hd' with h | h
              · exact Or.inr (List.mem_map.mpr ⟨d, h, rfl⟩)
              · rcases List.mem_cons.mp h with rfl | h
                · exact absurd hd (lt_irrefl _)
                · exact absurd hd (not_lt.mpr (hltr d h).le)
          · rintro (rfl | hc)
            · refine ⟨Or.inl rfl, ?_⟩
              rw [sq_scale hS, sq_scale hS, div_lt_div_iff_of_pos_right (by positivity)]
              have e : isq P P = 0 := by unfold isq; ring
              rw [e]; exact_mod_cast hR
            · rw [List.mem_map] at hc
              obtain ⟨d, hd, rfl⟩ := hc
              exact ⟨Or.inr (List.mem_map.mpr ⟨d, List.mem_append_left _ hd, rfl⟩), (hlt d q).mpr (hord d hd q (by simp))⟩
        rw [beyond_iff]
        intro v D hv
        obtain ⟨c, hc, rfl, -⟩ := hr.2 v D ((corner_self hclose v D).mp hv)
        have hw := (hr.1 c hc).1
        have hw' : (0 : ℚ) < c.w := by exact_mod_cast hw
        have := of_decide_eq_true (List.all_eq_true.mp hnear c hc)
        have e : sqDist (scale S q) (scale S P) = sqDist (scale S P) (scale S q) := by unfold sqDist; ring
        rw [e, sq_scale hS, far_eq hS hw, ← mul_div_assoc, div_lt_div_iff₀ (by positivity) (by positivity)]
        have h2 : (4 : ℚ) * c.far P < isq P q * (c.w * c.w) := by exact_mod_cast this
        have := mul_lt_mul_of_pos_right h2 (show (0 : ℚ) < S * S by positivity)
        linarith
      · unfold notBeyond
        rw [(hX.filter _).length_eq, List.map_append, List.map_cons, List.filter_cons, List.filter_append, List.filter_cons]
        have e : (rest.map (scale S)).filter (fun c => decide (sqDist (scale S P) c ≤ sqDist (scale S P) (scale S q))) = [] := by
          rw [List.filter_eq_nil_iff]
          intro c hc
          obtain ⟨r, hr', rfl⟩ := List.mem_map.mp hc
          rw [decide_eq_true_eq, not_le, hlt]
          exact hltr r hr'
        rw [e]
        have hd := List.length_filter_le (fun c => decide (sqDist (scale S P) c ≤ sqDist (scale S P) (scale S q))) (done.map (scale S))
        rw [List.length_map] at hd
        split <;> split <;> simp only [List.length_cons, List.length_append, List.length_nil] <;> omega
    · obtain ⟨q', q1, q2, q3⟩ := goE_sound k rest (q :: done) (addPl S (done.map (bis P)) cs (bis P q))
        (hX.trans (by
          refine List.Perm.cons _ (List.Perm.map _ ?_)
          rw [List.cons_append]
          exact List.perm_middle))
        (fun d hd r hr' => by
          rcases List.mem_cons.mp hd with rfl | hd
          · exact hltr r hr'
          · exact hord d hd r (by simp [hr']))
        (rep_add hS hr) (by rw [List.map_cons]; exact hgo)
      refine ⟨q', List.mem_cons_of_mem _ q1, q2, q3.trans ?_⟩
      rw [List.length_cons]; omega

theorem enoughI_sound {k : Nat} {M : List (Pt Int)} {i : Nat} {P : Pt Int} (hi : M[i]? = some P)
    (h : enoughI S k M i P = true) : Enough k (M.map (scale S)) i (scale S P) := by
  unfold enoughI at h
  have hperm := List.perm_insertionSort (fun a b => isq P a ≤ isq P b) (M.eraseIdx i)
  have hil : i < M.length := (List.getElem?_eq_some_iff.mp hi).1
  have hMp : M.Perm (P :: M.eraseIdx i) := by
    have := (List.getElem_cons_eraseIdx_perm hil).symm
    rwa [(List.getElem?_eq_some_iff.mp hi).2] at this
  obtain ⟨q, q1, q2, q3⟩ := goE_sound hS (P := P) (X := M.map (scale S)) k _ [] (boxCorners S)
    ((hMp.trans (hperm.symm.cons _)).map (scale S)) (by simp) (rep_box hS P) h
  have hp' := hperm.map (scale S)
  rw [← List.eraseIdx_map] at hp'
  exact ⟨q, hp'.mem_iff.mp q1, q2, by simpa using q3⟩

theorem allEnoughI_sound {k : Nat} {M : List (Pt Int)} (h : allEnoughI S k M = true) :
    AllEnough k (M.map (scale S)) := by
  intro i p hp
  rw [List.getElem?_map, Option.map_eq_some_iff] at hp
  obtain ⟨P, hP, rfl⟩ := hp
  unfold allEnoughI at h
  rw [List.all_eq_true] at h
  exact enoughI_sound hS hP (h (P, i) (List.mem_zipIdx_iff_getElem?.mpr hP))

end

end Votess.IntM
