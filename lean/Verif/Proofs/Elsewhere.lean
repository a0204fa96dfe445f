import Verif.Proofs.MarginGeneral
import Verif.Props.Tessellation
/-! Points that do not matter for a cell may be changed. -/
namespace Votess

variable {X Y : List (Pt ℚ)} {p c : Pt ℚ}

theorem sqDist_swap (p q : Pt ℚ) : sqDist p q = sqDist q p := by simp only [sqDist]; ring

/-- the lists agree closer than `q` if they agree closer than `c`, which is farther away -/
theorem closerTo_agree (h : (closerTo X p c).Perm (closerTo Y p c)) {q : Pt ℚ} (hq : sqDist p q ≤ sqDist p c) :
    (closerTo X p q).Perm (closerTo Y p q) := by
  have e : ∀ L : List (Pt ℚ), closerTo L p q = (closerTo L p c).filter fun d => decide (sqDist p d < sqDist p q) := by
    intro L
    unfold closerTo
    rw [List.filter_filter]
    refine List.filter_congr fun d _ => ?_
    by_cases hd : sqDist p d < sqDist p q
    · simp [hd, lt_of_lt_of_le hd hq]
    · simp [hd]
  rw [e X, e Y]
  exact h.filter _

theorem mem_agree (h : (closerTo X p c).Perm (closerTo Y p c)) {q : Pt ℚ} (hX : q ∈ X)
    (hq : sqDist p q < sqDist p c) : q ∈ Y := by
  have : q ∈ closerTo Y p c := h.mem_iff.mp (List.mem_filter.mpr ⟨hX, decide_eq_true hq⟩)
  exact List.mem_of_mem_filter this

theorem beyond_agree (h : (closerTo X p c).Perm (closerTo Y p c)) {q : Pt ℚ} (hq : sqDist p q ≤ sqDist p c) :
    Beyond X p q ↔ Beyond Y p q := by
  have e := closerTo_agree h hq
  exact ⟨fun hb v hv => hb v ⟨hv.1, fun d hd => hv.2 d (e.mem_iff.mp hd)⟩,
    fun hb v hv => hb v ⟨hv.1, fun d hd => hv.2 d (e.mem_iff.mpr hd)⟩⟩

theorem matters_agree (h : (closerTo X p c).Perm (closerTo Y p c)) {q : Pt ℚ} (hq : sqDist p q ≤ sqDist p c) :
    Matters X p q ↔ Matters Y p q := by
  have e := closerTo_agree h hq
  have cl : ∀ {L : List (Pt ℚ)} {d}, d ∈ closerTo L p q → sqDist p d ≤ sqDist p c := fun hd =>
    (of_decide_eq_true (List.mem_filter.mp hd).2).le.trans hq
  exact ⟨fun hm d hd hb => hm d (e.mem_iff.mpr hd) ((beyond_agree h (cl hd)).mpr hb),
    fun hm d hd hb => hm d (e.mem_iff.mp hd) ((beyond_agree h (cl hd)).mp hb)⟩

/-- a point that matters is closer than one that does not -/
theorem Matters.lt {L : List (Pt ℚ)} {q : Pt ℚ} (hc : ¬ Matters L p c) (hq : Matters L p q) : sqDist p q < sqDist p c := by
  by_contra hlt
  exact hc fun d hd => hq d (List.mem_filter.mpr ⟨List.mem_of_mem_filter hd,
    decide_eq_true (lt_of_lt_of_le (of_decide_eq_true (List.mem_filter.mp hd).2) (not_lt.mp hlt))⟩)

/-- the cell is the same -/
theorem cell_agree (h : (closerTo X p c).Perm (closerTo Y p c)) (hc : ¬ Matters X p c) {x : Pt ℚ}
    (hx : VoronoiCell p X x) : VoronoiCell p Y x := by
  refine ⟨hx.1, fun d hd => ?_⟩
  by_cases hdc : sqDist p d < sqDist p c
  · exact hx.2 d (mem_agree h.symm hd hdc)
  · unfold Matters at hc
    push Not at hc
    obtain ⟨b, b1, b2⟩ := hc
    have h1 := b2 x ⟨hx.1, fun e he => hx.2 e (List.mem_of_mem_filter he)⟩
    have h2 := of_decide_eq_true (List.mem_filter.mp b1).2
    rw [sqDist_swap p b] at h2
    rw [sqDist_swap p d] at hdc
    exact (closer_of_sqDist p d x (by linarith [not_lt.mp hdc])).le

theorem touch_agree (h : (closerTo X p c).Perm (closerTo Y p c)) (hc : ¬ Matters X p c) (hp : p ∈ X) {q : Pt ℚ}
    (hq : q ∈ X) (ht : Touch X p q) : q ∈ Y ∧ Touch Y p q := by
  obtain ⟨x, h1, h2⟩ := ht
  have e : sqDist x p = sqDist x q := le_antisymm (h1.2 q hq) (h2.2 p hp)
  have hm := Matters.of_touch h1 e
  have hl := Matters.lt hc hm
  have h3 := cell_agree h hc h1
  exact ⟨mem_agree h hq hl, x, h3, h3.1, fun d hd => by rw [← e]; exact h3.2 d hd⟩

theorem not_matters_agree (h : (closerTo X p c).Perm (closerTo Y p c)) (hc : ¬ Matters X p c) : ¬ Matters Y p c :=
  fun hm => hc ((matters_agree h le_rfl).mpr hm)

/-- the points that are listed as neighbours are the same -/
theorem sites_agree (h : (closerTo X p c).Perm (closerTo Y p c)) (hc : ¬ Matters X p c) {i j : Nat} {row row' : List Int}
    (hp : X[i]? = some p) (hp' : Y[j]? = some p) (c1 : CorrectRow X i p row) (e1 : ExactRow X i p row)
    (c2 : CorrectRow Y j p row') (e2 : ExactRow Y j p row') (q : Pt ℚ) : q ∈ sitesOf X row ↔ q ∈ sitesOf Y row' := by
  rw [row_sites c1 e1 hp, row_sites c2 e2 hp']
  have m1 := List.mem_of_getElem? hp
  have m2 := List.mem_of_getElem? hp'
  constructor
  · rintro ⟨a, b, t⟩
    obtain ⟨a', t'⟩ := touch_agree h hc m1 a t
    exact ⟨a', b, t'⟩
  · rintro ⟨a, b, t⟩
    obtain ⟨a', t'⟩ := touch_agree h.symm (not_matters_agree h hc) m2 a t
    exact ⟨a', b, t'⟩

theorem pairwise_perm_symm {α : Type} {R : α → α → Prop} (hs : ∀ a b, R a b → R b a) {l l' : List α} (h : l.Perm l')
    (hl : l.Pairwise R) : l'.Pairwise R := (h.pairwise_iff fun {a b} => hs a b).mp hl

/-- the margins carry over -/
theorem MarginsBy.elsewhere {m : ℚ} (h : (closerTo X p c).Perm (closerTo Y p c)) (hcX : c ∈ X) (hc : ¬ Matters X p c)
    {i j : Nat} (hp : X[i]? = some p) (hp' : Y[j]? = some p) (hm : MarginsBy m X i p) : MarginsBy m Y j p := by
  have hc' := not_matters_agree h hc
  have hpc : sqDist p p < sqDist p c := by
    unfold Matters at hc
    push Not at hc
    obtain ⟨b, b1, -⟩ := hc
    have h2 := of_decide_eq_true (List.mem_filter.mp b1).2
    have h0 : sqDist p p = 0 := by simp [sqDist]
    rw [h0]
    exact lt_of_le_of_lt (sqDist_nonneg _ _) h2
  have hne : c ∈ X.eraseIdx i := by
    obtain ⟨w, hw⟩ := List.getElem?_of_mem hcX
    refine List.mem_of_getElem? (getElem?_eraseIdx_of hw ?_)
    rintro rfl
    rw [hp] at hw
    cases hw
    exact lt_irrefl _ hpc
  -- the other points closer than `c`
  have near : ((X.eraseIdx i).filter fun d => decide (sqDist p d < sqDist p c)).Perm
      ((Y.eraseIdx j).filter fun d => decide (sqDist p d < sqDist p c)) := by
    have key : ∀ {L : List (Pt ℚ)} {i : Nat}, L[i]? = some p →
        (p :: (L.eraseIdx i).filter fun d => decide (sqDist p d < sqDist p c)).Perm (closerTo L p c) := by
      intro L i hp
      obtain ⟨a1, a2⟩ := List.getElem?_eq_some_iff.mp hp
      have e := (List.getElem_cons_eraseIdx_perm a1).filter fun d => decide (sqDist p d < sqDist p c)
      rw [a2, List.filter_cons_of_pos (by simpa using hpc)] at e
      exact e
    exact ((key hp).trans (h.trans (key hp').symm)).cons_inv
  have memX : ∀ {q}, q ∈ Y.eraseIdx j → sqDist p q < sqDist p c → q ∈ X.eraseIdx i := fun {q} hq hl =>
    List.mem_of_mem_filter (near.mem_iff.mpr (List.mem_filter.mpr ⟨hq, decide_eq_true hl⟩))
  have corner : ∀ {q}, sqDist p q ≤ sqDist p c → ∀ v f g k, Meet p (closerTo X p q) v f g k ↔ Meet p (closerTo Y p q) v f g k := by
    intro q hq v f g k
    have e := closerTo_agree h hq
    have e2 : ∀ f, f ∈ boundaryPlanes p (closerTo X p q) ↔ f ∈ boundaryPlanes p (closerTo Y p q) := by
      intro f
      unfold boundaryPlanes
      rw [List.mem_append, List.mem_append, (e.map _).mem_iff]
    have e3 : VoronoiCell p (closerTo X p q) v ↔ VoronoiCell p (closerTo Y p q) v :=
      ⟨fun hv => ⟨hv.1, fun d hd => hv.2 d (e.mem_iff.mpr hd)⟩, fun hv => ⟨hv.1, fun d hd => hv.2 d (e.mem_iff.mp hd)⟩⟩
    exact ⟨fun ⟨a1, a2, a3, a4, a5, a6, a7, a8⟩ => ⟨e3.mp a1, a2, (e2 _).mp a3, (e2 _).mp a4, (e2 _).mp a5, a6, a7, a8⟩,
      fun ⟨a1, a2, a3, a4, a5, a6, a7, a8⟩ => ⟨e3.mpr a1, a2, (e2 _).mpr a3, (e2 _).mpr a4, (e2 _).mpr a5, a6, a7, a8⟩⟩
  refine ⟨?_, ?_, ?_⟩
  · have sym : ∀ {L : List (Pt ℚ)} (a b : Pt ℚ), ((Matters L p a → m / 2 ^ 17 * span p a < |sqDist a p - sqDist b p|) ∧
        (Matters L p b → m / 2 ^ 17 * span p b < |sqDist a p - sqDist b p|)) →
        ((Matters L p b → m / 2 ^ 17 * span p b < |sqDist b p - sqDist a p|) ∧
        (Matters L p a → m / 2 ^ 17 * span p a < |sqDist b p - sqDist a p|)) := fun a b hab => by
      rw [abs_sub_comm]; exact ⟨hab.2, hab.1⟩
    refine pairwise_perm_symm sym (List.filter_append_perm (fun d => decide (sqDist p d < sqDist p c)) _) ?_
    rw [List.pairwise_append]
    refine ⟨?_, ?_, ?_⟩
    · refine (pairwise_perm_symm sym near (hm.sep.filter _)).imp_of_mem fun {a b} ha hb hab => ?_
      have la := (of_decide_eq_true (List.mem_filter.mp ha).2).le
      have lb := (of_decide_eq_true (List.mem_filter.mp hb).2).le
      rwa [matters_agree h la, matters_agree h lb] at hab
    · refine List.Pairwise.imp_of_mem ?_ (List.pairwise_of_forall (R := fun _ _ => True) fun _ _ => trivial)
      intro a b ha hb _
      have far : ∀ {a}, a ∈ (Y.eraseIdx j).filter (fun x => !decide (sqDist p x < sqDist p c)) → ¬ Matters Y p a := by
        intro a ha hma
        have h1 := (List.mem_filter.mp ha).2
        rw [Bool.not_eq_true', decide_eq_false_iff_not] at h1
        exact h1 (Matters.lt hc' hma)
      exact ⟨fun h1 => absurd h1 (far ha), fun h1 => absurd h1 (far hb)⟩
    · intro a ha b hb
      have la := of_decide_eq_true (List.mem_filter.mp ha).2
      have lb := (List.mem_filter.mp hb).2
      rw [Bool.not_eq_true', decide_eq_false_iff_not] at lb
      refine ⟨fun h1 => ?_, fun h1 => absurd (Matters.lt hc' h1) lb⟩
      have hma : Matters X p a := (matters_agree h la.le).mpr h1
      have haX := memX (List.mem_of_mem_filter ha) la
      have key : m / 2 ^ 17 * span p a < |sqDist a p - sqDist c p| := by
        obtain ⟨n, n1, n2⟩ := List.getElem_of_mem haX
        obtain ⟨n', n1', n2'⟩ := List.getElem_of_mem hne
        have hnn : n ≠ n' := by
          rintro rfl
          rw [n2] at n2'
          rw [n2'] at la
          exact lt_irrefl _ la
        have hs := List.pairwise_iff_getElem.mp hm.sep
        rcases Nat.lt_or_gt_of_ne hnn with hl | hl
        · have := hs _ _ n1 n1' hl
          rw [n2, n2'] at this; exact this.1 hma
        · have := hs _ _ n1' n1 hl
          rw [n2, n2', abs_sub_comm] at this; exact this.2 hma
      rw [sqDist_swap p a, sqDist_swap p c] at la
      rw [sqDist_swap p b, sqDist_swap p c] at lb
      have lb := not_lt.mp lb
      rw [abs_sub_comm, abs_of_pos (by linarith)] at key
      rw [abs_sub_comm, abs_of_pos (by linarith)]
      linarith
  · intro q hq hmat v f g k hv
    have hl := Matters.lt hc' hmat
    exact hm.room q (memX hq hl) ((matters_agree h hl.le).mpr hmat) v f g k ((corner hl.le v f g k).mpr hv)
  · intro q hq hmat
    have hl := Matters.lt hc' hmat
    have := hm.radius q (memX hq hl) ((matters_agree h hl.le).mpr hmat)
    simpa only [corner hl.le] using this

end Votess
