import Verif.Spec.Linking
import Verif.Props.Agreement
import Verif.Props.Walk
import Verif.Props.Delaunay
import Mathlib.Data.Fintype.Card
/-!
# C91, C92 — groups of points, and the nearest points one after the other

C91: groups "friends of friends" (points connected by steps not longer than a linking length) are the same whether all
pairs of points are looked at or only those listed in the rows.  C92: the points nearest to a location are found one after the
other among the points listed by those found so far.
-/
namespace Votess

section
variable {K : Type} [Field K] [LinearOrder K] [IsStrictOrderedRing K] {L : List (Pt K)} {N : Nat → Nat → Prop}

/-- a pair of points is connected by listed pairs that are not farther apart -/
theorem chain_of_gabriel
    (gab : ∀ (i : Nat) (p q : Pt K), L[i]? = some p → q ∈ L → q ≠ p → Gabriel L p q → ∃ w, N i w ∧ L[w]? = some q) :
    ∀ (a : {p // p ∈ L} × {p // p ∈ L}) (s : K), sqDist a.1.1 a.2.1 ≤ s → ∀ i : Nat, L[i]? = some a.1.1 →
      ∃ j, Relation.ReflTransGen (ListedFriends L N s) i j ∧ L[j]? = some a.2.1 := by
  classical
  have : Finite {p // p ∈ L} := by
    have : {p | p ∈ L} = (L.toFinset : Set (Pt K)) := by ext; simp
    have h : Set.Finite {p | p ∈ L} := by rw [this]; exact L.toFinset.finite_toSet
    exact h.to_subtype
  let r : ({p // p ∈ L} × {p // p ∈ L}) → ({p // p ∈ L} × {p // p ∈ L}) → Prop :=
    fun a b => sqDist a.1.1 a.2.1 < sqDist b.1.1 b.2.1
  have : IsTrans _ r := ⟨fun _ _ _ h1 h2 => lt_trans h1 h2⟩
  have : Std.Irrefl r := ⟨fun _ h => lt_irrefl _ h⟩
  have wf : WellFounded r := Finite.wellFounded_of_trans_of_irrefl r
  intro a
  induction a using wf.induction with
  | _ a ih =>
    obtain ⟨⟨p, hp⟩, ⟨q, hq⟩⟩ := a
    intro s hs i hi
    simp only at hs hi ⊢
    by_cases hpq : q = p
    · exact ⟨i, .refl, by rw [hi, hpq]⟩
    · by_cases hg : Gabriel L p q
      · obtain ⟨w, h1, h2⟩ := gab i p q hi hq hpq hg
        exact ⟨w, .single ⟨h1, p, q, hi, h2, hs⟩, h2⟩
      · unfold Gabriel at hg
        push Not at hg
        obtain ⟨t, ht, htp, htq, hle⟩ := hg
        have h1 := sqDist_pos_of_ne (Ne.symm htp)
        have h2 := sqDist_pos_of_ne htq
        obtain ⟨j, c1, e1⟩ := ih (⟨p, hp⟩, ⟨t, ht⟩) (show sqDist p t < sqDist p q by linarith) s (by simp only; linarith) i hi
        obtain ⟨j', c2, e2⟩ := ih (⟨t, ht⟩, ⟨q, hq⟩) (show sqDist t q < sqDist p q by linarith) s (by simp only; linarith) j e1
        exact ⟨j', c1.trans c2, e2⟩

omit [Field K] [LinearOrder K] [IsStrictOrderedRing K] in
theorem index_unique (hnd : L.Nodup) {i j : Nat} {p : Pt K} (hi : L[i]? = some p) (hj : L[j]? = some p) : i = j := by
  obtain ⟨a, ha⟩ := List.getElem?_eq_some_iff.mp hi
  obtain ⟨b, hb⟩ := List.getElem?_eq_some_iff.mp hj
  exact (List.Nodup.getElem_inj_iff hnd).mp (ha.trans hb.symm)

theorem groups_of_gabriel (hnd : L.Nodup)
    (gab : ∀ (i : Nat) (p q : Pt K), L[i]? = some p → q ∈ L → q ≠ p → Gabriel L p q → ∃ w, N i w ∧ L[w]? = some q) :
    SameGroups L N := by
  intro s i j
  constructor
  · intro h
    induction h with
    | refl => exact .refl
    | @tail b c _ hbc ih =>
      obtain ⟨p, q, hp, hq, hd⟩ := hbc
      obtain ⟨c', h1, h2⟩ := chain_of_gabriel gab (⟨p, List.mem_of_getElem? hp⟩, ⟨q, List.mem_of_getElem? hq⟩) s hd b hp
      rw [index_unique hnd hq h2]
      exact ih.trans h1
  · intro h
    exact Relation.ReflTransGen.mono (r := ListedFriends L N s) (fun _ _ h => h.2) _ _ h

/-- rows given by a relation -/
theorem gabriel_of_rows {R : Nat → List Int → Prop} (hbox : ∀ p ∈ L, InUnitBox p)
    (hrows : ∀ i p, L[i]? = some p → ∃ row, R i row ∧ CorrectRow L i p row) :
    ∀ (i : Nat) (p q : Pt K), L[i]? = some p → q ∈ L → q ≠ p → Gabriel L p q →
      ∃ w : Nat, (∃ row, R i row ∧ (w : Int) ∈ row) ∧ L[w]? = some q := by
  intro i p q hp hq hne hg
  obtain ⟨row, h1, h2⟩ := hrows i p hp
  obtain ⟨v, hv, e⟩ := mem_sites.mp (gabriel_site hbox hp hq hne hg h2)
  obtain ⟨w, r, rfl, -⟩ := h2.touch v hv
  exact ⟨w, ⟨row, h1, hv⟩, e⟩

/-- exact rows: the points are different -/
theorem nodup_of_exact {R : Nat → List Int → Prop} (hbox : ∀ p ∈ L, InUnitBox p)
    (hrows : ∀ i p, L[i]? = some p → ∃ row, R i row ∧ CorrectRow L i p row ∧ ExactRow L i p row) : L.Nodup := by
  rw [List.nodup_iff_getElem?_ne_getElem?]
  intro i j hij hj he
  have hp := List.getElem?_eq_getElem (hij.trans hj)
  have hq : L[j]? = some L[i] := by rw [← he, hp]
  obtain ⟨row, -, h2, h3⟩ := hrows i _ hp
  have hcell : VoronoiCell L[i] L L[i] := ⟨hbox _ (List.getElem_mem _), fun r _ => by
    rw [show sqDist L[i] L[i] = 0 by simp [sqDist]]
    unfold sqDist; positivity⟩
  have hm : (j : Int) ∈ row := (h3 j).mpr ⟨by omega, _, hq, _, hcell, hcell⟩
  obtain ⟨w, q, e, e1, -, e2, -⟩ := h2.touch _ hm
  obtain rfl : j = w := by omega
  rw [hq] at e1
  cases e1
  exact e2 rfl

/-- exact rows: whoever is not nearest is listed by somebody nearer -/
theorem nearToFar_of_exact {R : Nat → List Int → Prop}
    (hrows : ∀ i p, L[i]? = some p → ∃ row, R i row ∧ CorrectRow L i p row ∧ ExactRow L i p row) :
    NearToFar L fun i w => ∃ row, R i row ∧ (w : Int) ∈ row := by
  intro x hx j q hq hn
  obtain ⟨row, h1, h2, h3⟩ := hrows j q hq
  have : ¬ VoronoiCell q L x := fun h => hn ⟨q, hq, h.2⟩
  rw [← h2.cell] at this
  unfold VoronoiCell at this
  push Not at this
  obtain ⟨p, hp, hlt⟩ := this hx
  obtain ⟨v, hv, e⟩ := mem_sites.mp hp
  obtain ⟨i, p', rfl, e1, hne, -, ht⟩ := h2.touch v hv
  have e' : L[i]? = some p := e
  rw [e1] at e'; cases e'
  obtain ⟨row', k1, -, k3⟩ := hrows i p e1
  obtain ⟨c, c1, c2⟩ := ht
  exact ⟨i, p, e1, hlt, row', k1, (k3 j).mpr ⟨hne.symm, q, hq, c, c2, c1⟩⟩

omit [IsStrictOrderedRing K] in
/-- C92: going from near to far, the next point is listed by one of those found so far (unless it is as near as the
nearest). -/
theorem C92_next (h : NearToFar L N) : NextIsListed L N := by
  intro x hx S j q hj hq hmin
  by_cases hn : NearestTo L x j
  · exact .inr hn
  · obtain ⟨i, p, hp, hlt, hl⟩ := h x hx j q hq hn
    refine .inl ⟨i, ?_, hl⟩
    by_contra hi
    exact absurd (hmin i p hi hp) (not_le.mpr hlt)

end

section exact
variable {K : Type} [Field K] [LinearOrder K] [IsStrictOrderedRing K] [FloorRing K] [Inhabited K] {nb hw : Nat}
  {prm : Params} {xyz : List (Pt K)}

/-- C91: exact arithmetic, different points. -/
theorem C91_exact (h : ExactJob nb hw prm xyz) (hr : prm.useRecompute = false) (hnd : xyz.Nodup) :
    ∃ out, tesellateCpu nb hw prm xyz = .ok out ∧ out.xyz.Perm xyz ∧
      ((out.report.srNotReached = 0 ∨ (xyz.length - 1 ≤ prm.k.toNat ∧ out.report.infBoundary = 0 ∧
          out.report.pOverflow = 0 ∧ out.report.tOverflow = 0)) → SameGroups out.xyz (Listed out.dnn)) := by
  obtain ⟨out, h1, h2, h3⟩ := C84_exact h hr
  exact ⟨out, h1, h2, fun hc => groups_of_gabriel (h2.symm.nodup hnd) (h3 hc).gabriel⟩

/-- C91: exact arithmetic, with recompute. -/
theorem C91_exact_recompute (h : ExactJob nb hw prm xyz) (hr : prm.useRecompute = true) (hnd : xyz.Nodup)
    (hn : 2 ≤ xyz.length) (hk : prm.k + 6 ≤ prm.pm) (hp : (xyz.length : Int) + 5 ≤ prm.pm)
    (ht : 2 * prm.k + 8 ≤ prm.tm) (ht' : 2 * (xyz.length : Int) + 6 ≤ prm.tm) :
    ∃ out, tesellateCpu nb hw prm xyz = .ok out ∧ out.xyz.Perm xyz ∧ SameGroups out.xyz (Listed out.dnn) := by
  obtain ⟨out, h1, h2, h3⟩ := C84_exact_recompute h hr hn hk hp ht ht'
  exact ⟨out, h1, h2, groups_of_gabriel (h2.symm.nodup hnd) h3.gabriel⟩

omit [FloorRing K] [Inhabited K] in
theorem listed_of_exact {L : List (Pt K)} {d : Dnn}
    (h : ∀ i p, L[i]? = some p → ∃ row, RowIs d i row ∧ CorrectRow L i p row ∧ ExactRow L i p row) :
    NearToFar L (Listed d) := by
  intro x hx j q hq hn
  obtain ⟨i, p, h1, h2, row, h3, h4⟩ := nearToFar_of_exact h x hx j q hq hn
  exact ⟨i, p, h1, h2, listed_of_mem h3 h4⟩

/-- C92: exact arithmetic, general position. -/
theorem C92_exact (h : ExactJob nb hw prm xyz) (hr : prm.useRecompute = false)
    (hg : ∀ i p, xyz[i]? = some p → GeneralAt xyz i p) :
    ∃ out, tesellateCpu nb hw prm xyz = .ok out ∧ out.xyz.Perm xyz ∧
      ((out.report.srNotReached = 0 ∨ (xyz.length - 1 ≤ prm.k.toNat ∧ out.report.infBoundary = 0 ∧
          out.report.pOverflow = 0 ∧ out.report.tOverflow = 0)) →
        NearToFar out.xyz (Listed out.dnn) ∧ NextIsListed out.xyz (Listed out.dnn)) := by
  obtain ⟨out, h1, h2, h3⟩ := C24_tessellation h hr
  refine ⟨out, h1, h2, fun hc => ?_⟩
  have key := listed_of_exact fun i p hp => by
    obtain ⟨row, r1, r2, r3⟩ := h3 hc i p hp
    exact ⟨row, r1, r2, r3 (general_all h2 hg i p hp)⟩
  exact ⟨key, C92_next key⟩

end exact

section rounded
variable {X : List (Pt ℚ)} {P : List (Pt ℚ) → Prop} {R : Nat → List Int → Prop}

/-- C91: every way to compute a tessellation in rounded arithmetic (C89). -/
theorem C91_computed (hX : InputOK X) (hm : AllMarginsBy (2 + 1 / 2 ^ 29) X) (hc : Computed X P R) :
    ∃ L : List (Pt ℚ), P L ∧ L.Perm X ∧ SameGroups L fun i w => ∃ row, R i row ∧ (w : Int) ∈ row := by
  obtain ⟨L, h1, h2, h3⟩ := C89_exact hX hm hc
  have hbox := hX.unit h2
  exact ⟨L, h1, h2, groups_of_gabriel (nodup_of_exact hbox h3)
    (gabriel_of_rows hbox fun i p hp => let ⟨row, r1, r2, _⟩ := h3 i p hp; ⟨row, r1, r2⟩)⟩

/-- C92: every way to compute a tessellation in rounded arithmetic (C89). -/
theorem C92_computed (hX : InputOK X) (hm : AllMarginsBy (2 + 1 / 2 ^ 29) X) (hc : Computed X P R) :
    ∃ L : List (Pt ℚ), P L ∧ L.Perm X ∧ (NearToFar L fun i w => ∃ row, R i row ∧ (w : Int) ∈ row) ∧
      NextIsListed L fun i w => ∃ row, R i row ∧ (w : Int) ∈ row := by
  obtain ⟨L, h1, h2, h3⟩ := C89_exact hX hm hc
  exact ⟨L, h1, h2, nearToFar_of_exact h3, C92_next (nearToFar_of_exact h3)⟩

end rounded

/-! ### examples -/

/-- the README points, called from Python on either device -/
example (ch : Choice b32) (found : Bool) (dev : Device) : ∃ d : Dnn,
    SameGroups readmePts (fun i w => ∃ row, PyRow d i row ∧ (w : Int) ∈ row) ∧
    NextIsListed readmePts fun i w => ∃ row, PyRow d i row ∧ (w : Int) ∈ row := by
  have hm : AllMarginsBy (2 + 1 / 2 ^ 29) readmePts := readme_margins.mono (by norm_num) (by norm_num)
  have hs : FloatSizes 1 ⟨9, 1, 32, 32, 0, 0, false, false⟩ := by constructor <;> simp
  have hroom : Roomy ⟨9, 1, 32, 32, 0, 0, false, false⟩ readmePts.length := by constructor <;> simp [readmePts]
  obtain ⟨m', e, ⟨d, hd⟩, -⟩ := C80_python ch (hw := 1) le_rfl found dev
  have hp : m'.params = .ok ⟨9, 1, 32, 32, 0, 0, false, false⟩ := by
    obtain ⟨m2, e2, h2, -⟩ := readmePy_params
    rw [e] at e2; cases e2; exact h2
  have c : Computed readmePts _ _ := .python ch hp hs (.inl hroom) (by simp [readmePts]) rfl (by simp) (by simp) (.inl rfl) hd
  obtain ⟨L, h1, -, h3⟩ := C91_computed readme_input hm c
  obtain ⟨L', k1, -, -, k3⟩ := C92_computed readme_input hm c
  obtain rfl := h1 (C79_one_cell ch readme_input)
  obtain rfl := k1 (C79_one_cell ch readme_input)
  exact ⟨d, h3, k3⟩

/-- three points in exact arithmetic -/
example : ∃ out, tesellateCpu 4 8 ⟨2, 1, 8, 12, 0, 0, false, false⟩ flatTriangle = .ok out ∧
    SameGroups out.xyz (Listed out.dnn) := by
  obtain ⟨out, h1, h2, h3⟩ := C91_exact flatTriangle_job rfl (by decide +kernel)
  obtain ⟨out', e1, -, e2, -⟩ := C64_enough_room flatTriangle_job rfl (by decide) (by decide) (by decide)
  rw [h1] at e1; cases e1
  exact ⟨out, h1, h3 (.inr ⟨by decide, e2.1, e2.2.2.1, e2.2.2.2.1⟩)⟩

end Votess
