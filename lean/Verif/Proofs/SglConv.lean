import Verif.Proofs.SglEnough
import Verif.Props.IeeeRun
/-! Coordinates that are converted, perhaps in several steps, when they are stored; for all arithmetics of `Sgl`
whose expressions are all of one format. -/
namespace Votess

/-- parameters that suffice for points with margins: all other points as candidates, or recompute, or enough
candidates; and room -/
def Ample (prm : Params) (X : List (Pt ℚ)) : Prop :=
  Roomy prm X.length ∨ RoomyRec prm X.length ∨ (RoomyFew prm X.length ∧ AllEnough prm.k.toNat X)

theorem row_length {L : List (Pt ℚ)} {i : Nat} {p : Pt ℚ} {row : List Int} (h : CorrectRow L i p row) :
    row.length ≤ L.length := by
  have hnd : (row.map Int.toNat).Nodup := by
    refine List.pairwise_map.mpr (h.distinct.imp ?_)
    intro a b hab e
    exact hab (by rw [e])
  have hsub : row.map Int.toNat ⊆ List.range L.length := by
    intro v hv
    obtain ⟨a, ha, rfl⟩ := List.mem_map.mp hv
    obtain ⟨w, q, rfl, hq, -⟩ := h.touch a ha
    simpa using (List.getElem?_eq_some_iff.mp hq).1
  have := (List.subperm_of_subset hnd hsub).length_le
  simpa using this

end Votess

namespace Votess.Sgl

/-- a conversion of coordinates whose error needs `μ`-fold margins -/
structure Conv (ω μ : ℚ) (c : ℚ → ℚ) : Prop where
  unit : ∀ {x : ℚ}, 0 ≤ x → x ≤ 1 - 1 / 2 ^ 22 → 0 ≤ c x ∧ c x ≤ 1 - 1 / 2 ^ 23
  err : ∀ {x : ℚ}, 0 ≤ x → x ≤ 1 - 1 / 2 ^ 22 → |c x - x| ≤ (μ - ω) / 2 / 2 ^ 24

/-- the conversion of points -/
def convPt (c : ℚ → ℚ) (p : Pt ℚ) : Pt ℚ := ⟨c p.x, c p.y, c p.z⟩

/-- the point stored for the point meant -/
def StoredC (c : ℚ → ℚ) (q p : Pt ℚ) : Prop :=
  q = convPt c p ∧ (0 ≤ p.x ∧ p.x ≤ 1 - 1 / 2 ^ 22) ∧ (0 ≤ p.y ∧ p.y ≤ 1 - 1 / 2 ^ 22) ∧
    (0 ≤ p.z ∧ p.z ≤ 1 - 1 / 2 ^ 22)

theorem Conv.ptAp {ω μ : ℚ} {c : ℚ → ℚ} (hc : Conv ω μ c) : ∀ q p, StoredC c q p → PtAp ω μ q p := by
  rintro q p ⟨rfl, hx, hy, hz⟩
  exact ⟨hc.err hx.1 hx.2, hc.err hy.1 hy.2, hc.err hz.1 hz.2⟩

theorem storedC_all (c : ℚ → ℚ) {L : List (Pt ℚ)} (h : InputOK L) : List.Forall₂ (StoredC c) (L.map (convPt c)) L := by
  rw [List.forall₂_map_left_iff]
  exact List.forall₂_same.mpr fun p hp => ⟨rfl, h p hp⟩

theorem storedC_eq {c : ℚ → ℚ} {R L : List (Pt ℚ)} (h : List.Forall₂ (StoredC c) R L) : R = L.map (convPt c) := by
  induction h with
  | nil => rfl
  | cons hd _ ih => rw [List.map_cons, ← ih, hd.1]

variable {F : Type} [FP F (WithTop ℚ)] [Sgl F]

theorem Conv.safe {ω μ : ℚ} {c : ℚ → ℚ} (hc : Conv ω μ c) {gr : Int} (h1 : 1 ≤ gr) (h2 : gr ≤ 1290) {L : List (Pt ℚ)}
    (h : InputOK L) : Safe F gr (L.map (convPt c)) := by
  intro v hv
  obtain ⟨p, hp, rfl⟩ := List.mem_map.mp hv
  obtain ⟨hx, hy, hz⟩ := h p hp
  have key : ∀ {x : ℚ}, 0 ≤ x ∧ x ≤ 1 - 1 / 2 ^ 22 → (0 ≤ c x ∧ c x ≤ 1) ∧ gcoordF (fmt F) gr (c x) < gr := by
    intro x hx
    obtain ⟨a, b⟩ := hc.unit hx.1 hx.2
    exact ⟨⟨a, b.trans (by norm_num)⟩, (wide (F := F)).gcoord_lt h1 (by omega) a b⟩
  exact ⟨(key hx).1, (key hy).1, (key hz).1, (key hx).2, (key hy).2, (key hz).2⟩

/-- different points are stored as different points -/
theorem Conv.inj {ω μ : ℚ} {c : ℚ → ℚ} (hc : Conv ω μ c) (hω : 0 ≤ ω) (h2 : 2 ≤ μ) (h4 : μ ≤ 4) {L : List (Pt ℚ)}
    (hX : InputOK L) (hm : AllMarginsBy μ L) {i j : Nat} {p q : Pt ℚ}
    (hp : L[i]? = some p) (hq : L[j]? = some q) (he : convPt c p = convPt c q) : j = i := by
  by_contra hij
  have hap := ((hm i p hp).mono (by norm_num) h2).apart (input_box hX) hp hq hij
  obtain ⟨px, py, pz⟩ := hX p (List.mem_of_getElem? hp)
  obtain ⟨qx, qy, qz⟩ := hX q (List.mem_of_getElem? hq)
  have key : ∀ {a b : ℚ}, (0 ≤ a ∧ a ≤ 1 - 1 / 2 ^ 22) → (0 ≤ b ∧ b ≤ 1 - 1 / 2 ^ 22) →
      c a = c b → (a - b) ^ 2 ≤ 1 / 2 ^ 40 := by
    intro a b ha hb e
    have a2 := hc.err ha.1 ha.2
    have b2 := hc.err hb.1 hb.2
    rw [e] at a2
    have h1 := abs_le.mp a2
    have h2 := abs_le.mp b2
    have : |a - b| ≤ 1 / 2 ^ 20 := by
      rw [abs_le]; constructor <;> linarith [h1.1, h1.2, h2.1, h2.2]
    calc (a - b) ^ 2 = |a - b| ^ 2 := (sq_abs _).symm
      _ ≤ (1 / 2 ^ 20) ^ 2 := pow_le_pow_left₀ (abs_nonneg _) this 2
      _ = 1 / 2 ^ 40 := by norm_num
  simp only [convPt, Pt.mk.injEq] at he
  have k1 := key px qx he.1
  have k2 := key py qy he.2.1
  have k3 := key pz qz he.2.2
  have e : sqDist p q = (p.x - q.x) ^ 2 + (p.y - q.y) ^ 2 + (p.z - q.z) ^ 2 := by unfold sqDist; ring
  rw [e] at hap
  linarith

/-- if the points are stored in the same order, they are meant in the same order -/
theorem Conv.same_order {ω μ : ℚ} {c : ℚ → ℚ} (hc : Conv ω μ c) (hω : 0 ≤ ω) (h2 : 2 ≤ μ) (h4 : μ ≤ 4)
    {L X : List (Pt ℚ)} (hX : InputOK X) (hm : AllMarginsBy μ X) (hp : L.Perm X)
    (he : X.map (convPt c) = L.map (convPt c)) : L = X := by
  apply List.ext_getElem?
  intro i
  have e := congrArg (fun l => l[i]?) he
  simp only [List.getElem?_map] at e
  cases hx : X[i]? with
  | none =>
    rw [hx] at e
    cases hl : L[i]? with
    | none => rfl
    | some p => rw [hl] at e; cases e
  | some q =>
    rw [hx] at e
    cases hl : L[i]? with
    | none => rw [hl] at e; cases e
    | some p =>
      rw [hl] at e
      simp only [Option.map_some, Option.some.injEq] at e
      obtain ⟨j, hj, ej⟩ := List.getElem_of_mem (hp.mem_iff.mp (List.mem_of_getElem? hl))
      have hj' : X[j]? = some p := by rw [List.getElem?_eq_getElem hj, ej]
      have := hc.inj hω h2 h4 hX hm hx hj' e
      subst this
      rw [hx] at hj'
      rw [hj']

/-- the points of the result are the sorted ones -/
theorem tess_sorted {F D : Type} [FP F D] [Inhabited F] {nb hw : Nat} {prm : Params} {xyz : List (Pt F)} {out : TessOut F}
    (h : tesellateCpu nb hw prm xyz = .ok out) : ∃ S, xyzSort nb prm.gr xyz = .ok S ∧ out.xyz = S.xyz := by
  unfold tesellateCpu at h
  simp only at h
  rw [bind_eq_ok] at h
  obtain ⟨S, hS, e⟩ := h
  rw [bind_eq_ok] at e
  obtain ⟨⟨t, s⟩, -, e⟩ := e
  refine ⟨S, hS, ?_⟩
  simp only at e
  split at e
  · rw [bind_eq_ok] at e
    obtain ⟨⟨t', s'⟩, -, e⟩ := e
    cases e; rfl
  · cases e; rfl

section
variable [Inhabited F] {hw : Nat} {prm : Params} {X : List (Pt ℚ)} {μ : ℚ} {c : ℚ → ℚ}

/-- the rows of a call -/
theorem Conv.table (hc : Conv (om F) μ c) (hga : ga F = om F) (h2 : 2 ≤ μ) (h4 : μ ≤ 4) (h : FloatSizes hw prm)
    (hX : InputOK X) (hm : AllMarginsBy μ X) (hroom : Ample prm X) :
    ∃ (out : TessOut F) (L : List (Pt ℚ)) (rows : List (List Int)),
      tesellateCpu 4 hw prm ((X.map (convPt c)).map (toS : Pt ℚ → Pt F)) = .ok out ∧
      out.xyz = (L.map (convPt c)).map toS ∧ L.Perm X ∧
      out.dnn = getDnn rows ∧ rows.length = L.length ∧ NoSentinel rows ∧ (∀ r ∈ rows, r ≠ []) ∧
      (∀ r ∈ rows, r.length ≤ 250) ∧ ∀ i p row, L[i]? = some p → rows[i]? = some row → CorrectRow L i p row ∧ ExactRow L i p row := by
  have hω := om_pos (F := F)
  have hω1 := om_le (F := F)
  have hfac : Fac (om F) μ := ⟨hω, by linarith, h4⟩
  have hbase : ∃ (out : TessOut F) (L : List (Pt ℚ)),
      tesellateCpu 4 hw prm ((X.map (convPt c)).map (toS : Pt ℚ → Pt F)) = .ok out ∧
      out.xyz = (L.map (convPt c)).map toS ∧ L.Perm X ∧
      (∀ i p, L[i]? = some p → ∃ row, RowIs out.dnn i row ∧ CorrectRow L i p row ∧ ExactRow L i p row) ∧
      Tabled out := by
    rcases hroom with hroom | hroom | ⟨hroom, he⟩
    · obtain ⟨out, R, L, h1, h2, -, h3, h4, h5⟩ := stored_enough_room (F := F) hfac hc.ptAp h
        (hc.safe h.gr.1 h.gr.2 hX) (storedC_all _ hX) (input_box hX) hm hroom.k hroom.plain hroom.pm hroom.tm
      exact ⟨out, L, h1, by rw [h2, storedC_eq h3], h4, h5,
        (safe_job (F := F) h (hc.safe h.gr.1 h.gr.2 hX)).tabled hroom.plain (hw := hw) h1⟩
    · obtain ⟨out, R, L, h1, h2, -, h3, h4, h5, h6⟩ := stored_recompute_tabled (F := F) hfac hc.ptAp h
        (hc.safe h.gr.1 h.gr.2 hX) (storedC_all _ hX) (input_box hX)
        (fun k hk => AllClear.of hga hfac.mpos hk hm) hroom.k hroom.again hroom.pm hroom.tm
      exact ⟨out, L, h1, by rw [h2, storedC_eq h3], h4, h5, h6⟩
    · obtain ⟨out, R, L, h1, h2, -, h3, h4, h5, -⟩ := stored_enough_local (F := F) hfac hc.ptAp h
        (hc.safe h.gr.1 h.gr.2 hX) (storedC_all _ hX) (input_box hX) hroom.k hroom.plain hroom.pm hroom.tm
      exact ⟨out, L, h1, by rw [h2, storedC_eq h3], h4,
        fun i p hp => h5 i p hp ((AllClear.of hga hfac.mpos (by have := h.k; omega) hm).perm h4.symm i p hp)
          (he.perm h4.symm i p hp),
        (safe_job (F := F) h (hc.safe h.gr.1 h.gr.2 hX)).tabled hroom.plain (hw := hw) h1⟩
  obtain ⟨out, L, h1, h2', h3, h4', h5⟩ := hbase
  obtain ⟨rows, r1, r2, r3, r4⟩ := h5.rows
  rw [h2', List.length_map, List.length_map] at r2
  have hn : 2 ≤ L.length := by
    rw [h3.length_eq]
    have := h.k
    rcases hroom with hroom | hroom | ⟨hroom, -⟩
    · have := hroom.k; omega
    · have := hroom.k; omega
    · have := hroom.k; omega
  have hcor : ∀ i p row, L[i]? = some p → rows[i]? = some row → CorrectRow L i p row ∧ ExactRow L i p row := by
    intro i p row hp hr
    obtain ⟨row', g1, g2, g3⟩ := h4' i p hp
    rw [(r4 i row hr).unique g1]
    exact ⟨g2, g3⟩
  have hboxL : ∀ v ∈ L, InUnitBox v := fun v hv => input_box hX v (h3.mem_iff.mp hv)
  refine ⟨out, L, rows, h1, h2', h3, r1, r2, r3, ?_, ?_, hcor⟩
  swap
  · intro r hr
    obtain ⟨i, hi, e⟩ := List.getElem_of_mem hr
    have hrow : rows[i]? = some r := by rw [List.getElem?_eq_getElem hi, e]
    have hpm := h.pm
    have hlen := h3.length_eq
    have hle := row_length (hcor i _ r (List.getElem?_eq_getElem (by omega)) hrow).1
    have few : prm.useRecompute = false → prm.k ≤ 250 → r.length ≤ 250 := by
      intro hr hk
      have hj := safe_job (F := F) h (hc.safe h.gr.1 h.gr.2 hX)
      obtain ⟨S, out', hS, hperm, o1, o2, o3⟩ := safe_call (F := F) h (hc.safe h.gr.1 h.gr.2 hX) hr
      rw [h1] at o1; cases o1
      have hiS : i < S.xyz.length := by
        rw [hperm.length_eq, List.length_map, List.length_map]; omega
      rw [(r4 i r hrow).unique (o3 i (by rw [← hperm.length_eq]; exact hiS))]
      refine ((hj.ready hS).row_length hiS).trans ?_
      simp only [Params.args]; omega
    rcases hroom with hroom | hroom | ⟨hroom, -⟩
    · exact few hroom.plain (by have := hroom.pm; omega)
    · have := hroom.pm; omega
    · exact few hroom.plain (by have := hroom.pm; omega)
  intro r hr
  obtain ⟨i, hi, e⟩ := List.getElem_of_mem hr
  have hiL : i < L.length := by omega
  have hp := List.getElem?_eq_getElem hiL
  have hrow : rows[i]? = some r := by rw [List.getElem?_eq_getElem hi, e]
  obtain ⟨j, hj, hji⟩ : ∃ j, j < L.length ∧ j ≠ i := by
    by_cases h0 : i = 0
    · exact ⟨1, by omega, by omega⟩
    · exact ⟨0, by omega, by omega⟩
  have hq := List.getElem?_eq_getElem hj
  have hap := (((hm.perm h3.symm) i _ hp).mono (by norm_num) h2).apart hboxL hp hq hji
  refine (hcor i _ r hp hrow).1.ne_nil (List.mem_of_getElem? hp) (List.mem_of_getElem? hq)
    (hboxL _ (List.mem_of_getElem? hq)) ?_
  intro e
  rw [e] at hap
  have : sqDist L[i] L[i] = 0 := by unfold sqDist; ring
  rw [this] at hap
  norm_num at hap

end

end Votess.Sgl
