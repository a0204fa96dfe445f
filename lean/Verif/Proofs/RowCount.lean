import Verif.Props.Driver
/-! A result consists of one row per point, however the call went. -/
namespace Votess

section any
variable {F D : Type} [FP F D]

theorem wrI_length {α : Type} {a b : List α} {i : Int} {v : α} (h : wrI a i v = .ok b) : b.length = a.length := by
  unfold wrI wr at h
  split at h
  · split at h
    · cases h; simp
    · cases h
  · cases h

theorem forN_keep {σ : Type} {P : σ → Prop} {f : Nat → σ → M σ} (hf : ∀ i a b, P a → f i a = .ok b → P b)
    {n : Nat} {a b : σ} (ha : P a) (h : forN n f a = .ok b) : P b := by
  unfold forN at h
  generalize List.range n = l at h
  induction l generalizing a with
  | nil => simp only [List.foldlM_nil, pure_eq_ok, Except.ok.injEq] at h; subst h; exact ha
  | cons i l ih =>
    rw [List.foldlM_cons, bind_eq_ok] at h
    obtain ⟨c, h1, h2⟩ := h
    exact ih (hf i a c ha h1) h2

theorem tmpnnFill_length {indices : List Int} {size : Nat} {heap : List (List (Int × D))}
    {t t' : List (List Int)} (h : tmpnnFill indices size heap t = .ok t') : t'.length = t.length := by
  refine forN_keep (P := fun x : List (List Int) => x.length = t.length) ?_ rfl h
  intro i a b ha hb
  rw [bind_eq_ok] at hb
  obtain ⟨x, -, hb⟩ := hb
  rw [bind_eq_ok] at hb
  obtain ⟨y, -, hb⟩ := hb
  rw [wrI_length hb, ha]

theorem cpuRun_length {S : Sorted F} {gr : Int} {a : CCArgs} {nth nruns : Nat} {chunksize : Int} {run : Nat}
    {r r' : RunState F D} (h : cpuRun S gr a nth nruns chunksize run r = .ok r') :
    r'.tmpnn.length = r.tmpnn.length := by
  unfold cpuRun at h
  simp only at h
  split at h
  · cases h
  · rw [bind_eq_ok] at h
    obtain ⟨x, -, h⟩ := h
    rw [bind_eq_ok] at h
    obtain ⟨⟨y1, y2⟩, -, h⟩ := h
    simp only at h
    rw [bind_eq_ok] at h
    obtain ⟨z, hz, h⟩ := h
    cases h
    exact tmpnnFill_length hz

theorem cpuTesellate_length {hw : Nat} {prm : Params} {S : Sorted F} {t t' : List (List Int)}
    {s s' : List State} (h : cpuTesellate hw prm S t s = .ok (t', s')) : t'.length = t.length := by
  unfold cpuTesellate at h
  simp only at h
  rw [bind_eq_ok] at h
  obtain ⟨a, -, h⟩ := h
  rw [bind_eq_ok] at h
  obtain ⟨r, h1, h⟩ := h
  cases h
  refine forN_keep (P := fun x : RunState F D => x.tmpnn.length = t.length) ?_ rfl h1
  intro i a b ha hb
  rw [cpuRun_length hb, ha]

theorem takeWhile_twice {α : Type} (p : α → Bool) (l : List α) : (l.takeWhile p).takeWhile p = l.takeWhile p := by
  induction l with
  | nil => rfl
  | cons a l ih => by_cases h : p a <;> simp [h, ih]

theorem recRound_length {S : Sorted F} {gr : Int} {nth : Nat} {r : RecState} {o : RecStep}
    (h : recRound S gr nth r = .ok o) :
    match o with
    | .done r' => r'.tmpnn.length = r.tmpnn.length
    | .next r' => r'.tmpnn.length = r.tmpnn.length := by
  unfold recRound at h
  rw [bind_eq_ok] at h
  obtain ⟨⟨i1, i2, i3⟩, -, h⟩ := h
  simp only at h
  split at h
  · cases h; rfl
  · rw [bind_eq_ok] at h
    obtain ⟨a, -, h⟩ := h
    split at h
    · cases h
    · rw [bind_eq_ok] at h
      obtain ⟨⟨b1, b2⟩, -, h⟩ := h
      simp only at h
      rw [bind_eq_ok] at h
      obtain ⟨t', ht, h⟩ := h
      have := tmpnnFill_length ht
      generalize (if (S.xyz.length : Int) - 1 < r.k * 2 then (S.xyz.length : Int) - 1 else r.k * 2) = k' at h
      split at h <;> (cases h; exact this)

theorem recLoop_length {S : Sorted F} {gr : Int} {nth fuel : Nat} {r r' : RecState}
    (h : recLoop S gr nth fuel r = .ok r') : r'.tmpnn.length = r.tmpnn.length := by
  induction fuel generalizing r with
  | zero => cases h
  | succ fuel ih =>
    unfold recLoop at h
    rw [bind_eq_ok] at h
    obtain ⟨o, h1, h⟩ := h
    have := recRound_length h1
    cases o with
    | done r1 => cases h; exact this
    | next r1 => rw [ih h, this]

/-- a result is made of one list per point -/
theorem tesellate_rows [Inhabited F] {nb hw : Nat} {prm : Params} {xyz : List (Pt F)} {out : TessOut F}
    (h : tesellateCpu nb hw prm xyz = .ok out) :
    ∃ rows, out.dnn = getDnn rows ∧ rows.length = out.xyz.length ∧ NoSentinel rows := by
  unfold tesellateCpu at h
  simp only at h
  rw [bind_eq_ok] at h
  obtain ⟨S, -, h⟩ := h
  rw [bind_eq_ok] at h
  obtain ⟨⟨t, s⟩, h1, h⟩ := h
  have l1 := cpuTesellate_length h1
  rw [List.length_replicate] at l1
  have hx : ∃ t' : List (List Int), t'.length = t.length ∧ out.dnn = getDnn t' ∧ out.xyz = S.xyz := by
    simp only at h
    split at h
    · rw [bind_eq_ok] at h
      obtain ⟨⟨t', s'⟩, h2, h⟩ := h
      unfold cpuRecompute at h2
      simp only at h2
      rw [bind_eq_ok] at h2
      obtain ⟨r, h3, h2⟩ := h2
      cases h2; cases h
      exact ⟨_, recLoop_length h3, rfl, rfl⟩
    · cases h
      exact ⟨t, rfl, rfl, rfl⟩
  obtain ⟨t', l2, hd, hxyz⟩ := hx
  rw [hd, hxyz]
  refine ⟨t'.map (fun r => r.takeWhile (fun v => v ≠ kUndefined)), ?_, by simp [l2, l1], ?_⟩
  · unfold getDnn
    simp only [List.map_map, Function.comp_def, takeWhile_twice]
  · intro r hr v hv
    obtain ⟨r', -, rfl⟩ := List.mem_map.mp hr
    have := List.all_takeWhile (p := fun v => decide (v ≠ kUndefined)) (l := r')
    rw [List.all_eq_true] at this
    simpa using this v hv

/-- the result is a table with one row per point; rows are short enough for their lengths to be counted
in a `size_t` -/
def Tabled (out : TessOut F) : Prop :=
  ∃ rows, out.dnn = getDnn rows ∧ rows.length = out.xyz.length ∧ NoSentinel rows ∧ ∀ r ∈ rows, r.length < 2 ^ 64

/-- calls without recompute -/
theorem JobOK.tabled [Inhabited F] {nb hw : Nat} {prm : Params} {xyz : List (Pt F)} (h : JobOK nb hw prm xyz)
    (hr : prm.useRecompute = false) {out : TessOut F} (ho : tesellateCpu nb hw prm xyz = .ok out) : Tabled out := by
  obtain ⟨S, hs⟩ : ∃ S, xyzSort nb prm.gr xyz = .ok S := by
    cases hs : xyzSort nb prm.gr xyz with
    | ok S => exact ⟨S, rfl⟩
    | error e => unfold tesellateCpu at ho; rw [hs] at ho; cases ho
  rw [h.plain hs hr] at ho
  cases ho
  refine ⟨_, rfl, by simp [mkOut], ?_, ?_⟩
  · intro r hr v hv
    obtain ⟨i, -, rfl⟩ := List.mem_map.mp hr
    exact rowOf_noSentinel S prm.gr prm.args i v hv
  · intro r hr
    obtain ⟨i, hi, rfl⟩ := List.mem_map.mp hr
    have := (h.ready hs).row_length (List.mem_range.mp hi)
    have := h.size.k
    omega

/-- the rows of a table are what `dnn[i]` returns -/
theorem Tabled.rows {out : TessOut F} (h : Tabled out) : ∃ rows, out.dnn = getDnn rows ∧
    rows.length = out.xyz.length ∧ NoSentinel rows ∧ ∀ i row, rows[i]? = some row → RowIs out.dnn i row := by
  obtain ⟨rows, h1, h2, h3, h4⟩ := h
  exact ⟨rows, h1, h2, h3, fun i row hi => by
    rw [h1]; exact rowIs_getDnn h3 hi (h4 row (List.mem_of_getElem? hi))⟩

end any

end Votess
