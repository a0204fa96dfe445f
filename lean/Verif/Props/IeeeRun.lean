import Verif.Props.IeeeInput
import Verif.Props.IeeeWitness
import Verif.Props.CliRun
import Verif.Props.Text
import Verif.Props.PrintText
import Verif.Proofs.RowCount
/-!
# C74 — the program, from the text of the input file to the printed text, in single precision

The coordinates are decimal numerals in the file (C72), stored as `float`s (C71), the rows are computed
in single precision and printed (C73).
-/
namespace Votess

/-! ### different points are stored as different points -/

theorem exists_least {α : Type} (f : α → ℚ) : ∀ l : List α, l ≠ [] → ∃ m ∈ l, ∀ x ∈ l, f m ≤ f x
  | [], h => absurd rfl h
  | [a], _ => ⟨a, by simp, by simp⟩
  | a :: b :: l, _ => by
    obtain ⟨m, h1, h2⟩ := exists_least f (b :: l) (by simp)
    rcases le_total (f a) (f m) with h | h
    · refine ⟨a, by simp, fun x hx => ?_⟩
      rcases List.mem_cons.mp hx with rfl | hx
      · exact le_refl _
      · exact h.trans (h2 x hx)
    · refine ⟨m, List.mem_cons_of_mem _ h1, fun x hx => ?_⟩
      rcases List.mem_cons.mp hx with rfl | hx
      · exact h
      · exact h2 x hx

/-- points with margins are not close to each other -/
theorem MarginsBy.apart {L : List (Pt ℚ)} (hbox : ∀ v ∈ L, InUnitBox v) {i j : Nat} {p q : Pt ℚ}
    (hp : L[i]? = some p) (hq : L[j]? = some q) (hij : j ≠ i) (hm : MarginsBy 2 L i p) :
    1 / 2 ^ 36 < sqDist p q := by
  have hqm : q ∈ L.eraseIdx i := List.mem_of_getElem? (getElem?_eraseIdx_of hq hij)
  obtain ⟨c, c1, c2⟩ := exists_least (sqDist p) (L.eraseIdx i) (List.ne_nil_of_mem hqm)
  have hcL : c ∈ L := List.mem_of_mem_eraseIdx c1
  have hself : ∀ d ∈ closerTo L p c, d = p := by
    intro d hd
    unfold closerTo at hd
    rw [List.mem_filter, decide_eq_true_eq] at hd
    obtain ⟨k, hk, e⟩ := List.getElem_of_mem hd.1
    by_cases hki : k = i
    · subst hki
      rw [List.getElem?_eq_getElem hk] at hp
      exact e.symm.trans (Option.some.inj hp)
    · have hdm : d ∈ L.eraseIdx i := List.mem_of_getElem? (getElem?_eraseIdx_of
        (by rw [List.getElem?_eq_getElem hk, e]) hki)
      exact absurd (c2 d hdm) (not_le.mpr hd.2)
  have hcorner : Meet p (closerTo L p c) ⟨0, 0, 0⟩ ⟨1, 0, 0, 0⟩ ⟨0, 1, 0, 0⟩ ⟨0, 0, 1, 0⟩ := by
    refine ⟨⟨by norm_num [InUnitBox], fun d hd => ?_⟩, by norm_num [det3], by simp [boundaryPlanes, boxFaces],
      by simp [boundaryPlanes, boxFaces], by simp [boundaryPlanes, boxFaces],
      by norm_num [Plane.eval], by norm_num [Plane.eval], by norm_num [Plane.eval]⟩
    rw [hself d hd]
  have hmat : Matters L p c := fun d hd => by
    rw [hself d hd]
    exact not_beyond_self (hbox p (List.mem_of_getElem? hp))
  have h2 := (hm.room c c1 hmat _ _ _ _ hcorner).2.2
  have hpb := hbox p (List.mem_of_getElem? hp)
  have hcb := hbox c hcL
  obtain ⟨⟨x1, x2⟩, ⟨y1, y2⟩, z1, z2⟩ := hpb
  obtain ⟨⟨u1, u2⟩, ⟨v1, v2⟩, w1, w2⟩ := hcb
  by_contra hc
  have hs : sqDist p c ≤ 1 / 2 ^ 36 := (c2 q hqm).trans (not_lt.mp hc)
  have e : sqDist p c = (p.x - c.x) ^ 2 + (p.y - c.y) ^ 2 + (p.z - c.z) ^ 2 := by unfold sqDist; ring
  rw [e] at hs
  have key : ∀ a b : ℚ, 0 ≤ a → a ≤ 1 → 0 ≤ b → b ≤ 1 → (a - b) ^ 2 ≤ 1 / 2 ^ 36 → |a ^ 2 - b ^ 2| ≤ 1 / 2 ^ 17 := by
    intro a b h1 h2 h3 h4 h5
    have hd : |a - b| ≤ 1 / 2 ^ 18 := by
      have : (a - b) ^ 2 ≤ (1 / 2 ^ 18) ^ 2 := by norm_num at h5 ⊢; exact h5
      exact abs_le_of_sq_le_sq this (by norm_num)
    rw [show a ^ 2 - b ^ 2 = (a - b) * (a + b) by ring, abs_mul, abs_of_nonneg (a := a + b) (by linarith)]
    calc |a - b| * (a + b) ≤ 1 / 2 ^ 18 * 2 := mul_le_mul hd (by linarith) (by linarith) (by norm_num)
      _ = 1 / 2 ^ 17 := by norm_num
  have sx := sq_nonneg (p.x - c.x)
  have sy := sq_nonneg (p.y - c.y)
  have sz := sq_nonneg (p.z - c.z)
  have kx := abs_le.mp (key p.x c.x x1 x2 u1 u2 (by linarith))
  have ky := abs_le.mp (key p.y c.y y1 y2 v1 v2 (by linarith))
  have kz := abs_le.mp (key p.z c.z z1 z2 w1 w2 (by linarith))
  have hfin : |sqDist ⟨0, 0, 0⟩ p - sqDist ⟨0, 0, 0⟩ c| ≤ 2 / 2 ^ 16 := by
    rw [abs_le]
    simp only [sqDist]
    constructor <;> linarith [kx.1, kx.2, ky.1, ky.2, kz.1, kz.2]
  linarith

theorem storePt_inj {L : List (Pt ℚ)} (hX : InputOK L) (hm : AllMarginsBy 2 L) {i j : Nat} {p q : Pt ℚ}
    (hp : L[i]? = some p) (hq : L[j]? = some q) (he : storePt p = storePt q) : j = i := by
  by_contra hij
  have hap := (hm i p hp).apart (input_box hX) hp hq hij
  obtain ⟨px, py, pz⟩ := hX p (List.mem_of_getElem? hp)
  obtain ⟨qx, qy, qz⟩ := hX q (List.mem_of_getElem? hq)
  have key : ∀ {a b : ℚ}, (0 ≤ a ∧ a ≤ 1 - 1 / 2 ^ 22) → (0 ≤ b ∧ b ≤ 1 - 1 / 2 ^ 22) →
      Fl.round b32 a = Fl.round b32 b → (a - b) ^ 2 ≤ 1 / 2 ^ 40 := by
    intro a b ha hb e
    obtain ⟨a1, -, a2⟩ := round_coord ha
    obtain ⟨b1, -, b2⟩ := round_coord hb
    rw [a1, b1] at e
    injection e with e
    rw [e] at a2
    have h1 := abs_le.mp a2
    have h2 := abs_le.mp b2
    have : |a - b| ≤ 1 / 2 ^ 20 := by
      rw [abs_le]; constructor <;> linarith [h1.1, h1.2, h2.1, h2.2]
    calc (a - b) ^ 2 = |a - b| ^ 2 := (sq_abs _).symm
      _ ≤ (1 / 2 ^ 20) ^ 2 := pow_le_pow_left₀ (abs_nonneg _) this 2
      _ = 1 / 2 ^ 40 := by norm_num
  simp only [storePt, Pt.mk.injEq] at he
  have k1 := key px qx he.1
  have k2 := key py qy he.2.1
  have k3 := key pz qz he.2.2
  have e : sqDist p q = (p.x - q.x) ^ 2 + (p.y - q.y) ^ 2 + (p.z - q.z) ^ 2 := by unfold sqDist; ring
  rw [e] at hap
  linarith

/-! ### reading -/

theorem scanF32_of {s r : Txt} {q : ℚ} (h : scanDec s = some (q, r)) (hq : 0 ≤ q ∧ q ≤ 1 - 1 / 2 ^ 22) :
    scanF32 s = some (Fl.round b32 q, r) := by
  unfold scanF32
  rw [h]
  simp only [(round_coord hq).1]

theorem readPoint_store {line : Txt} {p : Pt ℚ} (h : readPoint scanDec line = some p) (hX : InputOK [p]) :
    readPoint scanF32 line = some (storePt p) := by
  rw [readPoint_iff] at h ⊢
  obtain ⟨r1, r2, r3, h1, h2, h3⟩ := h
  obtain ⟨hx, hy, hz⟩ := hX p (by simp)
  exact ⟨r1, r2, r3, scanF32_of h1 hx, scanF32_of h2 hy, scanF32_of h3 hz⟩

theorem filePoints_store {lines : List Txt} {X : List (Pt ℚ)} (h : filePoints scanDec lines = some X)
    (hX : InputOK X) : filePoints scanF32 lines = some (X.map storePt) := by
  unfold filePoints at h ⊢
  split at h
  · rename_i hall
    simp only [Option.some.injEq] at h
    subst h
    have key : ∀ l ∈ lines, ∀ p, readPoint scanDec l = some p → readPoint scanF32 l = some (storePt p) := by
      intro l hl p hp
      refine readPoint_store hp fun q hq => ?_
      rw [List.mem_singleton] at hq
      subst hq
      exact hX q (List.mem_filterMap.mpr ⟨l, hl, hp⟩)
    rw [if_pos]
    · congr 1
      clear hX
      induction lines with
      | nil => rfl
      | cons l ls ih =>
        obtain ⟨p, hp⟩ := Option.isSome_iff_exists.mp (hall l (by simp))
        rw [List.filterMap_cons_some (key l (by simp) p hp), List.filterMap_cons_some hp, List.map_cons,
          ih (fun x hx => hall x (List.mem_cons_of_mem _ hx)) (fun x hx => key x (List.mem_cons_of_mem _ hx))]
    · intro l hl
      obtain ⟨p, hp⟩ := Option.isSome_iff_exists.mp (hall l hl)
      rw [key l hl p hp]; rfl
  · cases h

/-! ### the program -/

/-- recompute is on, fewer candidates than points, room for all planes and vertices -/
structure RoomyRec (prm : Params) (n : Nat) : Prop where
  k : prm.k < n
  pm : (n : Int) + 5 ≤ prm.pm
  tm : 2 * (n : Int) + 6 ≤ prm.tm
  again : prm.useRecompute = true

/-- a call for rounded points returns a table of correct rows, none of them empty -/
theorem stored_table {hw : Nat} {prm : Params} {X : List (Pt ℚ)} (h : FloatSizes hw prm) (hX : InputOK X)
    (hm : AllMarginsBy 2 X) (hroom : Roomy prm X.length ∨ RoomyRec prm X.length) :
    ∃ (out : TessOut F32) (L : List (Pt ℚ)) (rows : List (List Int)),
      tesellateCpu 4 hw prm (X.map storePt) = .ok out ∧ out.xyz = L.map storePt ∧ L.Perm X ∧
      out.dnn = getDnn rows ∧ rows.length = L.length ∧ NoSentinel rows ∧ (∀ r ∈ rows, r ≠ []) ∧
      ∀ i p row, L[i]? = some p → rows[i]? = some row → CorrectRow L i p row ∧ ExactRow L i p row := by
  have hbase : ∃ (out : TessOut F32) (L : List (Pt ℚ)), tesellateCpu 4 hw prm (X.map storePt) = .ok out ∧
      out.xyz = L.map storePt ∧ L.Perm X ∧
      (∀ i p, L[i]? = some p → ∃ row, RowIs out.dnn i row ∧ CorrectRow L i p row ∧ ExactRow L i p row) ∧
      Tabled out := by
    rcases hroom with hroom | hroom
    · obtain ⟨out, L, h1, h2, h3, h4⟩ := C71_enough_room h hX hm hroom
      refine ⟨out, L, h1, h2, h3, h4, (safe_job h (store_safe hX _)).tabled hroom.plain (hw := hw) ?_⟩
      rw [← storePt_eq hX]; exact h1
    · obtain ⟨out, R, L, h1, h2, -, h3, h4, h5, h6⟩ := stored_recompute_tabled fac_two storedAs_ptAp h
        (store_safe hX _) (storedAs_all hX) (input_box hX) hm hroom.k hroom.again hroom.pm hroom.tm
      exact ⟨out, L, by rw [storePt_eq hX]; exact h1, by rw [h2, storedAs_eq h3], h4, h5, h6⟩
  obtain ⟨out, L, h1, h2, h3, h4, h5⟩ := hbase
  obtain ⟨rows, r1, r2, r3, r4⟩ := h5.rows
  rw [h2, List.length_map] at r2
  have hn : 2 ≤ L.length := by
    rw [h3.length_eq]
    have := h.k
    rcases hroom with hroom | hroom
    · have := hroom.k; omega
    · have := hroom.k; omega
  have hcor : ∀ i p row, L[i]? = some p → rows[i]? = some row → CorrectRow L i p row ∧ ExactRow L i p row := by
    intro i p row hp hr
    obtain ⟨row', g1, g2, g3⟩ := h4 i p hp
    rw [(r4 i row hr).unique g1]
    exact ⟨g2, g3⟩
  have hboxL : ∀ v ∈ L, InUnitBox v := fun v hv => input_box hX v (h3.mem_iff.mp hv)
  refine ⟨out, L, rows, h1, h2, h3, r1, r2, r3, ?_, hcor⟩
  intro r hr
  obtain ⟨i, hi, e⟩ := List.getElem_of_mem hr
  have hiL : i < L.length := by omega
  have hp := List.getElem?_eq_getElem hiL
  have hrow : rows[i]? = some r := by rw [List.getElem?_eq_getElem hi, e]
  obtain ⟨j, hj, hji⟩ : ∃ j, j < L.length ∧ j ≠ i := by
    by_cases h0 : i = 0
    · exact ⟨1, by omega, by omega⟩
    · exact ⟨0, by omega, by omega⟩
  have hq := List.getElem?_eq_getElem hj
  have hap := ((hm.perm h3.symm) i _ hp).apart hboxL hp hq hji
  refine (hcor i _ r hp hrow).1.ne_nil (List.mem_of_getElem? hp) (List.mem_of_getElem? hq)
    (hboxL _ (List.mem_of_getElem? hq)) ?_
  intro e
  rw [e] at hap
  have : sqDist L[i] L[i] = 0 := by unfold sqDist; ring
  rw [this] at hap
  norm_num at hap

section
variable {hw : Nat} {openFile : Txt → Option Txt} {argv : List Txt} {txt : Txt} {X : List (Pt ℚ)} {prm : Params}

/-- C74: the whole program in single precision.  If the numbers in the file are the coordinates of points
with margins, and the options give room (all other points as candidates, or recompute), the program
returns 0 and prints one line per point, in grid order: line `i` lists exactly the points whose Voronoi
cells touch that of point `i`, for the points as written in the file. -/
theorem C74_program (hf : NumbersFit (getopt argv)) (hi : (lastValue 'i' (getopt argv)).getD [] ≠ [])
    (ho : openFile ((lastValue 'i' (getopt argv)).getD []) = some txt)
    (hp : filePoints scanDec (linesOf txt) = some X) (hprm : prm = cliParams (getopt argv) X.length)
    (h : FloatSizes hw prm) (hX : InputOK X) (hm : AllMarginsBy 2 X)
    (hroom : Roomy prm X.length ∨ RoomyRec prm X.length) :
    ∃ (t : Option (List Tok)) (rows : List (List Int)) (L : List (Pt ℚ)) (S : Sorted F32),
      cliMain 4 hw openFile scanF32 argv = .ok ⟨0, (getopt argv).filterMap msgOf, some t⟩ ∧
      printText t = layout rows ∧ rows.length = L.length ∧ L.Perm X ∧
      xyzSort 4 prm.gr (X.map storePt) = .ok S ∧ S.xyz = L.map storePt ∧
      ∀ i p row, L[i]? = some p → rows[i]? = some row → CorrectRow L i p row ∧ ExactRow L i p row := by
  obtain ⟨out, L, rows, h1, h2, h3, h4, h5, h6, h7, h8⟩ := stored_table h hX hm hroom
  obtain ⟨S, hS, hx⟩ : ∃ S, xyzSort 4 prm.gr (X.map storePt) = .ok S ∧ out.xyz = S.xyz := by
    have e := h1
    unfold tesellateCpu at e
    simp only at e
    rw [bind_eq_ok] at e
    obtain ⟨S, hS, e⟩ := e
    rw [bind_eq_ok] at e
    obtain ⟨⟨t, s⟩, -, e⟩ := e
    refine ⟨S, hS, ?_⟩
    simp only at e
    split at e
    · rw [bind_eq_ok] at e
      obtain ⟨⟨t', s'⟩, -, e⟩ := e
      cases e; rfl
    · cases e; rfl
  have hpos : 0 < rows.length := by
    rw [h5, h3.length_eq]
    have := h.k
    rcases hroom with hroom | hroom
    · have := hroom.k; omega
    · have := hroom.k; omega
  obtain ⟨r, rs, rfl⟩ : ∃ r rs, rows = r :: rs := by
    cases rows with
    | nil => simp at hpos
    | cons r rs => exact ⟨r, rs, rfl⟩
  obtain ⟨t, t1, t2⟩ := C73_print r rs h6 h7
  refine ⟨t, r :: rs, L, S, ?_, t2, h5, h3, hS, by rw [← hx, h2], h8⟩
  rw [C45_run hf hi ho (filePoints_store hp hX), List.length_map, ← hprm, h1]
  simp only [bind_ok]
  rw [h4, t1]
  rfl

/-- C74: if the points of the file are in ascending order of their grid cells, line `i` of the output is about
line `i` of the file, and the numbers in it are line numbers of the file (from 0). -/
theorem C74_program_ordered (hf : NumbersFit (getopt argv)) (hi : (lastValue 'i' (getopt argv)).getD [] ≠ [])
    (ho : openFile ((lastValue 'i' (getopt argv)).getD []) = some txt)
    (hp : filePoints scanDec (linesOf txt) = some X) (hprm : prm = cliParams (getopt argv) X.length)
    (h : FloatSizes hw prm) (hX : InputOK X) (hm : AllMarginsBy 2 X)
    (hroom : Roomy prm X.length ∨ RoomyRec prm X.length)
    (hord : (X.map storePt).Pairwise fun p q =>
      ∀ a b, cellId prm.gr p = .ok a → cellId prm.gr q = .ok b → a ≤ b) :
    ∃ (t : Option (List Tok)) (rows : List (List Int)),
      cliMain 4 hw openFile scanF32 argv = .ok ⟨0, (getopt argv).filterMap msgOf, some t⟩ ∧
      printText t = layout rows ∧ rows.length = (linesOf txt).length ∧
      ∀ i line row, (linesOf txt)[i]? = some line → rows[i]? = some row →
        ∃ p, readPoint scanDec line = some p ∧ CorrectRow X i p row ∧ ExactRow X i p row := by
  obtain ⟨t, rows, L, S, h1, h2, h3, h4, h5, h6, h7⟩ := C74_program hf hi ho hp hprm h hX hm hroom
  have hid : ∀ p ∈ X.map storePt, ∀ c, cellId prm.gr p = .ok c → 0 ≤ c ∧ c < 256 ^ 4 := by
    intro p hpm c hc
    rw [storePt_eq hX] at hpm
    obtain ⟨c', g1, g2, g3⟩ := safe_cells h (store_safe hX _) p hpm
    rw [g1] at hc; cases hc
    have hg := h.gr
    have e1 : prm.gr * prm.gr ≤ 1290 * 1290 := Int.mul_le_mul hg.2 hg.2 (by omega) (by omega)
    have e2 : prm.gr * prm.gr * prm.gr ≤ 1290 * 1290 * 1290 := Int.mul_le_mul e1 hg.2 (by omega) (by omega)
    exact ⟨by omega, by omega⟩
  have hS := C60_ordered_input h5 hid hord
  rw [hS] at h6
  have hL : L = X := by
    apply List.ext_getElem? 
    intro i
    have e := congrArg (fun l => l[i]?) h6
    simp only [List.getElem?_map] at e
    cases hx : X[i]? with
    | none =>
      rw [hx] at e
      cases hl : L[i]? with
      | none => rfl
      | some p => rw [hl] at e; cases e
    | some q =>
      rw [hx] at e
      cases hl : L[i]? with
      | none => rw [hl] at e; cases e
      | some p =>
        rw [hl] at e
        simp only [Option.map_some, Option.some.injEq] at e
        obtain ⟨j, hj, ej⟩ := List.getElem_of_mem (h4.mem_iff.mp (List.mem_of_getElem? hl))
        have hj' : X[j]? = some p := by rw [List.getElem?_eq_getElem hj, ej]
        have := storePt_inj hX hm hx hj' e
        subst this
        rw [hx] at hj'
        rw [hj']
  rw [hL] at h7 h3
  clear hL h6 h4 hS
  have hfile : (linesOf txt).length = X.length ∧ ∀ (i : Nat) (line : Txt), (linesOf txt)[i]? = some line →
      ∃ p, readPoint scanDec line = some p ∧ X[i]? = some p := by
    unfold filePoints at hp
    split at hp
    · rename_i hall
      simp only [Option.some.injEq] at hp
      rw [← hp]
      clear hp
      generalize linesOf txt = lines at hall
      induction lines with
      | nil => simp
      | cons l ls ih =>
        obtain ⟨p, hp⟩ := Option.isSome_iff_exists.mp (hall l (by simp))
        obtain ⟨g1, g2⟩ := ih fun x hx => hall x (List.mem_cons_of_mem _ hx)
        rw [List.filterMap_cons_some hp]
        refine ⟨by simp [g1], fun i line hi => ?_⟩
        cases i with
        | zero => simp only [List.getElem?_cons_zero, Option.some.injEq] at hi; subst hi; exact ⟨p, hp, rfl⟩
        | succ i => exact g2 i line (by simpa using hi)
    · cases hp
  refine ⟨t, rows, h1, h2, by rw [h3, hfile.1], fun i line row hl hr => ?_⟩
  obtain ⟨p, p1, p2⟩ := hfile.2 i line hl
  exact ⟨p, p1, h7 i p row p2 hr⟩

end

/-! ### a file with four points -/

/-- `tenths` as a text file; an exponent, a plus sign and blanks are allowed -/
def tenthsFile : Txt := "0.1 0.7 0.4\n.7 1e-1 0.90\n  +4e-1 0.8 0.8 # no. 3\n0.9\t0.4 0.6\n".toList

def tenthsArgv : List Txt := ["-g", "3", "-k", "3", "-p", "9", "-m", "14", "-i", "pts"].map String.toList

theorem tenthsOpts : getopt tenthsArgv = [.value 'g' "3".toList, .value 'k' "3".toList,
    .value 'p' "9".toList, .value 'm' "14".toList, .value 'i' "pts".toList] := by decide

theorem tenthsFile_pts : filePoints scanDec (linesOf tenthsFile) = some tenths := by decide +kernel

/-- the hypotheses of `C74_program` hold for a program run -/
example : ∃ (t : Option (List Tok)) (rows : List (List Int)) (L : List (Pt ℚ)),
    cliMain 4 8 (fun _ => some tenthsFile) scanF32 tenthsArgv = .ok ⟨0, [], some t⟩ ∧
    printText t = layout rows ∧ rows.length = L.length ∧ L.Perm tenths ∧
    ∀ i p row, L[i]? = some p → rows[i]? = some row → CorrectRow L i p row ∧ ExactRow L i p row := by
  have hf : NumbersFit (getopt tenthsArgv) := by
    rw [tenthsOpts]
    intro e _ a ha
    simp only [List.mem_cons, List.not_mem_nil, or_false, Opt.value.injEq] at ha
    rcases ha with h | h | h | h | h <;> (rw [h.2]; decide)
  have hprm : (⟨3, 3, 9, 14, 0, 0, false, false⟩ : Params) = cliParams (getopt tenthsArgv) tenths.length := by
    decide
  obtain ⟨t, rows, L, S, h1, h2, h3, h4, -, -, h5⟩ := C74_program (hw := 8) (openFile := fun _ => some tenthsFile) hf
    (by rw [tenthsOpts]; decide) rfl tenthsFile_pts hprm
    ⟨by decide, by decide, by decide, by decide, by decide⟩ tenths_input tenths_margins
    (Or.inl ⟨by decide, by decide, by decide, rfl⟩)
  rw [tenthsOpts] at h1
  exact ⟨t, rows, L, h1, h2, h3, h4, h5⟩

/-! ### `-k 0` -/

/-- two points -/
def twoFile : Txt := "0.25 0.875 0.25\n0.25 0.125 0.375\n".toList

/-- `-k 0` lets the program choose the number of candidates; it takes the number of points -/
def twoArgv : List Txt :=
  ["-k", "0", "-g", "1", "-p", "20", "-m", "36", "-t", "1", "-i", "pts"].map String.toList

theorem twoOpts : getopt twoArgv = [.value 'k' "0".toList, .value 'g' "1".toList, .value 'p' "20".toList,
    .value 'm' "36".toList, .value 't' "1".toList, .value 'i' "pts".toList] := by decide

/-- C74: with `-k 0` and fewer than 65 points the margins are not enough: for these two points the second
line of the output names the first point twice. -/
theorem C74_auto_k_wrong (hw : Nat) : ∃ t, cliMain 4 hw (fun _ => some twoFile) scanF32 twoArgv = .ok ⟨0, [], some t⟩ ∧
    printText t = "{\n  {1, }\n  {0, 0, }\n}\n".toList := by
  have hf : NumbersFit (getopt twoArgv) := by
    rw [twoOpts]
    intro e _ a ha
    simp only [List.mem_cons, List.not_mem_nil, or_false, Opt.value.injEq] at ha
    rcases ha with h | h | h | h | h | h <;> (rw [h.2]; decide)
  have hread : filePoints scanF32 (linesOf twoFile) = some (twoPts.map toF32) := by decide +kernel
  have hs := onePrm_sizes (k := 2) (by decide) (by decide) hw
  have hsafe : SafePoints (onePrm 2).gr (twoPts.map toF32) := safe_of_bound (by decide +kernel)
  obtain ⟨out, h1, h2, h3, -⟩ := runIs_call hs hsafe rfl twoPts_run
  obtain ⟨rows, r1, r2, r3, r4⟩ := ((safe_job hs hsafe).tabled rfl h1).rows
  have hrows : rows = [[1], [0, 0]] := by
    rw [h2] at r2
    match rows, r2, r4 with
    | [a, b], _, r4 =>
      rw [(r4 0 a rfl).unique (h3 0 _ rfl), (r4 1 b rfl).unique (h3 1 _ rfl)]
  subst hrows
  obtain ⟨t, t1, t2⟩ := C73_print [1] [[0, 0]] r3 (by simp)
  refine ⟨t, ?_, by rw [t2]; decide +kernel⟩
  rw [C45_run (txt := twoFile) hf (by rw [twoOpts]; decide) rfl hread,
    show cliParams (getopt twoArgv) (twoPts.map toF32).length = onePrm 2 by decide, h1]
  simp only [bind_ok]
  rw [r1, t1, twoOpts]
  rfl

end Votess
