import Verif.Model.PyCall
import Verif.Proofs.SglConv
import Verif.Props.IeeeFma
import Verif.Props.Py
/-!
# C79 — calls from Python

The numbers of a Python program are `double`s, the module stores them as `float`s: a decimal numeral is rounded
twice.  For points with a little more than twice the margins of C67 the result read in Python, item by item,
is that of the points as written.
-/
namespace Votess

open Sgl (Conv convPt toS)

/-! ### rounding twice -/

/-- a numeral rounded to `double`, then to `float` -/
def twice (x : ℚ) : ℚ := rnd b32 (rnd b64 x)

theorem twice_coord {x : ℚ} (h0 : 0 ≤ x) (h1 : x ≤ 1 - 1 / 2 ^ 22) :
    narrow (Fl.round b64 x) = .fin (twice x) ∧ (0 ≤ twice x ∧ twice x ≤ 1 - 1 / 2 ^ 23) ∧
      |twice x - x| ≤ (2 + 1 / 2 ^ 29 - 1) / 2 / 2 ^ 24 := by
  have hx : |x| < 1 := by rw [abs_of_nonneg h0]; linarith
  have e1 := fine64.err_unit hx
  have n1 := rnd_nonneg b64 h0
  have e1' := abs_le.mp e1
  have hy1 : rnd b64 x ≤ 1 - 1 / 2 ^ 22 + 1 / 2 ^ 54 := by
    have : (1 : ℚ) / 2 ^ 29 / 2 ^ 25 = 1 / 2 ^ 54 := by norm_num
    linarith [e1'.2]
  have hy : |rnd b64 x| < 1 := by rw [abs_of_nonneg n1]; linarith
  have e2 := fine32.err_unit hy
  have e2' := abs_le.mp e2
  refine ⟨?_, ⟨rnd_nonneg b32 n1, ?_⟩, ?_⟩
  · rw [fine64.small (hx.le.trans (by norm_num))]
    exact fine32.small (hy.le.trans (by norm_num))
  · unfold twice; linarith [e2'.2]
  · unfold twice
    rw [abs_le]
    constructor <;> linarith [e1'.1, e1'.2, e2'.1, e2'.2]

theorem conv_twice : Conv 1 (2 + 1 / 2 ^ 29) twice :=
  ⟨fun a b => (twice_coord a b).2.1, fun a b => (twice_coord a b).2.2⟩

theorem pyStore_eq (ch : Choice b32) {X : List (Pt ℚ)} (hX : InputOK X) :
    (X.map pyLit).map (pyStore ch) = (X.map (convPt twice)).map (toS : Pt ℚ → Pt (Fm ch)) := by
  rw [List.map_map, List.map_map]
  refine List.map_congr_left fun p hp => ?_
  obtain ⟨hx, hy, hz⟩ := hX p hp
  simp only [Function.comp_apply, pyLit, pyStore, (twice_coord hx.1 hx.2).1, (twice_coord hy.1 hy.2).1,
    (twice_coord hz.1 hz.2).1]
  rfl

/-! ### items in Python -/

/-- row `i`, as seen through `d[i].size()` and `d[i][j]` in Python, is `r` -/
def PyRow (d : Dnn) (i : Nat) (r : List Int) : Prop :=
  pySize d i = .ok r.length ∧ ∀ (j : Nat) (v : Int), r[j]? = some v → pyAt d i j = .ok v

theorem flatten_le {n : Nat} : ∀ {rows : List (List Int)}, (∀ r ∈ rows, r.length ≤ n) → rows.flatten.length ≤ rows.length * n
  | [], _ => by simp
  | r :: rs, h => by
    have h1 := h r (by simp)
    have h2 := flatten_le (rows := rs) fun x hx => h x (List.mem_cons_of_mem _ hx)
    rw [List.flatten_cons, List.length_append, List.length_cons, Nat.succ_mul]
    omega

theorem pyRow_of {rows : List (List Int)} (h : NoSentinel rows) {i : Nat} {row : List Int}
    (hr : rows[i]? = some row) (hn : rows.length < 2 ^ 31) (hl : rows.flatten.length < 2 ^ 31) :
    PyRow (getDnn rows) i row := by
  obtain ⟨hi, e⟩ := List.getElem?_eq_some_iff.mp hr
  have hrl : row.length ≤ rows.flatten.length :=
    (List.sublist_flatten_of_mem (List.mem_of_getElem? hr)).length_le
  have e1 : toSize (i : Int) = i := by unfold toSize; omega
  refine ⟨?_, fun j v hj => ?_⟩
  · unfold pySize
    rw [e1, C40_row_size rows h i hi (by rw [e]; omega), e]
  · have hj' := (List.getElem?_eq_some_iff.mp hj).1
    rw [C62_python_item rows h i j hi hn hl (by omega), List.drop_eq_getElem_cons hi, e, List.flatten_cons,
      List.getElem?_append_left hj', hj]

/-! ### the call -/

/-- the stored points are in ascending order of their grid cells -/
def InOrder {F D : Type} [FP F D] (gr : Int) (xyz : List (Pt F)) : Prop :=
  xyz.Pairwise fun p q => ∀ a b, cellId gr p = .ok a → cellId gr q = .ok b → a ≤ b

section
variable {ch : Choice b32} {hw : Nat} {prm : Params} {X : List (Pt ℚ)} {m : ArgMap} {d : Dnn}

theorem py_table (ch : Choice b32) (h : FloatSizes hw prm) (hX : InputOK X) (hm : AllMarginsBy (2 + 1 / 2 ^ 29) X)
    (hroom : Ample prm X) (hn : X.length ≤ 8000000) :
    ∃ (out : TessOut (Fm ch)) (L : List (Pt ℚ)),
      tesellateCpu 4 hw prm ((X.map pyLit).map (pyStore ch)) = .ok out ∧ L.Perm X ∧
      (InOrder prm.gr ((X.map pyLit).map (pyStore ch)) → L = X) ∧ out.dnn.size = X.length ∧
      ∀ i p, L[i]? = some p → ∃ row, PyRow out.dnn i row ∧ CorrectRow L i p row ∧ ExactRow L i p row := by
  rw [pyStore_eq ch hX]
  obtain ⟨out, L, rows, h1, h2, h3, h4, h5, h6, -, hrl, h8⟩ := Conv.table (F := Fm ch) (c := twice) conv_twice rfl
    (by norm_num) (by norm_num) h hX hm hroom
  have hlen := h3.length_eq
  have hfl := flatten_le hrl
  have hmul : rows.length * 250 ≤ 8000000 * 250 := Nat.mul_le_mul_right _ (by omega)
  refine ⟨out, L, h1, h3, fun hord => ?_, ?_, fun i p hp => ?_⟩
  · obtain ⟨S, hS, hx⟩ := Sgl.tess_sorted h1
    have hid : S.xyz = (X.map (convPt twice)).map (toS : Pt ℚ → Pt (Fm ch)) := by
      refine C60_ordered_input hS ?_ hord
      intro p hpm c hc
      obtain ⟨c', g1, g2, g3⟩ := Sgl.safe_cells (F := Fm ch) h (conv_twice.safe h.gr.1 h.gr.2 hX) p hpm
      rw [g1] at hc; cases hc
      have hg := h.gr
      have e1 : prm.gr * prm.gr ≤ 1290 * 1290 := Int.mul_le_mul hg.2 hg.2 (by omega) (by omega)
      have e2 : prm.gr * prm.gr * prm.gr ≤ 1290 * 1290 * 1290 := Int.mul_le_mul e1 hg.2 (by omega) (by omega)
      exact ⟨by omega, by omega⟩
    rw [hx, hid] at h2
    have hinj : Function.Injective (toS : Pt ℚ → Pt (Fm ch)) := fun a b e => Sgl.toS_inj e
    exact conv_twice.same_order (by norm_num) (by norm_num) (by norm_num) hX hm h3 (List.map_injective_iff.mpr hinj h2)
  · rw [h4, C40_size rows h6 (by omega), h5, hlen]
  · have hi := (List.getElem?_eq_some_iff.mp hp).1
    have hr : rows[i]? = some rows[i] := List.getElem?_eq_getElem (by omega)
    refine ⟨rows[i], ?_, h8 i p _ hp hr⟩
    rw [h4]
    exact pyRow_of h6 hr (by omega) (by omega)

/-- C79: calls that use the CPU, because it is asked for or because there is no GPU -/
theorem C79_cpu {found : Bool} {dev : Device} (hcpu : dev = .cpu ∨ found = false) (hp : m.params = .ok prm)
    (h : FloatSizes hw prm) (hX : InputOK X) (hm : AllMarginsBy (2 + 1 / 2 ^ 29) X)
    (hroom : Ample prm X) (hn : X.length ≤ 8000000) :
    (∃ d, PyResult ch hw found dev m (X.map pyLit) d) ∧
    ∀ d, PyResult ch hw found dev m (X.map pyLit) d → ∃ L : List (Pt ℚ), L.Perm X ∧
      (InOrder prm.gr ((X.map pyLit).map (pyStore ch)) → L = X) ∧ d.size = X.length ∧
      ∀ i p, L[i]? = some p → ∃ row, PyRow d i row ∧ CorrectRow L i p row ∧ ExactRow L i p row := by
  obtain ⟨out, L, h1, h2, h3, h4, h5⟩ := py_table ch h hX hm hroom hn
  constructor
  · refine ⟨out.dnn, prm, out, hp, rfl, ?_⟩
    cases dev with
    | cpu => exact h1
    | gpu =>
      obtain rfl : found = false := by rcases hcpu with h | h; cases h; exact h
      exact ⟨0, ⟨fun h => absurd h (by decide), (C59_fallback ..).mpr h1⟩⟩
  · rintro d ⟨prm', out', e1, rfl, e2⟩
    rw [hp] at e1; cases e1
    have : out' = out := by
      cases dev with
      | cpu =>
        simp only at e2
        rw [h1] at e2; cases e2; rfl
      | gpu =>
        obtain rfl : found = false := by rcases hcpu with h | h; cases h; exact h
        obtain ⟨nd, -, e2⟩ := e2
        rw [C59_fallback, h1] at e2; cases e2; rfl
    rw [this]
    exact ⟨L, h2, h3, h4, h5⟩

/-- C79: calls with either device -/
theorem C79_any_device {found : Bool} {dev : Device} (hp : m.params = .ok prm)
    (h : FloatSizes hw prm) (hX : InputOK X) (hm : AllMarginsBy (2 + 1 / 2 ^ 29) X)
    (hroom : Ample prm X) (hn : X.length ≤ 8000000) (hr : prm.useRecompute = false) (hgr : prm.gr ≤ 255) (htm : prm.tm ≤ 254) (hu : Unchunked prm X.length)
    (hd : PyResult ch hw found dev m (X.map pyLit) d) : ∃ L : List (Pt ℚ), L.Perm X ∧
      (InOrder prm.gr ((X.map pyLit).map (pyStore ch)) → L = X) ∧ d.size = X.length ∧
      ∀ i p, L[i]? = some p → ∃ row, PyRow d i row ∧ CorrectRow L i p row ∧ ExactRow L i p row := by
  by_cases hcpu : dev = .cpu ∨ found = false
  · exact (C79_cpu hcpu hp h hX hm hroom hn).2 d hd
  · push Not at hcpu
    obtain ⟨h1, h2⟩ := hcpu
    cases dev with
    | cpu => exact absurd rfl h1
    | gpu =>
      obtain rfl : found = true := by simpa using h2
      obtain ⟨prm', out, e1, rfl, nd, -, e2⟩ := hd
      rw [hp] at e1; cases e1
      rw [pyStore_eq ch hX] at e2
      obtain ⟨cpu, c1, -, c3, -⟩ := Sgl.gpu_table h (conv_twice.safe h.gr.1 h.gr.2 hX) hgr htm
        (by rw [List.length_map]; exact hu) hr e2
      obtain ⟨out', L, g1, g2, g3, g4, g5⟩ := py_table ch h hX hm hroom hn
      rw [pyStore_eq ch hX, c1] at g1; cases g1
      rw [c3]
      exact ⟨L, g2, g3, g4, g5⟩

/-- C79: on a GPU there are results if the work-group size divides the number of points -/
theorem C79_gpu_possible {ndsize : Int} (hp : m.params = .ok prm) (hnd : m.int "gpu_ndsize" = .ok ndsize)
    (h : FloatSizes hw prm) (hX : InputOK X) (hm : AllMarginsBy (2 + 1 / 2 ^ 29) X)
    (hroom : Ample prm X) (hn : X.length ≤ 8000000) (hr : prm.useRecompute = false) (hgr : prm.gr ≤ 255) (htm : prm.tm ≤ 254) (hu : Unchunked prm X.length)
    (h0 : 0 < ndsize) (hd : ndsize ∣ X.length) : ∃ d, PyResult ch hw true .gpu m (X.map pyLit) d := by
  obtain ⟨out, L, g1, -⟩ := py_table ch h hX hm hroom hn
  refine ⟨out.dnn, prm, out, hp, rfl, ndsize, fun _ => hnd, ?_⟩
  rw [pyStore_eq ch hX] at g1 ⊢
  exact Sgl.gpu_runs h (conv_twice.safe h.gr.1 h.gr.2 hX) hgr htm (by rw [List.length_map]; exact hu) h0
    (by rw [List.length_map]; exact hd) g1

/-- C79: with resolution 1 the rows are about the points in the order given, whatever that is -/
theorem C79_one_cell (ch : Choice b32) (hX : InputOK X) : InOrder 1 ((X.map pyLit).map (pyStore ch)) := by
  rw [pyStore_eq ch hX]
  refine List.pairwise_of_forall_mem_list ?_
  intro p hp q hq a b ha hb
  have h : FloatSizes 1 ⟨1, 1, 6, 8, 1, 0, false, false⟩ := by constructor <;> simp
  have key : ∀ v ∈ (X.map (convPt twice)).map (toS : Pt ℚ → Pt (Fm ch)), ∀ c, cellId 1 v = .ok c → c = 0 := by
    intro v hv c hc
    obtain ⟨c', g1, g2, g3⟩ := Sgl.safe_cells (F := Fm ch) h (conv_twice.safe h.gr.1 h.gr.2 hX) v hv
    simp only at g1 g3
    rw [g1] at hc; cases hc
    omega
  rw [key p hp a ha, key q hq b hb]

end

end Votess
