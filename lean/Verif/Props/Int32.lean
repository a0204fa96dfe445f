import Verif.Model.Int32
import Verif.Props.XyzSet
import Verif.Props.Dnn
import Mathlib.Tactic.Linarith
import Mathlib.Tactic.NormNum
import Mathlib.Tactic.Ring
import Mathlib.Tactic.Positivity
/-!
# C51 — sizes and positions computed in 32-bit `int`

The model of the tasks keeps one row per task and computes sizes with unbounded integers.
The theorems say when the flat buffers and the `int` arithmetic of the program agree with
that, and that beyond those sizes the program has undefined behaviour.
-/
namespace Votess

/-! ### the conditions, in plain arithmetic -/

/-- a non-negative number that an `int` can hold -/
def FitsInt (v : Int) : Prop := 0 ≤ v ∧ v < 2 ^ 31

/-- `rows` rows of `k` neighbours, `pm` planes of 4 numbers and `tm` vertices of 3 planes -/
def BuffersFit (rows k pm tm : Int) : Prop :=
  FitsInt (rows * k) ∧ FitsInt (4 * (rows * pm)) ∧ FitsInt (3 * (rows * tm))

instance (v : Int) : Decidable (FitsInt v) := by unfold FitsInt; infer_instance
instance (a b c d : Int) : Decidable (BuffersFit a b c d) := by unfold BuffersFit; infer_instance

theorem i32_ok {v : Int} (h : FitsInt v) : i32 v = .ok v := by
  unfold FitsInt at h
  unfold i32; rw [if_pos ⟨by omega, h.2⟩]

theorem i32_nonneg {v : Int} (h : 0 ≤ v) : i32 v = if FitsInt v then .ok v else .error .overflow := by
  by_cases h2 : FitsInt v
  · rw [if_pos h2, i32_ok h2]
  · rw [if_neg h2]; unfold FitsInt at h2; unfold i32
    rw [if_neg (fun q => h2 ⟨h, q.2⟩)]

theorem mul32_ok {a b : Int} (h : FitsInt (a * b)) : mul32 a b = .ok (a * b) := i32_ok h
theorem add32_ok {a b : Int} (h : FitsInt (a + b)) : add32 a b = .ok (a + b) := i32_ok h

/-- C51: the buffer lengths are exact when they fit an `int`; otherwise computing them is
undefined. -/
theorem C51_alloc (rows k pm tm : Int) (hr : 0 ≤ rows) (hk : 0 ≤ k) (hp : 0 ≤ pm) (ht : 0 ≤ tm) :
    alloc32 rows k pm tm =
      if BuffersFit rows k pm tm
      then .ok (rows * k, 4 * (rows * pm), 3 * (rows * tm), rows * pm)
      else .error .overflow := by
  have e1 : 0 ≤ rows * k := by positivity
  have e2 : 0 ≤ rows * pm := by positivity
  have e3 : 0 ≤ rows * tm := by positivity
  unfold alloc32 len32Heap len32P len32T len32dR mul32
  by_cases h1 : FitsInt (rows * k)
  · by_cases h2 : FitsInt (4 * (rows * pm))
    · by_cases h3 : FitsInt (3 * (rows * tm))
      · have h2' : FitsInt (rows * pm) := by unfold FitsInt at *; omega
        have h3' : FitsInt (rows * tm) := by unfold FitsInt at *; omega
        rw [if_pos ⟨h1, h2, h3⟩]
        have h2c : FitsInt (rows * pm * 4) := by unfold FitsInt at *; omega
        have h3c : FitsInt (rows * tm * 3) := by unfold FitsInt at *; omega
        simp only [i32_ok h1, i32_ok h2', i32_ok h3', i32_ok h2c, i32_ok h3c, bind_ok]
        rw [Int.mul_comm (rows * pm), Int.mul_comm (rows * tm)]; rfl
      · rw [if_neg (fun q => h3 q.2.2)]
        have h2' : FitsInt (rows * pm) := by unfold FitsInt at *; omega
        have h2c : FitsInt (rows * pm * 4) := by unfold FitsInt at *; omega
        have h3c : ¬ FitsInt (rows * tm * 3) := by unfold FitsInt at *; omega
        simp only [i32_ok h1, i32_ok h2', i32_ok h2c, bind_ok]
        rw [i32_nonneg e3]
        by_cases h3' : FitsInt (rows * tm)
        · rw [if_pos h3']; simp only [bind_ok]
          rw [i32_nonneg (by omega), if_neg h3c]; rfl
        · rw [if_neg h3']; rfl
    · rw [if_neg (fun q => h2 q.2.1)]
      have h2c : ¬ FitsInt (rows * pm * 4) := by unfold FitsInt at *; omega
      simp only [i32_ok h1, bind_ok]
      rw [i32_nonneg e2]
      by_cases h2' : FitsInt (rows * pm)
      · rw [if_pos h2']; simp only [bind_ok]
        rw [i32_nonneg (by omega), if_neg h2c]; rfl
      · rw [if_neg h2']; rfl
  · rw [if_neg (fun q => h1 q.1), i32_nonneg e1, if_neg h1]; rfl

theorem lin_index {rows w i j : Int} (hi : 0 ≤ i ∧ i < rows) (hj : 0 ≤ j ∧ j < w) :
    0 ≤ w * i ∧ 0 ≤ w * i + j ∧ w * i + j < rows * w := by
  obtain ⟨hi0, hi1⟩ := hi
  obtain ⟨hj0, hj1⟩ := hj
  have a : 0 ≤ w * i := by apply Int.mul_nonneg <;> omega
  have b : (i + 1) * w ≤ rows * w := by apply Int.mul_le_mul_of_nonneg_right <;> omega
  refine ⟨a, by omega, ?_⟩
  have c : (i + 1) * w = w * i + w := by ring
  omega

/-- C51: when the lengths fit, the position of coordinate `c` of plane `j` of row `i` is computed
without overflow and lies in the buffer. -/
theorem C51_plane_index {rows k pm tm i j c : Int} (h : BuffersFit rows k pm tm)
    (hi : 0 ≤ i ∧ i < rows) (hj : 0 ≤ j ∧ j < pm) (hc : 0 ≤ c ∧ c < 4) :
    idx32P pm i j c = .ok (4 * (pm * i + j) + c) ∧
      0 ≤ 4 * (pm * i + j) + c ∧ 4 * (pm * i + j) + c < 4 * (rows * pm) := by
  obtain ⟨l1, l2, l3⟩ := lin_index hi hj
  obtain ⟨-, h2, -⟩ := h
  unfold FitsInt at h2
  have e1 : pm ≤ rows * pm := by nlinarith
  have f1 : FitsInt (4 * pm) := by unfold FitsInt; omega
  have f2 : FitsInt (4 * pm * i) := by unfold FitsInt; rw [Int.mul_assoc]; omega
  have f3 : FitsInt (4 * j) := by unfold FitsInt; omega
  have f4 : FitsInt (4 * pm * i + 4 * j) := by unfold FitsInt; rw [Int.mul_assoc]; omega
  have f5 : FitsInt (4 * pm * i + 4 * j + c) := by unfold FitsInt; rw [Int.mul_assoc]; omega
  refine ⟨?_, by omega, by omega⟩
  unfold idx32P
  simp only [mul32_ok f1, mul32_ok f2, mul32_ok f3, add32_ok f4, add32_ok f5, bind_ok]
  congr 1; ring

/-- C51: likewise for entry `c` of vertex `j` of row `i`. -/
theorem C51_vertex_index {rows k pm tm i j c : Int} (h : BuffersFit rows k pm tm)
    (hi : 0 ≤ i ∧ i < rows) (hj : 0 ≤ j ∧ j < tm) (hc : 0 ≤ c ∧ c < 3) :
    idx32T tm i j c = .ok (3 * (tm * i + j) + c) ∧
      0 ≤ 3 * (tm * i + j) + c ∧ 3 * (tm * i + j) + c < 3 * (rows * tm) := by
  obtain ⟨l1, l2, l3⟩ := lin_index hi hj
  obtain ⟨-, -, h2⟩ := h
  unfold FitsInt at h2
  have e1 : tm ≤ rows * tm := by nlinarith
  have f1 : FitsInt (3 * tm) := by unfold FitsInt; omega
  have f2 : FitsInt (3 * tm * i) := by unfold FitsInt; rw [Int.mul_assoc]; omega
  have f3 : FitsInt (3 * j) := by unfold FitsInt; omega
  have f4 : FitsInt (3 * tm * i + 3 * j) := by unfold FitsInt; rw [Int.mul_assoc]; omega
  have f5 : FitsInt (3 * tm * i + 3 * j + c) := by unfold FitsInt; rw [Int.mul_assoc]; omega
  refine ⟨?_, by omega, by omega⟩
  unfold idx32T
  simp only [mul32_ok f1, mul32_ok f2, mul32_ok f3, add32_ok f4, add32_ok f5, bind_ok]
  congr 1; ring

/-- C51: likewise for neighbour `j` and for cycle entry `j` of row `i`. -/
theorem C51_row_index {rows k pm tm i j : Int} (h : BuffersFit rows k pm tm)
    (hi : 0 ≤ i ∧ i < rows) :
    (0 ≤ j ∧ j < k → idx32K k i j = .ok (k * i + j) ∧ 0 ≤ k * i + j ∧ k * i + j < rows * k) ∧
    (0 ≤ j ∧ j < pm →
      idx32dR pm i j = .ok (pm * i + j) ∧ 0 ≤ pm * i + j ∧ pm * i + j < rows * pm) := by
  obtain ⟨h1, h2, -⟩ := h
  unfold FitsInt at h1 h2
  constructor <;> intro hj <;> obtain ⟨l1, l2, l3⟩ := lin_index hi hj
  · refine ⟨?_, l2, l3⟩
    unfold idx32K
    rw [mul32_ok (by unfold FitsInt; omega), bind_ok, add32_ok (by unfold FitsInt; omega)]
  · refine ⟨?_, l2, l3⟩
    unfold idx32dR
    rw [mul32_ok (by unfold FitsInt; omega), bind_ok, add32_ok (by unfold FitsInt; omega)]

/-- C51: likewise for the interleaved plane buffer of the device. -/
theorem C51_device_plane_index {rows k pm tm i j c : Int} (h : BuffersFit rows k pm tm)
    (hi : 0 ≤ i ∧ i < rows) (hj : 0 ≤ j ∧ j < pm) (hc : 0 ≤ c ∧ c < 4) :
    idx32Pg rows i j c = .ok (rows * (4 * j + c) + i) ∧
      0 ≤ rows * (4 * j + c) + i ∧ rows * (4 * j + c) + i < 4 * (rows * pm) := by
  obtain ⟨-, h2, -⟩ := h
  unfold FitsInt at h2
  obtain ⟨l1, l2, l3⟩ := lin_index (rows := 4 * pm) (w := rows) (i := 4 * j + c) (j := i)
    ⟨by omega, by omega⟩ hi
  have e0 : 4 * pm * rows = 4 * (rows * pm) := by ring
  have e1 : rows * (4 * j + c) = 4 * rows * j + rows * c := by ring
  have e2 : 0 ≤ rows * c := by apply Int.mul_nonneg <;> omega
  have e3 : 0 ≤ rows * j := by apply Int.mul_nonneg <;> omega
  have e4 : rows ≤ rows * pm := by nlinarith
  have e5 : 4 * rows * j = 4 * (rows * j) := by ring
  have f1 : FitsInt (4 * rows) := by unfold FitsInt; omega
  have f2 : FitsInt (4 * rows * j) := by unfold FitsInt; omega
  have f3 : FitsInt (rows * c) := by unfold FitsInt; omega
  have f4 : FitsInt (4 * rows * j + rows * c) := by unfold FitsInt; omega
  have f5 : FitsInt (4 * rows * j + rows * c + i) := by unfold FitsInt; omega
  refine ⟨?_, by omega, by omega⟩
  unfold idx32Pg
  simp only [mul32_ok f1, mul32_ok f2, mul32_ok f3, add32_ok f4, add32_ok f5, bind_ok]
  congr 1; omega

/-- C51: reading and writing position `w * i + j` of a flat buffer of rows of length `w` is reading
and writing entry `j` of row `i`, so a list of rows represents the flat buffer. -/
theorem C51_flat {α : Type} (rows : List (List α)) (w i j : Nat) (hw : ∀ r ∈ rows, r.length = w)
    (hj : j < w) (v : α) :
    rows.flatten.length = rows.length * w ∧
    rows.flatten[w * i + j]? = rows[i]?.bind (fun r => r[j]?) ∧
    rows.flatten.set (w * i + j) v = (rows.modify i (fun r => r.set j v)).flatten := by
  induction rows generalizing i with
  | nil => simp
  | cons r rows ih =>
    have hr : r.length = w := hw r (by simp)
    have hw' : ∀ r ∈ rows, r.length = w := fun r h => hw r (by simp [h])
    refine ⟨?_, ?_, ?_⟩
    · rw [List.flatten_cons, List.length_append, (ih 0 hw').1, hr, List.length_cons]; ring
    · cases i with
      | zero =>
        rw [List.flatten_cons, List.getElem?_append_left (by omega)]
        simp
      | succ i =>
        rw [List.flatten_cons, List.getElem?_append_right (by rw [Nat.mul_succ]; omega), hr]
        have e : w * (i + 1) + j - w = w * i + j := by rw [Nat.mul_succ]; omega
        rw [e, (ih i hw').2.1]; simp
    · cases i with
      | zero =>
        rw [List.flatten_cons, List.set_append_left _ _ (by omega)]
        simp
      | succ i =>
        rw [List.flatten_cons, List.set_append_right _ _ (by rw [Nat.mul_succ]; omega), hr]
        have e : w * (i + 1) + j - w = w * i + j := by rw [Nat.mul_succ]; omega
        rw [e, (ih i hw').2.2]; simp

/-! ### the number of points -/

theorem toInt32_eq {n : Nat} (h : n < 2 ^ 31) : toInt32 n = n := by unfold toInt32; omega

/-- C51: without chunking, the sizes of a CPU call are exact if `n` rows fit and `n + 1` does, and
undefined otherwise (`n < 2^31` points). -/
theorem C51_whole (n : Nat) (k pm tm cs : Int) (hn : n < 2 ^ 31) (hk : 0 ≤ k) (hp : 0 ≤ pm)
    (ht : 0 ≤ tm) :
    cpuSizes32 false cs k pm tm n =
      if n + 1 < 2 ^ 31 ∧ BuffersFit n k pm tm
      then .ok (n * k, 4 * (n * pm), 3 * (n * tm), n * pm) else .error .overflow := by
  unfold cpuSizes32 chunk32
  simp only [toInt32_eq hn, Bool.false_eq_true, if_false, add32]
  by_cases h : n + 1 < 2 ^ 31
  · rw [i32_ok (by unfold FitsInt; omega), bind_ok, if_neg (by omega), C51_alloc _ _ _ _ (by omega) hk hp ht]
    by_cases hb : BuffersFit n k pm tm
    · rw [if_pos hb, if_pos ⟨h, hb⟩]
    · rw [if_neg hb, if_neg (fun q => hb q.2)]
  · rw [i32_nonneg (by omega), if_neg (by unfold FitsInt; omega), if_neg (by omega)]; rfl

/-- C51: with the default sizes and no chunking every call with `2^24` or more points overflows
(the lengths of the plane buffer are `128 n`), and every call with fewer does not. -/
theorem C51_default_limit (n : Nat) (cs : Int) (hn : n < 2 ^ 31) :
    (cpuSizes32 false cs 64 32 32 n = .error .overflow ↔ 2 ^ 24 ≤ n) ∧
    (n < 2 ^ 24 → cpuSizes32 false cs 64 32 32 n = .ok (64 * n, 128 * n, 96 * n, 32 * n)) := by
  have key : BuffersFit n 64 32 32 ↔ n < 2 ^ 24 := by
    unfold BuffersFit FitsInt; omega
  rw [C51_whole n 64 32 32 cs hn (by omega) (by omega) (by omega)]
  constructor
  · by_cases h : n < 2 ^ 24
    · rw [if_pos ⟨by omega, key.mpr h⟩]; simp; omega
    · rw [if_neg (fun q => h (key.mp q.2))]; simp; omega
  · intro h
    rw [if_pos ⟨by omega, key.mpr h⟩]
    simp only [Except.ok.injEq, Prod.mk.injEq]
    omega

/-- C51: with chunking the limits concern the chunk, whatever the number of points is. -/
theorem C51_chunked (n : Nat) (k pm tm cs : Int) (hn : n < 2 ^ 31) (hk : 0 ≤ k) (hp : 0 ≤ pm)
    (ht : 0 ≤ tm) (hc : 0 < cs) (hfit : BuffersFit cs k pm tm) :
    ∃ r, cpuSizes32 true cs k pm tm n = .ok r := by
  unfold cpuSizes32 chunk32
  simp only [toInt32_eq hn, if_true]
  rw [pure_bind]
  by_cases h : 0 < cs ∧ cs < (n : Int)
  · rw [if_pos h, C51_alloc _ _ _ _ (by omega) hk hp ht, if_pos hfit]; exact ⟨_, rfl⟩
  · rw [if_neg h, C51_alloc _ _ _ _ (by omega) hk hp ht, if_pos ?_]
    · exact ⟨_, rfl⟩
    · have hle : (n : Int) ≤ cs := by omega
      obtain ⟨h1, h2, h3⟩ := hfit
      unfold FitsInt at h1 h2 h3
      have a1 : (n : Int) * k ≤ cs * k := Int.mul_le_mul_of_nonneg_right hle hk
      have a2 : (n : Int) * pm ≤ cs * pm := Int.mul_le_mul_of_nonneg_right hle hp
      have a3 : (n : Int) * tm ≤ cs * tm := Int.mul_le_mul_of_nonneg_right hle ht
      have b1 : 0 ≤ (n : Int) * k := by positivity
      have b2 : 0 ≤ (n : Int) * pm := by positivity
      have b3 : 0 ≤ (n : Int) * tm := by positivity
      refine ⟨⟨b1, by omega⟩, ⟨by omega, by omega⟩, ⟨by omega, by omega⟩⟩

example : BuffersFit 8196 64 32 32 := by decide

/-- C51: the first point of every run is computed without overflow. -/
theorem C51_run_start (n : Nat) (cs : Int) (run : Nat) (hn : n < 2 ^ 31)
    (hrun : run < chunkRuns n cs) (hcs : cs < 2 ^ 31) (hcs0 : -2 ^ 31 ≤ cs) :
    start32 run cs = .ok (run * cs) := by
  unfold chunkRuns at hrun
  unfold start32 mul32 i32
  split at hrun
  · rename_i h
    simp only [Bool.and_eq_true, decide_eq_true_eq] at h
    have hr : run ≤ n / cs.toNat := by omega
    have h1 : run * cs.toNat ≤ n := le_trans (Nat.mul_le_mul_right _ hr) (Nat.div_mul_le_self n cs.toNat)
    have h2 : ((run * cs.toNat : Nat) : Int) = run * cs := by
      rw [Nat.cast_mul, Int.toNat_of_nonneg (by omega)]
    rw [if_pos (by omega)]
  · have : run = 0 := by omega
    subst this
    simp

/-! ### the grid -/

theorem cube_fits {gr : Int} (h0 : 0 ≤ gr) : FitsInt (gr * gr * gr) ↔ gr ≤ 1290 := by
  unfold FitsInt
  constructor
  · intro h
    by_contra hc
    have h1 : 1291 ≤ gr := by omega
    have h2 : 1291 * 1291 ≤ gr * gr := by nlinarith
    have h3 : 1291 * 1291 * 1291 ≤ gr * gr * gr := by nlinarith
    omega
  · intro h
    have h1 : gr * gr ≤ 1290 * 1290 := by nlinarith
    have h0' : 0 ≤ gr * gr := by positivity
    refine ⟨by positivity, ?_⟩
    have h2 : gr * gr * gr ≤ 1290 * 1290 * 1290 := by nlinarith
    omega

/-- C51: the number of cells and the length of the offset table are exact for grid resolutions up
to 1290 and undefined from 1291 on. -/
theorem C51_grid (gr : Int) (h0 : 0 ≤ gr) :
    idmax32 gr = (if gr ≤ 1290 then .ok (gr * gr * gr) else .error .overflow) ∧
    offsetLen32 gr = (if gr ≤ 1290 then .ok (gr * gr * gr + 1) else .error .overflow) := by
  have key : idmax32 gr = (if gr ≤ 1290 then .ok (gr * gr * gr) else .error .overflow) := by
    have hc := cube_fits h0
    have e2 : 0 ≤ gr * gr := by positivity
    unfold idmax32 mul32
    by_cases h : gr ≤ 1290
    · rw [if_pos h, i32_ok ⟨e2, by nlinarith⟩, bind_ok, i32_ok (hc.mpr h)]
    · rw [if_neg h, i32_nonneg e2]
      split
      · rw [bind_ok, i32_nonneg (by positivity), if_neg (fun q => h (hc.mp q))]
      · rfl
  refine ⟨key, ?_⟩
  unfold offsetLen32
  rw [key]
  by_cases h : gr ≤ 1290
  · rw [if_pos h, if_pos h, bind_ok, add32_ok]
    have h2 : gr * gr ≤ 1290 * 1290 := by nlinarith
    have h3 : 0 ≤ gr * gr * gr := by positivity
    have h4 : gr * gr * gr ≤ 1290 * 1290 * 1290 := by nlinarith
    exact ⟨by omega, by omega⟩
  · rw [if_neg h, if_neg h]; rfl

theorem cell_bound {gr x y z : Int} (hx : 0 ≤ x ∧ x < gr) (hy : 0 ≤ y ∧ y < gr)
    (hz : 0 ≤ z ∧ z < gr) :
    0 ≤ y * gr ∧ x + y * gr < gr * gr ∧ 0 ≤ z * gr ∧ z * gr ≤ gr * gr ∧ 0 ≤ z * gr * gr ∧
      x + y * gr + z * gr * gr < gr * gr * gr := by
  have a : (y + 1) * gr ≤ gr * gr := by apply Int.mul_le_mul_of_nonneg_right <;> omega
  have b : (z + 1) * (gr * gr) ≤ gr * (gr * gr) := by
    apply Int.mul_le_mul_of_nonneg_right
    · omega
    · nlinarith
  have c : (y + 1) * gr = y * gr + gr := by ring
  have d : (z + 1) * (gr * gr) = z * gr * gr + gr * gr := by ring
  have e : gr * (gr * gr) = gr * gr * gr := by ring
  have f : z * gr ≤ gr * gr := by apply Int.mul_le_mul_of_nonneg_right <;> omega
  have g : 0 ≤ z * gr := by apply Int.mul_nonneg <;> omega
  have k : 0 ≤ y * gr := by apply Int.mul_nonneg <;> omega
  refine ⟨k, by omega, g, f, ?_, by omega⟩
  apply Int.mul_nonneg <;> omega

/-- C51: for grid resolutions up to 1290 the cell numbers of points in the grid, written in the
two ways of the program, are exact, equal and less than the number of cells. -/
theorem C51_cell_number {gr x y z : Int} (hg : gr ≤ 1290) (hx : 0 ≤ x ∧ x < gr)
    (hy : 0 ≤ y ∧ y < gr) (hz : 0 ≤ z ∧ z < gr) :
    id32 gr x y z = .ok (x + gr * y + gr * gr * z) ∧
    cid32 gr x y z = .ok (x + gr * y + gr * gr * z) ∧
    0 ≤ x + gr * y + gr * gr * z ∧ x + gr * y + gr * gr * z < gr * gr * gr := by
  obtain ⟨a, b, c, d, e, f⟩ := cell_bound hx hy hz
  obtain ⟨-, hc⟩ := (cube_fits (gr := gr) (by omega)).mpr hg
  have q : gr * gr ≤ gr * gr * gr := by nlinarith
  have r1 : x + gr * y + gr * gr * z = x + y * gr + z * gr * gr := by ring
  rw [r1]
  refine ⟨?_, ?_, by omega, f⟩
  · unfold id32
    rw [mul32_ok ⟨a, by omega⟩, bind_ok, add32_ok ⟨by omega, by omega⟩, bind_ok,
      mul32_ok ⟨c, by omega⟩, bind_ok, mul32_ok ⟨e, by omega⟩, bind_ok,
      add32_ok ⟨by omega, by omega⟩]
  · unfold cid32
    have g1 : gr * gr * z = z * gr * gr := by ring
    have g2 : gr * y = y * gr := by ring
    rw [mul32_ok ⟨by omega, by omega⟩, bind_ok, mul32_ok (by rw [g1]; exact ⟨e, by omega⟩), bind_ok,
      mul32_ok (by rw [g2]; exact ⟨a, by omega⟩), bind_ok, g1, g2,
      add32_ok ⟨by omega, by omega⟩, bind_ok, add32_ok ⟨by omega, by omega⟩]
    congr 1; ring

/-! ### the sorting loop -/

/-- C51: the sorting loop over `int i` visits every point for up to `2^31` points and none for
`2^31 + 1` to `2^32` points, whatever the integer type of the numbers is. -/
theorem C51_sort_loop (n : Nat) :
    (n ≤ 2 ^ 31 → sortLoop32 n = n) ∧ (2 ^ 31 < n → n ≤ 2 ^ 32 → sortLoop32 n = 0) := by
  constructor
  · intro h
    unfold sortLoop32 toInt32
    by_cases h0 : n = 0
    · subst h0; decide
    · have : (n + (2 ^ 64 - 1)) % 2 ^ 64 = n - 1 := by omega
      rw [this]
      by_cases h1 : n = 2 ^ 31
      · subst h1; decide
      · omega
  · intro h1 h2
    unfold sortLoop32 toInt32
    have : (n + (2 ^ 64 - 1)) % 2 ^ 64 = n - 1 := by omega
    rw [this]; omega

/-! ### recompute -/

/-- C51: doubling `k` is exact unless `k ≥ 2^30`, then it is undefined. -/
theorem C51_next_k (k : Int) (n : Nat) (h0 : 0 ≤ k) (hn : n < 2 ^ 31) :
    nextK32 k n = if k < 2 ^ 30 then .ok (min (2 * k) (n - 1)) else .error .overflow := by
  unfold nextK32 mul32 sub32
  by_cases h : k < 2 ^ 30
  · rw [if_pos h, i32_ok ⟨by omega, by omega⟩, bind_ok]
    unfold i32
    rw [if_pos ⟨by omega, by omega⟩, bind_ok]
    show Except.ok _ = _
    congr 1
    split <;> omega
  · rw [if_neg h, i32_nonneg (by omega), if_neg (by unfold FitsInt; omega)]; rfl

/-- C51: when recompute has raised `k` to `n - 1`, its neighbour buffers overflow as soon as
`rows * (n - 1) ≥ 2^31`; with all points left, from 46342 points on. -/
theorem C51_recompute_limit (n : Nat) (pm tm : Int) (hp : 0 ≤ pm) (ht : 0 ≤ tm) (h : 46342 ≤ n) :
    alloc32 n (n - 1) pm tm = .error .overflow := by
  rw [C51_alloc _ _ _ _ (by omega) (by omega) hp ht, if_neg]
  rintro ⟨h1, -⟩
  unfold FitsInt at h1
  have : (46342 : Int) * 46341 ≤ n * (n - 1) := by
    apply Int.mul_le_mul <;> omega
  omega

example : alloc32 46341 46340 32 32 = .ok (2147441940, 5931648, 4448736, 1482912) := by decide
example : alloc32 46341 46341 32 32 = .error .overflow := by decide

/-! ### the result -/

theorem offs32_fold (rows : List (List Int)) (st : List Int × Int) (h0 : 0 ≤ st.2) :
    rows.foldlM (fun (st : List Int × Int) r => do
      let v ← add32 st.2 r.length
      pure (st.1 ++ [v], v)) st =
    if st.2 + rows.flatten.length < 2 ^ 31 ∨ rows = [] then
      (.ok (rows.foldl (fun (st : List Int × Int) r =>
        (st.1 ++ [st.2 + r.length], st.2 + r.length)) st) : M _)
    else .error .overflow := by
  induction rows generalizing st with
  | nil => rw [if_pos (Or.inr rfl)]; rfl
  | cons r rows ih =>
    rw [List.foldlM_cons]
    unfold add32
    rw [i32_nonneg (by omega)]
    have hl : ((r :: rows).flatten.length : Int) = r.length + rows.flatten.length := by
      rw [List.flatten_cons, List.length_append]; push_cast; rfl
    by_cases h : FitsInt (st.2 + r.length)
    · rw [if_pos h, bind_ok]
      show (rows.foldlM _ (st.1 ++ [st.2 + (r.length : Int)], st.2 + (r.length : Int)) : M _) = _
      have := ih (st.1 ++ [st.2 + (r.length : Int)], st.2 + (r.length : Int)) (by simp only; omega)
      unfold add32 at this
      rw [this]
      unfold FitsInt at h
      have e : (st.2 + (r.length : Int) + rows.flatten.length < 2 ^ 31 ∨ rows = []) ↔
          (st.2 + ((r :: rows).flatten.length : Int) < 2 ^ 31 ∨ r :: rows = []) := by
        rw [hl]
        constructor
        · rintro (q | q)
          · left; omega
          · left; subst q; simp only [List.flatten_nil, List.length_nil]; omega
        · rintro (q | q)
          · left; omega
          · simp at q
      by_cases hc : st.2 + ((r :: rows).flatten.length : Int) < 2 ^ 31 ∨ r :: rows = []
      · rw [if_pos hc, if_pos (e.mpr hc)]; rfl
      · rw [if_neg hc, if_neg (fun q => hc (e.mp q))]
    · rw [if_neg h, if_neg]
      · rfl
      · rintro (q | q)
        · unfold FitsInt at h; rw [hl] at q; omega
        · simp at q

/-- C51: the row offsets of the result are exact when the total number of neighbours fits an
`int`, and undefined otherwise. -/
theorem C51_result (rows : List (List Int)) (h : NoSentinel rows) :
    offs32 rows =
      if rows.flatten.length < 2 ^ 31 then .ok (getDnn rows).offs else .error .overflow := by
  unfold offs32
  simp only [getDnn_rows rows h, offs32_fold rows ([0], 0) (le_refl _)]
  have e : ((0 : Int) + (rows.flatten.length : Int) < 2 ^ 31 ∨ rows = []) ↔
      rows.flatten.length < 2 ^ 31 := by
    constructor
    · rintro (q | q)
      · omega
      · subst q; simp
    · intro q; left; omega
  by_cases hc : rows.flatten.length < 2 ^ 31
  · rw [if_pos hc, if_pos (e.mpr hc)]
    simp only [getDnn, getDnn_rows rows h]; rfl
  · rw [if_neg hc, if_neg (fun q => hc (e.mp q))]; rfl

/-- C51: rows of at most `k` neighbours with `n * k` within range never overflow the offsets. -/
theorem C51_result_fits (rows : List (List Int)) (k : Nat) (h : NoSentinel rows)
    (hk : ∀ r ∈ rows, r.length ≤ k) (hf : FitsInt (rows.length * k)) :
    offs32 rows = .ok (getDnn rows).offs := by
  have key : ∀ rows : List (List Int), (∀ r ∈ rows, r.length ≤ k) →
      rows.flatten.length ≤ rows.length * k := by
    intro rows
    induction rows with
    | nil => simp
    | cons r rows ih =>
      intro hr
      have h1 := ih (fun r hr' => hr r (by simp [hr']))
      have h2 := hr r (by simp)
      rw [List.flatten_cons, List.length_append, List.length_cons, Nat.succ_mul]; omega
  rw [C51_result rows h, if_pos]
  have := key rows hk
  unfold FitsInt at hf
  have hc : ((rows.length * k : Nat) : Int) = rows.length * k := by push_cast; rfl
  omega

example : offs32 [[1, 2], [], [0]] = .ok [0, 2, 2, 3] := by decide

/-! concrete cases -/
example : BuffersFit 16777215 64 32 32 ∧ ¬ BuffersFit 16777216 64 32 32 := by decide
example : idx32P 32 16777214 31 3 = .ok 2147483519 := by decide
example : idx32P 32 16777215 31 3 = .ok 2147483647 := by decide
example : cid32 1290 1289 1289 1289 = .ok 2146688999 := by decide
example : id32 1291 1290 1290 1290 = .error .overflow := by decide
example : ([[1, 2, 3], [4, 5, 6]] : List (List Nat)).flatten[3 * 1 + 2]? = some 6 := by decide

end Votess
