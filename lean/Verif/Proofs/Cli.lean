import Verif.Model.Cli
import Verif.Props.Args
/-!
# Lemmas about the command line model
-/
namespace Votess

theorem cluster_len (s : Txt) (rest : List Txt) : (cluster s rest).2.length ≤ rest.length := by
  induction s with
  | nil => simp [cluster]
  | cons c s ih =>
    unfold cluster
    split
    · exact ih
    · exact ih
    · split <;> simp

theorem longArg_len (s : Txt) (rest : List Txt) : (longArg s rest).2.length ≤ rest.length := by
  unfold longArg
  simp only
  split <;> (try split) <;> simp

theorem getoptAux_fuel (f f' : Nat) (l : List Txt) (h : l.length ≤ f) (h' : l.length ≤ f') :
    getoptAux f l = getoptAux f' l := by
  induction f generalizing f' l with
  | zero =>
    have : l = [] := List.length_eq_zero_iff.mp (Nat.le_zero.mp h)
    subst this
    cases f' <;> rfl
  | succ f ih =>
    cases l with
    | nil => cases f' <;> rfl
    | cons a rest =>
      cases f' with
      | zero => simp at h'
      | succ f' =>
        simp only [List.length_cons, Nat.add_le_add_iff_right] at h h'
        unfold getoptAux
        split
        · rfl
        · rw [ih f' _ (Nat.le_trans (longArg_len _ _) h) (Nat.le_trans (longArg_len _ _) h')]
        · rw [ih f' _ (Nat.le_trans (cluster_len _ _) h) (Nat.le_trans (cluster_len _ _) h')]
        · exact ih f' _ h h'

theorem getopt_fuel (f : Nat) (l : List Txt) (h : l.length ≤ f) : getoptAux f l = getopt l :=
  getoptAux_fuel f l.length l h (Nat.le_refl _)

theorem getopt_long (s : Txt) (rest : List Txt) (hs : s ≠ []) :
    getopt (('-' :: '-' :: s) :: rest) = (longArg s rest).1 :: getopt (longArg s rest).2 := by
  cases s with
  | nil => exact absurd rfl hs
  | cons c s =>
    rw [← getopt_fuel rest.length _ (longArg_len _ _)]
    rfl

theorem getopt_short (c : Char) (s : Txt) (rest : List Txt) (hc : c ≠ '-') :
    getopt (('-' :: c :: s) :: rest) =
      (cluster (c :: s) rest).1 ++ getopt (cluster (c :: s) rest).2 := by
  rw [← getopt_fuel rest.length _ (cluster_len _ _)]
  unfold getopt
  rw [List.length_cons, getoptAux]
  · intro h; exact absurd h hc
  · intro h; exact absurd h hc

theorem getopt_skip (a : Txt) (rest : List Txt) (ha : a.head? ≠ some '-' ∨ a = ['-']) :
    getopt (a :: rest) = getopt rest := by
  unfold getopt
  rw [List.length_cons, getoptAux]
  · rintro rfl; simp at ha
  · rintro s rfl; simp at ha
  · rintro c s rfl; simp at ha

theorem foldlM_exc {σ α ε : Type} (f : σ → α → Except ε σ) (l : List α) (s : σ) :
    (a : α) → List.foldlM f s (a :: l) = (f s a >>= fun s => List.foldlM f s l) := by
  intro a; rfl

end Votess
