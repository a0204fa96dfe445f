import Verif.Proofs.GeneralPerm
import Verif.Proofs.Symmetry
/-!
# Symmetries of the box keep general position
-/
namespace Votess

section
variable {K : Type} [Field K] [LinearOrder K] [IsStrictOrderedRing K]

/-- the faces of the box are exchanged -/
theorem BoxIso.general {g : Pt K → Pt K} {G : Plane K → Plane K} (hG : BoxIso g G) {ψ : Nat → Nat}
    (hψ : ∀ x f, OnFace f (g x) → OnFace (ψ f) x) (hinj : ∀ f < 6, ∀ f' < 6, ψ f = ψ f' → f = f')
    {L : List (Pt K)} {i : Nat} {p : Pt K} (hg : GeneralAt L i p) : GeneralAt (L.map g) i (g p) := by
  have h6 : ∀ (f : Nat) (x : Pt K), OnFace f x → f < 6 := by
    intro f x h
    match f, h with
    | 0, _ => omega
    | 1, _ => omega
    | 2, _ => omega
    | 3, _ => omega
    | 4, _ => omega
    | 5, _ => omega
  refine hg.transfer hG.surj (fun x hx => hG.cell.mp hx) (φ := Sum.map ψ fun w => w) ?_ ?_
  · rintro x (f | w) he
    · exact hψ x f he
    · obtain ⟨a, q, b, c⟩ := he
      rw [List.getElem?_map, Option.map_eq_some_iff] at b
      obtain ⟨q', b1, rfl⟩ := b
      rw [hG.dist, hG.dist] at c
      exact ⟨a, q', b1, c⟩
  · rintro x (f | w) (f' | w') he he' e
    · simp only [Sum.map_inl, Sum.inl.injEq] at e
      rw [hinj f (h6 f _ he) f' (h6 f' _ he') e]
    · simp at e
    · simp at e
    · exact e

/-- exchange of numbers -/
def facesXY : Nat → Nat
  | 0 => 2 | 1 => 3 | 2 => 0 | 3 => 1 | f => f
def facesYZ : Nat → Nat
  | 2 => 4 | 3 => 5 | 4 => 2 | 5 => 3 | f => f
def facesX : Nat → Nat
  | 0 => 1 | 1 => 0 | f => f

theorem CubeSym.general {g : Pt K → Pt K} (hg : CubeSym g) {L : List (Pt K)} {i : Nat} {p : Pt K}
    (h : GeneralAt L i p) : GeneralAt (L.map g) i (g p) := by
  induction hg with
  | id => simpa using h
  | swapXY _ ih =>
    have := boxIso_swapXY.general (ψ := facesXY) (L := L.map _) (p := _) (i := i) (by
      intro x f hf
      match f, hf with
      | 0, hf => exact hf
      | 1, hf => exact hf
      | 2, hf => exact hf
      | 3, hf => exact hf
      | 4, hf => exact hf
      | 5, hf => exact hf) (by decide) ih
    rwa [List.map_map] at this
  | swapYZ _ ih =>
    have := boxIso_swapYZ.general (ψ := facesYZ) (L := L.map _) (p := _) (i := i) (by
      intro x f hf
      match f, hf with
      | 0, hf => exact hf
      | 1, hf => exact hf
      | 2, hf => exact hf
      | 3, hf => exact hf
      | 4, hf => exact hf
      | 5, hf => exact hf) (by decide) ih
    rwa [List.map_map] at this
  | flipX _ ih =>
    have := boxIso_flipX.general (ψ := facesX) (L := L.map _) (p := _) (i := i) (by
      intro x f hf
      match f, hf with
      | 0, hf => exact (show x.x = 1 by have : 1 - x.x = 0 := hf; linarith)
      | 1, hf => exact (show x.x = 0 by have : 1 - x.x = 1 := hf; linarith)
      | 2, hf => exact hf
      | 3, hf => exact hf
      | 4, hf => exact hf
      | 5, hf => exact hf) (by decide) ih
    rwa [List.map_map] at this

end

end Votess
