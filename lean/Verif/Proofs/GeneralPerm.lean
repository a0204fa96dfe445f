import Batteries.Data.List.Perm
import Mathlib.Data.List.Nodup
import Mathlib.Logic.Equiv.Basic
import Verif.Spec.Voronoi
/-!
# General position is a property of the set of points
-/
namespace Votess

/-- for a reordering there is a map of the numbers that takes a given occurrence of a point to another -/
theorem index_map {α : Type} {L L' : List α} (h : L'.Perm L) {i i' : Nat} {p : α} (hi : L[i]? = some p)
    (hi' : L'[i']? = some p) :
    ∃ σ : Nat → Nat, (∀ w w', w < L'.length → w' < L'.length → σ w = σ w' → w = w') ∧ σ i' = i ∧
      ∀ w q, L'[w]? = some q → L[σ w]? = some q := by
  classical
  obtain ⟨a1, a2⟩ := List.getElem?_eq_some_iff.mp hi'
  let τ : Nat → Nat := fun w => if hw : w < L'.length then h.idxBij ⟨w, hw⟩ else 0
  have hτ : ∀ w q, L'[w]? = some q → L[τ w]? = some q := by
    intro w q hw
    obtain ⟨b1, b2⟩ := List.getElem?_eq_some_iff.mp hw
    have e := h.getElem_idxBij_eq_getElem ⟨w, b1⟩
    have e' : τ w = h.idxBij ⟨w, b1⟩ := dif_pos b1
    rw [e', List.getElem?_eq_getElem (h.idxBij ⟨w, b1⟩).isLt, e]
    exact congrArg some b2
  refine ⟨fun w => Equiv.swap i (τ i') (τ w), ?_, Equiv.swap_apply_right _ _, ?_⟩
  · intro w w' hw hw' e
    have e1 := (Equiv.swap i (τ i')).injective e
    have e2 : τ w = h.idxBij ⟨w, hw⟩ := dif_pos hw
    have e3 : τ w' = h.idxBij ⟨w', hw'⟩ := dif_pos hw'
    rw [e2, e3] at e1
    exact congrArg Fin.val (h.idxBij_injective (Fin.ext e1))
  · intro w q hw
    have h1 := hτ w q hw
    show L[Equiv.swap i (τ i') (τ w)]? = some q
    by_cases c1 : τ w = i
    · rw [c1, Equiv.swap_apply_left, hτ i' p hi', ← hi, ← c1, h1]
    · by_cases c2 : τ w = τ i'
      · rw [c2, Equiv.swap_apply_right, hi, ← hτ i' p hi', ← c2, h1]
      · rw [Equiv.swap_apply_of_ne_of_ne c1 c2, h1]

section
variable {K : Type} [Field K] [LinearOrder K]

/-- general position is carried over by a map of the boundary planes -/
theorem GeneralAt.transfer {L L' : List (Pt K)} {i i' : Nat} {p p' : Pt K} (hg : GeneralAt L i p)
    {g : Pt K → Pt K} (hs : ∀ b, ∃ a, g a = b) (hc : ∀ x, VoronoiCell p' L' (g x) → VoronoiCell p L x)
    {φ : Nat ⊕ Nat → Nat ⊕ Nat} (ht : ∀ x e, Tight L' i' p' (g x) e → Tight L i p x (φ e))
    (hi : ∀ x e e', Tight L' i' p' (g x) e → Tight L' i' p' (g x) e' → φ e = φ e' → e = e') :
    GeneralAt L' i' p' := by
  intro y hy c hn hc'
  obtain ⟨x, rfl⟩ := hs y
  have h := hg x (hc x hy) (c.map φ) (List.Nodup.map_on (fun a ha b hb => hi x a b (hc' a ha) (hc' b hb)) hn)
    (fun e he => by
      obtain ⟨a, ha, rfl⟩ := List.mem_map.mp he
      exact ht x a (hc' a ha))
  rwa [List.length_map] at h

/-- general position belongs to the set of points -/
theorem GeneralAt.perm {L L' : List (Pt K)} (h : L.Perm L') {i i' : Nat} {p : Pt K} (hp : L[i]? = some p)
    (hp' : L'[i']? = some p) (hg : GeneralAt L i p) : GeneralAt L' i' p := by
  obtain ⟨σ, h1, h2, h3⟩ := index_map h.symm hp hp'
  have hi' := (List.getElem?_eq_some_iff.mp hp').1
  refine hg.transfer (g := id) (fun b => ⟨b, rfl⟩) (fun x hx => ⟨hx.1, fun q hq => hx.2 q (h.mem_iff.mp hq)⟩)
    (φ := Sum.map id σ) ?_ ?_
  · rintro x (f | w) he
    · exact he
    · obtain ⟨a, q, b, c⟩ := he
      refine ⟨fun e => a (h1 w i' (List.getElem?_eq_some_iff.mp b).1 hi' (e.trans h2.symm)), q, h3 w q b, c⟩
  · rintro x (f | w) (f' | w') he he' e
    · exact e
    · simp at e
    · simp at e
    · obtain ⟨-, q, b, -⟩ := he
      obtain ⟨-, q', b', -⟩ := he'
      simp only [Sum.map_inr, Sum.inr.injEq] at e
      rw [h1 w w' (List.getElem?_eq_some_iff.mp b).1 (List.getElem?_eq_some_iff.mp b').1 e]

end

end Votess
