import Verif.Proofs.ProgTask
import Verif.Proofs.Interleave
/-!
# From the rows of a task to the shared memory
-/
namespace Votess

variable {F D E : Type}

/-- buffers a task writes -/
def Buf.writable : Buf → Bool
  | .hid | .hpq | .dknn | .P | .T | .dR | .state => true
  | _ => false

theorem rd_set_self {α : Type} {l : List α} {i : Nat} {x y : α} (h : rd l i = .ok y) :
    rd (l.set i x) i = .ok x := by
  rw [rd_eq_ok] at h ⊢
  have := (List.getElem?_eq_some_iff.mp h).1
  rw [List.getElem?_set_self this]

theorem rd_set_ne {α : Type} {l : List α} {i j : Nat} {x : α} (h : j ≠ i) :
    rd (l.set i x) j = rd l j := by
  unfold rd
  rw [List.getElem?_set_ne (Ne.symm h)]

theorem Tri.ent_upd_self (t : Tri) (c v : Nat) : (t.upd c v).ent c = v := by
  match c with
  | 0 => rfl
  | 1 => rfl
  | _ + 2 => rfl

theorem Tri.ent_upd_ne (t : Tri) {c d v : Nat} (hc : c < 3) (hd : d < 3) (h : d ≠ c) :
    (t.upd c v).ent d = t.ent d := by
  rcases (show c = 0 ∨ c = 1 ∨ c = 2 by omega) with rfl | rfl | rfl <;>
    rcases (show d = 0 ∨ d = 1 ∨ d = 2 by omega) with rfl | rfl | rfl <;>
    first | rfl | exact absurd rfl h

theorem Plane.ent_upd_self (t : Plane F) (c : Nat) (v : F) : (t.upd c v).ent c = v := by
  match c with
  | 0 => rfl
  | 1 => rfl
  | 2 => rfl
  | _ + 3 => rfl

theorem Plane.ent_upd_ne (t : Plane F) {c d : Nat} {v : F} (hc : c < 4) (hd : d < 4) (h : d ≠ c) :
    (t.upd c v).ent d = t.ent d := by
  rcases (show c = 0 ∨ c = 1 ∨ c = 2 ∨ c = 3 by omega) with rfl | rfl | rfl | rfl <;>
    rcases (show d = 0 ∨ d = 1 ∨ d = 2 ∨ d = 3 by omega) with rfl | rfl | rfl | rfl <;>
    first | rfl | exact absurd rfl h

/-- what a write to the rows does -/
theorem rowPut_spec {r r' : Rows F E} {l : Loc} {v : Val F E} (h : rowPut r l v = .ok r') :
    l.1.writable = true ∧ (∃ w, rowGet r l = .ok w) ∧ rowGet r' l = .ok v ∧
      ∀ l', l' ≠ l → rowGet r' l' = rowGet r l' := by
  obtain ⟨b, m⟩ := l
  cases b
  case hid =>
    cases v <;> try cases h
    simp only [rowPut, bind_eq_ok, Except.ok.injEq] at h
    obtain ⟨x, hx, rfl⟩ := h
    refine ⟨rfl, ⟨_, by simp only [rowGet, hx, bind_ok]; rfl⟩, by simp only [rowGet, rd_set_self hx, bind_ok], ?_⟩
    rintro ⟨b, j⟩ hl
    cases b <;> try (first | rfl | (cases j <;> rfl))
    · have hj : j ≠ m := fun e => hl (by rw [e])
      simp only [rowGet, rd_set_ne hj]
    · simp only [rowGet]
      by_cases hj : j = m
      · subst hj
        rw [rd_set_self hx, hx]; rfl
      · rw [rd_set_ne hj]
  case hpq =>
    cases v <;> try cases h
    simp only [rowPut, bind_eq_ok, Except.ok.injEq] at h
    obtain ⟨x, hx, rfl⟩ := h
    refine ⟨rfl, ⟨_, by simp only [rowGet, hx, bind_ok]; rfl⟩, by simp only [rowGet, rd_set_self hx, bind_ok], ?_⟩
    rintro ⟨b, j⟩ hl
    cases b <;> try (first | rfl | (cases j <;> rfl))
    · simp only [rowGet]
      by_cases hj : j = m
      · subst hj
        rw [rd_set_self hx, hx]; rfl
      · rw [rd_set_ne hj]
    · have hj : j ≠ m := fun e => hl (by rw [e])
      simp only [rowGet, rd_set_ne hj]
  case dknn =>
    cases v <;> try cases h
    simp only [rowPut, bind_eq_ok, Except.ok.injEq] at h
    obtain ⟨x, hx, rfl⟩ := h
    refine ⟨rfl, ⟨_, by simp only [rowGet, hx, bind_ok]; rfl⟩, by simp only [rowGet, rd_set_self hx, bind_ok], ?_⟩
    rintro ⟨b, j⟩ hl
    cases b <;> try (first | rfl | (cases j <;> rfl))
    have hj : j ≠ m := fun e => hl (by rw [e])
    simp only [rowGet, rd_set_ne hj]
  case dR =>
    cases v <;> try cases h
    simp only [rowPut, bind_eq_ok, Except.ok.injEq] at h
    obtain ⟨x, hx, rfl⟩ := h
    refine ⟨rfl, ⟨_, by simp only [rowGet, hx, bind_ok]; rfl⟩, by simp only [rowGet, rd_set_self hx, bind_ok], ?_⟩
    rintro ⟨b, j⟩ hl
    cases b <;> try (first | rfl | (cases j <;> rfl))
    have hj : j ≠ m := fun e => hl (by rw [e])
    simp only [rowGet, rd_set_ne hj]
  case P =>
    cases v <;> try cases h
    simp only [rowPut, bind_eq_ok, Except.ok.injEq] at h
    obtain ⟨x, hx, rfl⟩ := h
    refine ⟨rfl, ⟨_, by simp only [rowGet, hx, bind_ok]; rfl⟩,
      by simp only [rowGet, rd_set_self hx, bind_ok, Plane.ent_upd_self], ?_⟩
    rintro ⟨b, j⟩ hl
    cases b <;> try (first | rfl | (cases j <;> rfl))
    have hj : j ≠ m := fun e => hl (by rw [e])
    simp only [rowGet]
    by_cases hd : j / 4 = m / 4
    · rw [hd, rd_set_self hx, hx]
      simp only [bind_ok]
      rw [Plane.ent_upd_ne x (by omega) (by omega) (by omega)]
    · rw [rd_set_ne hd]
  case T =>
    cases v <;> try cases h
    simp only [rowPut, bind_eq_ok, Except.ok.injEq] at h
    obtain ⟨x, hx, rfl⟩ := h
    refine ⟨rfl, ⟨_, by simp only [rowGet, hx, bind_ok]; rfl⟩,
      by simp only [rowGet, rd_set_self hx, bind_ok, Tri.ent_upd_self], ?_⟩
    rintro ⟨b, j⟩ hl
    cases b <;> try (first | rfl | (cases j <;> rfl))
    have hj : j ≠ m := fun e => hl (by rw [e])
    simp only [rowGet]
    by_cases hd : j / 3 = m / 3
    · rw [hd, rd_set_self hx, hx]
      simp only [bind_ok]
      rw [Tri.ent_upd_ne x (by omega) (by omega) (by omega)]
    · rw [rd_set_ne hd]
  case state =>
    cases m with
    | succ m => cases v <;> cases h
    | zero =>
      cases v <;> try cases h
      refine ⟨rfl, ⟨_, rfl⟩, rfl, ?_⟩
      rintro ⟨b, j⟩ hl
      cases b <;> try rfl
      cases j with
      | zero => exact absurd rfl hl
      | succ j => rfl
  all_goals cases v <;> cases h

/-- the shared memory contains the rows `r` at the places given by `lay` -/
def Rep (lay : Loc → Loc) (r : Rows F E) (m : Mem F E) : Prop :=
  ∀ l v, rowGet r l = .ok v → m (lay l) = some v

/-- the rows have a location `l` -/
def Rows.Has (r : Rows F E) (l : Loc) : Prop := ∃ v, rowGet r l = .ok v

/-- a program that runs alone on the rows also runs in the shared memory -/
theorem sim {α : Type} {R W : Loc → Prop} {lay : Loc → Loc} {r0 : Rows F E}
    (hR : ∀ l, r0.Has l → R (lay l))
    (hW : ∀ l, r0.Has l → l.1.writable = true → W (lay l))
    (hinj : ∀ l l', r0.Has l → r0.Has l' → l.1.writable = true → lay l' = lay l → l' = l)
    (p : Prog F E α) {r r' : Rows F E} {a : α} {m : Mem F E} (hsame : ∀ l, r.Has l ↔ r0.Has l)
    (hrep : Rep lay r m) (h : rrun p r = .ok (a, r')) :
    ∃ n m', Safe R W (p.relabel lay) m n a m' ∧ Rep lay r' m' ∧ ∀ l, r'.Has l ↔ r0.Has l := by
  induction p generalizing r m with
  | ret b =>
    cases h
    exact ⟨0, m, ⟨rfl, rfl, rfl⟩, hrep, hsame⟩
  | err e => cases h
  | get l k ih =>
    simp only [Prog.run, bind_eq_ok] at h
    obtain ⟨v, hv, h⟩ := h
    obtain ⟨n, m', h1, h2, h3⟩ := ih v hsame hrep h
    exact ⟨n + 1, m', ⟨v, n, rfl, hR l ((hsame l).mp ⟨v, hv⟩), hrep l v hv, h1⟩, h2, h3⟩
  | put l v k ih =>
    simp only [Prog.run, bind_eq_ok] at h
    obtain ⟨r1, hr1, h⟩ := h
    obtain ⟨h1, ⟨w, h2⟩, h3, h4⟩ := rowPut_spec hr1
    have hsame1 : ∀ l', r1.Has l' ↔ r.Has l' := by
      intro l'
      by_cases e : l' = l
      · subst e
        exact ⟨fun _ => ⟨w, h2⟩, fun _ => ⟨v, h3⟩⟩
      · unfold Rows.Has
        rw [h4 l' e]
    have hl0 := (hsame l).mp ⟨w, h2⟩
    have hrep1 : Rep lay r1 (m.set (lay l) v) := by
      intro l' v' hv'
      unfold Mem.set
      by_cases e : l' = l
      · subst e
        rw [if_pos rfl]
        rw [h3] at hv'; cases hv'; rfl
      · have hl' := (hsame l').mp ((hsame1 l').mp ⟨v', hv'⟩)
        rw [if_neg (fun e' => e (hinj l l' hl0 hl' h1 e'))]
        rw [h4 l' e] at hv'
        exact hrep l' v' hv'
    obtain ⟨n, m', h5, h6, h7⟩ := ih (fun l' => (hsame1 l').trans (hsame l')) hrep1 h
    exact ⟨n + 1, m', ⟨w, n, rfl, hW l hl0 h1, hrep l w h2, h5⟩, h6, h7⟩

end Votess
