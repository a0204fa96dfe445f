import Verif.Spec.Walk
/-!
# Following a straight line through the cells

Specification only.  `N i w` says that row `i` lists point `w`.
-/
namespace Votess

variable {K : Type} [Field K] [LinearOrder K]

/-- the place reached at time `t` on the way from `x` (time 0) to `y` (time 1) -/
def rayAt (x y : Pt K) (t : K) : Pt K := ⟨x.x + t * (y.x - x.x), x.y + t * (y.y - x.y), x.z + t * (y.z - x.z)⟩

/-- From time `t` on the line passes through the cell of point `i`, then that of a point listed by `i`, then that of a point
listed by this one, and so on until it ends.  A cell that was left is not entered again. -/
inductive RayPath (L : List (Pt K)) (N : Nat → Nat → Prop) (x y : Pt K) : K → Nat → Prop
  /-- the line ends in this cell -/
  | last {t : K} {i : Nat} {p : Pt K} (hp : L[i]? = some p)
      (inside : ∀ s, t ≤ s → s ≤ 1 → VoronoiCell p L (rayAt x y s)) : RayPath L N x y t i
  /-- the line leaves this cell at time `u` -/
  | cross {t u : K} {i w : Nat} {p : Pt K} (hp : L[i]? = some p) (later : t ≤ u) (before : u < 1)
      (inside : ∀ s, t ≤ s → s ≤ u → VoronoiCell p L (rayAt x y s))
      (outside : ∀ s, u < s → s ≤ 1 → ¬ VoronoiCell p L (rayAt x y s))
      (listed : N i w) (rest : RayPath L N x y u w) : RayPath L N x y t i

/-- at time `u` the line crosses the plane between point `i` and the listed point `w`, not yet one of the others listed -/
structure FirstHit (L : List (Pt K)) (N : Nat → Nat → Prop) (x y : Pt K) (u : K) (i w : Nat) (p q : Pt K) : Prop where
  listed : N i w
  point : L[w]? = some q
  plane : sqDist (rayAt x y u) q = sqDist (rayAt x y u) p
  away : sqDist y q < sqDist y p
  first : ∀ (w' : Nat) (q' : Pt K), N i w' → L[w']? = some q' → sqDist (rayAt x y u) p ≤ sqDist (rayAt x y u) q'

/-- lines can be followed with the listed points only -/
structure Traversable (L : List (Pt K)) (N : Nat → Nat → Prop) : Prop where
  /-- every line in the box can be followed from the cell in which it begins -/
  path : ∀ x y, InUnitBox x → InUnitBox y → ∀ (i : Nat) (p : Pt K), L[i]? = some p → VoronoiCell p L x → RayPath L N x y 0 i
  /-- the first plane that is crossed tells which cell comes next and when -/
  hit : ∀ x y, InUnitBox x → InUnitBox y → ∀ (u : K) (i w : Nat) (p q : Pt K), 0 ≤ u → u ≤ 1 → L[i]? = some p →
    FirstHit L N x y u i w p q → VoronoiCell p L (rayAt x y u) ∧ VoronoiCell q L (rayAt x y u) ∧
      ∀ s, u < s → s ≤ 1 → ¬ VoronoiCell p L (rayAt x y s)

end Votess
