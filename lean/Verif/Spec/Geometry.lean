import Verif.Model.Basic
import Mathlib.Algebra.Field.Defs
/-!
# Geometric vocabulary of the specifications (independent of the model's functions)
-/
namespace Votess

variable {K : Type} [Field K]

/-- squared Euclidean distance (specification) -/
def sqDist (p q : Pt K) : K := (p.x - q.x)^2 + (p.y - q.y)^2 + (p.z - q.z)^2

/-- value of a plane at a point (specification) -/
def Plane.eval (h : Plane K) (x : Pt K) : K := h.a * x.x + h.b * x.y + h.c * x.z + h.d

/-- determinant of the three normals (specification) -/
def det3 (p q r : Plane K) : K :=
  p.a * (q.b * r.c - q.c * r.b) - p.b * (q.a * r.c - q.c * r.a) + p.c * (q.a * r.b - q.b * r.a)

end Votess
