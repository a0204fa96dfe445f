import Verif.Spec.Voronoi
/-!
# The symmetries of the unit box

Specification only.
-/
namespace Votess

variable {K : Type} [Field K]

/-- exchanging two axes, and reflection of an axis -/
def swapXY (p : Pt K) : Pt K := ⟨p.y, p.x, p.z⟩
def swapYZ (p : Pt K) : Pt K := ⟨p.x, p.z, p.y⟩
def flipX (p : Pt K) : Pt K := ⟨1 - p.x, p.y, p.z⟩

/-- the maps of the box that are made of these: its rotations and reflections -/
inductive CubeSym : (Pt K → Pt K) → Prop
  | id : CubeSym fun p => p
  | swapXY {g : Pt K → Pt K} : CubeSym g → CubeSym fun p => swapXY (g p)
  | swapYZ {g : Pt K → Pt K} : CubeSym g → CubeSym fun p => swapYZ (g p)
  | flipX {g : Pt K → Pt K} : CubeSym g → CubeSym fun p => flipX (g p)

end Votess
