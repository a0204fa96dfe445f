import Verif.Spec.Voronoi
import Mathlib.Data.Rat.Defs
import Mathlib.Algebra.Order.Ring.Abs
/-!
# How far a set of points is from a degenerate one

Specification only.  The bounds are those needed for coordinates in the unit box and single precision
arithmetic.
-/
namespace Votess

variable {K : Type} [Field K] [LinearOrder K]

/-- the points closer to `p` than `q` is -/
def closerTo (xyz : List (Pt K)) (p q : Pt K) : List (Pt K) :=
  xyz.filter fun c => decide (sqDist p c < sqDist p q)

/-- the six faces of the unit box; unit normals -/
def boxFaces : List (Plane K) :=
  [⟨1, 0, 0, 0⟩, ⟨-1, 0, 0, 1⟩, ⟨0, 1, 0, 0⟩, ⟨0, -1, 0, 1⟩, ⟨0, 0, 1, 0⟩, ⟨0, 0, -1, 1⟩]

/-- the bisector of `p` and `q`; the normal is `q - p` -/
def bisectorPlane (p q : Pt K) : Plane K :=
  ⟨q.x - p.x, q.y - p.y, q.z - p.z,
    ((p.x ^ 2 + p.y ^ 2 + p.z ^ 2) - (q.x ^ 2 + q.y ^ 2 + q.z ^ 2)) / 2⟩

/-- planes that can bound the cell of `p` -/
def boundaryPlanes (p : Pt K) (sites : List (Pt K)) : List (Plane K) :=
  boxFaces ++ sites.map (bisectorPlane p)

/-- `v` is a corner of the cell of `p` among `sites`: three boundary planes meet there, and `D ≠ 0` is
the determinant of their normals -/
def Corner (p : Pt K) (sites : List (Pt K)) (v : Pt K) (D : K) : Prop :=
  VoronoiCell p sites v ∧ D ≠ 0 ∧ ∃ f ∈ boundaryPlanes p sites, ∃ g ∈ boundaryPlanes p sites,
    ∃ h ∈ boundaryPlanes p sites, det3 f g h = D ∧ f.eval v = 0 ∧ g.eval v = 0 ∧ h.eval v = 0

/-- the cell of `p` cut out by the points closer than `q` lies within half the distance to `q`: neither
`q` nor a point farther away can touch it -/
def Beyond (xyz : List (Pt K)) (p q : Pt K) : Prop :=
  ∀ v, VoronoiCell p (closerTo xyz p q) v → 4 * sqDist v p < sqDist q p

/-- no point closer than `q` is beyond the cell.  These are the points that can have to do with the cell
of `p`, and one more -/
def Matters (xyz : List (Pt K)) (p q : Pt K) : Prop := ∀ c ∈ closerTo xyz p q, ¬ Beyond xyz p c

/-- how long the normal of a plane is: its largest component.  Lengths below `2 ^ -12` are not told apart. -/
def Plane.size (f : Plane K) : K := max (1 / 2 ^ 12) (max |f.a| (max |f.b| |f.c|))

/-- the distance of `q` from `p` along the axis where it is greatest -/
def span (p q : Pt K) : K := (bisectorPlane p q).size

/-- the product of the two largest sizes among three planes -/
def spread (f g h : Plane K) : K := max (f.size * g.size) (max (f.size * h.size) (g.size * h.size))

/-- how clearly three planes meet in one point.  For planes of comparable size this is that size times the
determinant of the normals divided by their lengths. -/
def sharp (f g h : Plane K) : K := |det3 f g h| / spread f g h

/-- how far the point where three planes meet may be displaced by rounding; `m` is the scale -/
def blur (m : K) (f g h : Plane K) : K := m / 2 ^ 16 / sharp f g h

/-- `v` is a corner of the cell of `p` among `sites`, where the boundary planes `f`, `g` and `h` meet -/
structure Meet (p : Pt K) (sites : List (Pt K)) (v : Pt K) (f g h : Plane K) : Prop where
  cell : VoronoiCell p sites v
  det : det3 f g h ≠ 0
  f_mem : f ∈ boundaryPlanes p sites
  g_mem : g ∈ boundaryPlanes p sites
  h_mem : h ∈ boundaryPlanes p sites
  f_on : f.eval v = 0
  g_on : g.eval v = 0
  h_on : h.eval v = 0

/-- the error of four times the squared distance between `p` and a corner `v` displaced by `b` -/
def slack (m b : K) (p v : Pt K) : K :=
  27 * b * (max |p.x - v.x| (max |p.y - v.y| |p.z - v.z|) + b) + m / 2 ^ 18

/-- point `i`, at `p`, is well away from degenerate situations; `m` scales the bounds.  Only points that
matter for its cell are concerned, and the bounds shrink with their distances from `p`. -/
structure MarginsBy (m : K) (xyz : List (Pt K)) (i : Nat) (p : Pt K) : Prop where
  /-- no other point has nearly the same distance from `p` as a point that matters -/
  sep : (xyz.eraseIdx i).Pairwise fun q q' =>
    (Matters xyz p q → m / 2 ^ 17 * span p q < |sqDist q p - sqDist q' p|) ∧
    (Matters xyz p q' → m / 2 ^ 17 * span p q' < |sqDist q p - sqDist q' p|)
  /-- for every other point `q` that matters: the corners of the cell cut out by the points closer than
  `q` are well defined and clearly on one side of the bisector with `q` -/
  room : ∀ q ∈ xyz.eraseIdx i, Matters xyz p q → ∀ v f g h, Meet p (closerTo xyz p q) v f g h →
    m / 2 ^ 12 ≤ sharp f g h ∧ 8 * blur m f g h * span p q < |sqDist v p - sqDist v q| ∧
    m / 2 ^ 16 < |sqDist v p - sqDist v q|
  /-- and it is clear whether `q` is more than twice as far from `p` as all these corners are -/
  radius : ∀ q ∈ xyz.eraseIdx i, Matters xyz p q →
    (∀ v f g h, Meet p (closerTo xyz p q) v f g h → slack m (blur m f g h) p v < sqDist q p - 4 * sqDist v p) ∨
    ∃ v f g h, Meet p (closerTo xyz p q) v f g h ∧ ∀ v' f' g' h', Meet p (closerTo xyz p q) v' f' g' h' →
      sqDist v p ≤ sqDist v' p → slack m (blur m f' g' h') p v' < 4 * sqDist v' p - sqDist q p

/-- margins as `MarginsBy` asks for between points at distances near 1, whatever the distances.  They are
simpler to check, and are margins: `WideMarginsBy.margins`. -/
structure WideMarginsBy (m : K) (xyz : List (Pt K)) (i : Nat) (p : Pt K) : Prop where
  /-- no other point has nearly the same distance from `p` as a point that matters -/
  sep : (xyz.eraseIdx i).Pairwise fun q q' =>
    Matters xyz p q ∨ Matters xyz p q' → m / 2 ^ 17 < |sqDist q p - sqDist q' p|
  /-- for every other point `q` that matters: the corners of the cell cut out by the points closer than
  `q` are well defined and clearly on one side of the bisector with `q` -/
  room : ∀ q ∈ xyz.eraseIdx i, Matters xyz p q → ∀ v D, Corner p (closerTo xyz p q) v D →
    m / 2 ^ 12 ≤ |D| ∧ m / 2 ^ 13 < |sqDist v p - sqDist v q| * |D|
  /-- and it is clear whether `q` is more than twice as far from `p` as all these corners are -/
  radius : ∀ q ∈ xyz.eraseIdx i, Matters xyz p q →
    (∀ v D, Corner p (closerTo xyz p q) v D → m / 2 ^ 11 < (sqDist q p - 4 * sqDist v p) * |D|) ∨
    ∃ v D, Corner p (closerTo xyz p q) v D ∧ ∀ v' D', Corner p (closerTo xyz p q) v' D' →
      sqDist v p ≤ sqDist v' p → m / 2 ^ 11 < (4 * sqDist v' p - sqDist q p) * |D'|

/-- the points at most as far from `p` as `q` -/
def notBeyond (xyz : List (Pt K)) (p q : Pt K) : List (Pt K) :=
  xyz.filter fun c => decide (sqDist p c ≤ sqDist p q)

/-- a point that is not among the `k` nearest ones of point `i` is clearly farther from it than those of
the `k` nearest ones that matter.  (`closerTo` counts `p` itself, `notBeyond` also counts `e`.) -/
def CutBy (s : K) (k : Nat) (xyz : List (Pt K)) (i : Nat) (p : Pt K) : Prop :=
  ∀ c ∈ xyz.eraseIdx i, ∀ e ∈ xyz.eraseIdx i, Matters xyz p c → (closerTo xyz p c).length ≤ k →
    k + 1 < (notBeyond xyz p e).length → s / 2 ^ 17 * span p c < sqDist e p - sqDist c p

/-- the same for every point -/
def AllCutBy (s : K) (k : Nat) (xyz : List (Pt K)) : Prop :=
  ∀ i p, xyz[i]? = some p → CutBy s k xyz i p

/-- the margins needed when the coordinates are single precision numbers -/
abbrev Margins (xyz : List (Pt K)) (i : Nat) (p : Pt K) : Prop := MarginsBy 1 xyz i p

/-- every point has margins -/
def AllMarginsBy (m : K) (xyz : List (Pt K)) : Prop := ∀ i p, xyz[i]? = some p → MarginsBy m xyz i p

/-- every point has wide margins -/
def AllWideMarginsBy (m : K) (xyz : List (Pt K)) : Prop := ∀ i p, xyz[i]? = some p → WideMarginsBy m xyz i p

/-- every point has margins for single precision coordinates -/
abbrev AllMargins (xyz : List (Pt K)) : Prop := AllMarginsBy 1 xyz

end Votess
