import Verif.Model.Basic
/-!
# Planes, security radius, utilities
`src/planes.ipp`, `src/sradius.ipp`, `src/utils.ipp`, `src/xyzset.ipp:get_distance`
-/
namespace Votess

open FP

variable {F D : Type} [FP F D]

/-- `utils::square`; src/utils.ipp:4-7 -/
def square (x : F) : F := mul x x

/-- `utils::cube`; src/utils.ipp:9-12 -/
def cube (x : F) : F := mul (mul x x) x

/-- `xyzset::get_distance` (squared distance); src/xyzset.ipp:7-14 -/
def getDistance (p q : Pt F) : F :=
  add (add (square (sub p.x q.x)) (square (sub p.y q.y))) (square (sub p.z q.z))

/-- `planes::dot`; src/planes.ipp:36-47.  The first four arguments are the
homogeneous vertex `(v.x, v.y, v.z, v3)`, the last four the plane. -/
def dot (a1 b1 c1 d1 a2 b2 c2 d2 : F) : F :=
  add (add (add (mul a1 a2) (mul b1 b2)) (mul c1 c2)) (mul d1 d2)

/-- `planes::bisect(dst, p1, p2)`; src/planes.ipp:49-63 -/
def bisect (p1 p2 : Pt F) : Plane F :=
  let xsquare := sub (square p1.x) (square p2.x)
  let ysquare := sub (square p1.y) (square p2.y)
  let zsquare := sub (square p1.z) (square p2.z)
  { a := sub p1.x p2.x
    b := sub p1.y p2.y
    c := sub p1.z p2.z
    d := div (neg (add (add xsquare ysquare) zsquare)) (ofInt 2) }

/-- homogeneous result of `planes::intersect` -/
structure Vertex (F : Type) where
  x : F
  y : F
  z : F
  w : F
  deriving DecidableEq, Repr

/-- `planes::intersect`; src/planes.ipp:1-34 -/
def intersect (p1 p2 p3 : Plane F) : Vertex F :=
  let n12_a := sub (mul p1.b p2.c) (mul p2.b p1.c)
  let n12_b := add (mul (neg p1.a) p2.c) (mul p2.a p1.c)
  let n12_c := sub (mul p1.a p2.b) (mul p2.a p1.b)
  let n23_a := sub (mul p2.b p3.c) (mul p3.b p2.c)
  let n23_b := add (mul (neg p2.a) p3.c) (mul p3.a p2.c)
  let n23_c := sub (mul p2.a p3.b) (mul p3.a p2.b)
  let n31_a := sub (mul p3.b p1.c) (mul p1.b p3.c)
  let n31_b := add (mul (neg p3.a) p1.c) (mul p1.a p3.c)
  let n31_c := sub (mul p3.a p1.b) (mul p1.a p3.b)
  let triple := add (add (mul p1.a n23_a) (mul p1.b n23_b)) (mul p1.c n23_c)
  let triple := if eq triple (ofInt 0) then ofInt 0 else div (ofInt 1) triple
  let c0 := sub (sub (mul (neg p1.d) n23_a) (mul p2.d n31_a)) (mul p3.d n12_a)
  let c1 := sub (sub (mul (neg p1.d) n23_b) (mul p2.d n31_b)) (mul p3.d n12_b)
  let c2 := sub (sub (mul (neg p1.d) n23_c) (mul p2.d n31_c)) (mul p3.d n12_c)
  { x := mul c0 triple, y := mul c1 triple, z := mul c2 triple, w := ofInt 1 }

/-- `sr::update`; src/sradius.ipp:1-15 -/
def srUpdate (p : Pt F) (x y z : F) (sradius : F) : F :=
  let dx := square (sub p.x x)
  let dy := square (sub p.y y)
  let dz := square (sub p.z z)
  let newr := add (add dx dy) dz
  let cond := lt sradius newr
  add (mul (ofBool (!cond)) sradius) (mul (ofBool cond) newr)

/-- `sr::is_reached`; src/sradius.ipp:17-30 -/
def srReached (p q : Pt F) (sradius : F) : Bool :=
  let dx := square (sub p.x q.x)
  let dy := square (sub p.y q.y)
  let dz := square (sub p.z q.z)
  let radius := add (add dx dy) dz
  lt (mul (ofInt 4) sradius) radius

/-- `utils::bmax(a,b)`; src/utils.ipp:14-18 -/
def bmax (a b : F) : F :=
  let cond := lt a b
  add (mul (ofBool (!cond)) a) (mul (ofBool cond) b)

/-- `utils::bmin(a,b)`; src/utils.ipp:20-24 -/
def bmin (a b : F) : F :=
  let cond := lt b a
  add (mul (ofBool (!cond)) a) (mul (ofBool cond) b)

/-- `utils::bmax(a,b,c)`; src/utils.ipp:26-30 -/
def bmax3 (a b c : F) : F := bmax (bmax a b) c

/-- `utils::bmin(a,b,c)`; src/utils.ipp:32-36 -/
def bmin3 (a b c : F) : F := bmin (bmin a b) c

/-- `std::min({a,b,c})`; used in src/knn.ipp:67 -/
def min3 (a b c : F) : F :=
  let m := if lt b a then b else a
  if lt c m then c else m

end Votess
