import Verif.Model.Heap
import Verif.Model.XyzSet
/-!
# Grid based k-nearest-neighbour search — `src/knn.ipp` (CPU variant, lines 22-127)
-/
namespace Votess

open FP

variable {F D : Type} [FP F D]

/-- `is_inshell`; src/knn.ipp:7-20 -/
def isInshell (x y z px py pz r : Int) : Bool :=
  (decide (px - r < x) && decide (x < px + r)) &&
  (decide (py - r < y) && decide (y < py + r)) &&
  (decide (pz - r < z) && decide (z < pz + r))

/-- one candidate point `p`; src/knn.ipp:94-111.  `h` is the row of the heap. -/
def knnPoint (xyz : List (Pt F)) (index : Int) (q : Pt F) (k : Nat)
    (p : Int) (h : List (Int × D)) : M (List (Int × D)) := do
  if p = index then pure h
  else do
    let pt ← rdI xyz p
    let pq := getDistance pt q
    let top ← rd h 0
    if dlt F (toD pq) top.2 then do
      let h ← wr h 0 (p, toD pq)
      maxheapify (dlt F) h k 0
    else pure h

/-- all points of grid cell `cid`; src/knn.ipp:88-112 -/
def knnCell (xyz : List (Pt F)) (offset : List Int) (index : Int) (q : Pt F) (k : Nat)
    (cid : Int) (h : List (Int × D)) : M (List (Int × D)) := do
  let offs0 ← rdI offset cid
  let offs1 ← rdI offset (cid + 1)
  forI offs0 offs1 (knnPoint xyz index q k) h

/-- cells of the shell of radius `r` in the order of the three nested loops, as
`(x, y, z)`; src/knn.ipp:71-84 -/
def shellCells (gr px py pz r : Int) : List (Int × Int × Int) :=
  let beg_z := max (pz - r) 0
  let end_z := min (pz + r) (gr - 1)
  let beg_y := max (py - r) 0
  let end_y := min (py + r) (gr - 1)
  let beg_x := max (px - r) 0
  let end_x := min (px + r) (gr - 1)
  (irange beg_z (end_z + 1)).flatMap fun z =>
  (irange beg_y (end_y + 1)).flatMap fun y =>
  ((irange beg_x (end_x + 1)).filter fun x => !isInshell x y z px py pz r).map fun x => (x, y, z)

/-- body of one shell; src/knn.ipp:78-114 -/
def knnShell (xyz : List (Pt F)) (offset : List Int) (index : Int) (q : Pt F) (k : Nat)
    (gr px py pz r : Int) (h : List (Int × D)) : M (List (Int × D)) :=
  (shellCells gr px py pz r).foldlM (fun h c =>
    knnCell xyz offset index q k (gr * gr * c.2.2 + gr * c.2.1 + c.1) h) h

/-- distance from the coordinate to the nearer wall of its grid cell; src/knn.ipp:60-66 -/
def wallDist (gl x : F) : F :=
  let gl2 := div gl (ofInt 2)
  let dx := fmod x gl
  add (mul dx (ofBool (le dx gl2))) (mul (sub gl dx) (ofBool (lt gl2 dx)))

/-- the loop over `r` with its early exit; `n` counts the remaining iterations,
`r = gr - n`; src/knn.ipp:69-121 -/
def knnLoop (xyz : List (Pt F)) (offset : List Int) (index : Int) (q : Pt F) (k : Nat)
    (gr px py pz : Int) (gl min : F) : Nat → List (Int × D) → M (List (Int × D))
  | 0, h => pure h
  | n + 1, h => do
    let r : Int := gr - (n + 1)
    let h ← knnShell xyz offset index q k gr px py pz r h
    let top ← rd h 0
    if dlt F top.2 (toD (square (add (mul gl (ofInt r)) min))) then pure h
    else knnLoop xyz offset index q k gr px py pz gl min n h

/-- `knni::compute` on the row `h` (length `k`) for the point `index`;
src/knn.ipp:22-127 -/
def knnCompute (xyz : List (Pt F)) (id offset : List Int) (index : Int)
    (k : Nat) (gr : Int) (h : List (Int × D)) : M (List (Int × D)) := do
  let q ← rdI xyz index
  let gl : F := recip gr
  let c ← rdI id index
  if gr = 0 then .error .divZero
  else do
    let px := c.tmod gr
    let py := (c.tdiv gr).tmod gr
    let pz := c.tdiv (gr * gr)
    let min := min3 (wallDist gl q.x) (wallDist gl q.y) (wallDist gl q.z)
    let h ← knnLoop xyz offset index q k gr px py pz gl min gr.toNat h
    heapSort (dlt F) h k

end Votess
