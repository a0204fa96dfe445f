/-!
# Common parts of the model

Outcomes, checked buffer accesses, counted loops, and the *uninterpreted*
floating point interface.  Nothing in this file mirrors one particular C++
function; it fixes how C++ language features are rendered.
-/

namespace Votess

/-- Abnormal outcomes.  All of them are either undefined behaviour of the C++
program or behaviour outside the modelled integer ranges. -/
inductive UB
  /-- access outside a buffer, or outside the task's own row of a shared work buffer -/
  | oob
  /-- float to integer conversion of a value that is not representable -/
  | cast
  /-- integer division or remainder by zero -/
  | divZero
  /-- a loop that does not end -/
  | diverge
  /-- a parameter that does not fit the narrower type it is converted to -/
  | narrow
  /-- signed integer overflow -/
  | overflow
  deriving DecidableEq, Repr

/-- Computations that may end in an abnormal outcome. -/
abbrev M (α : Type) := Except UB α

instance {α : Type} [DecidableEq α] : DecidableEq (M α) := fun a b =>
  match a, b with
  | .ok x, .ok y => if h : x = y then isTrue (by rw [h]) else isFalse (by simp [h])
  | .error x, .error y => if h : x = y then isTrue (by rw [h]) else isFalse (by simp [h])
  | .ok _, .error _ => isFalse (by simp)
  | .error _, .ok _ => isFalse (by simp)

/-- `a[i]` for reading, `i` a `size_t`. -/
def rd {α : Type} (a : List α) (i : Nat) : M α :=
  match a[i]? with
  | some x => .ok x
  | none => .error .oob

/-- `a[i] = v`, `i` a `size_t`. -/
def wr {α : Type} (a : List α) (i : Nat) (v : α) : M (List α) :=
  if i < a.length then .ok (a.set i v) else .error .oob

/-- `a[i]` for reading, `i` a signed integer. -/
def rdI {α : Type} (a : List α) (i : Int) : M α :=
  if 0 ≤ i then rd a i.toNat else .error .oob

/-- `a[i] = v`, `i` a signed integer. -/
def wrI {α : Type} (a : List α) (i : Int) (v : α) : M (List α) :=
  if 0 ≤ i then wr a i.toNat v else .error .oob

/-- `std::swap(a[i], a[j])` -/
def swp {α : Type} (a : List α) (i j : Nat) : M (List α) := do
  let x ← rd a i
  let y ← rd a j
  let a ← wr a i y
  wr a j x

/-- The values a counter takes in `for (i = lo; i < hi; i++)`. -/
def irange (lo hi : Int) : List Int :=
  (List.range (hi - lo).toNat).map (fun j : Nat => lo + (j : Int))

/-- `for (i = lo; i < hi; i++) body` where the body does not change `i`, `hi`. -/
def forI {σ : Type} (lo hi : Int) (body : Int → σ → M σ) (s : σ) : M σ :=
  (irange lo hi).foldlM (fun s i => body i s) s

/-- `for (i = 0; i < n; i++) body`, `i` unsigned. -/
def forN {σ : Type} (n : Nat) (body : Nat → σ → M σ) (s : σ) : M σ :=
  (List.range n).foldlM (fun s i => body i s) s

/-- Floating point operations, with no laws.  `F` is the coordinate type `Tf`,
`D` the type of heap priorities (`Tf` including `+infinity`). -/
class FP (F : Type) (D : outParam Type) where
  add : F → F → F
  sub : F → F → F
  mul : F → F → F
  div : F → F → F
  neg : F → F
  /-- `a < b` -/
  lt : F → F → Bool
  /-- `a <= b` -/
  le : F → F → Bool
  /-- `a == b` -/
  eq : F → F → Bool
  /-- conversion of an integer (or integral literal such as `4.0f`) -/
  ofInt : Int → F
  /-- `1.0f / gr` converted to `Tf` -/
  recip : Int → F
  /-- `static_cast<Ti>(std::floor(x))`; `none` if not representable -/
  floorInt : F → Option Int
  /-- `std::fmod` / `sycl::fmod` -/
  fmod : F → F → F
  /-- `+infinity` -/
  dinf : D
  toD : F → D
  /-- `a < b` on priorities -/
  dlt : D → D → Bool

/-- `bool` used as a factor in floating point expressions. -/
def FP.ofBool {F D : Type} [FP F D] (b : Bool) : F := if b then FP.ofInt 1 else FP.ofInt 0

/-- `std::array<Tf,3>` -/
structure Pt (F : Type) where
  x : F
  y : F
  z : F
  deriving DecidableEq, Repr

/-- four coefficients of a plane `a*x + b*y + c*z + d` -/
structure Plane (F : Type) where
  a : F
  b : F
  c : F
  d : F
  deriving DecidableEq, Repr

/-- three consecutive `Tu` entries of `T` (indices of three planes) -/
structure Tri where
  a : Nat
  b : Nat
  c : Nat
  deriving DecidableEq, Repr

end Votess
