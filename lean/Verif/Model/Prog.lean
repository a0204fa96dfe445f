import Verif.Model.Status
/-!
# Programs at the level of single memory accesses

The functions of `src/knn.ipp`, `src/heap.ipp`, `src/boundary.ipp` and `src/cc.ipp` work on
buffers shared by all threads (`src/votess.ipp:406-415`).  Here a program is a tree of single
reads and writes, so that the accesses of several threads can be interleaved.  Nothing in this
file mirrors one particular C++ function; it fixes how shared memory and threads are rendered.

* A location is a buffer and an index into it.  Different buffers are different C++ objects.
* An access outside the allocated locations has no successor state (undefined behaviour).
* Threads interleave single accesses (sequential consistency).  For programs without data races
  — which is proved — C++ guarantees that no other behaviour exists.
-/
namespace Votess

/-- the buffers of `__cpu__tesellate`/`__gpu__tesellate`; src/votess.ipp:406-415,222-240.
`xyz` is `xyzset`, `ref` is `refset` (the same vector, see the layouts), `gid` is `id`,
`goff` is `offset`, `ind` is `indices`. -/
inductive Buf
  | hid | hpq | dknn | P | T | dR | state | xyz | ref | gid | goff | ind
  deriving DecidableEq, Repr

/-- a memory location -/
abbrev Loc := Buf × Nat

/-- contents of a location -/
inductive Val (F E : Type)
  /-- `Ti` -/
  | int (v : Int)
  /-- heap priority -/
  | pri (v : E)
  /-- `Tf` -/
  | flt (v : F)
  /-- `Tu` -/
  | u8 (v : Nat)
  /-- `cc::state` -/
  | st (v : State)

/-- a program as the tree of its memory accesses -/
inductive Prog (F E : Type) (α : Type)
  | ret (a : α)
  | err (e : UB)
  | get (l : Loc) (k : Val F E → Prog F E α)
  | put (l : Loc) (v : Val F E) (k : Prog F E α)

namespace Prog

variable {F E α β : Type}

/-- sequential composition -/
def bind : Prog F E α → (α → Prog F E β) → Prog F E β
  | ret a, f => f a
  | err e, _ => err e
  | get l k, f => get l fun v => (k v).bind f
  | put l v k, f => put l v (k.bind f)

instance : Monad (Prog F E) where
  pure := ret
  bind := bind

/-- renames the locations of a program -/
def relabel (f : Loc → Loc) : Prog F E α → Prog F E α
  | ret a => ret a
  | err e => err e
  | get l k => get (f l) fun v => (k v).relabel f
  | put l v k => put (f l) v (k.relabel f)

/-- read an integer -/
def gInt (b : Buf) (i : Nat) : Prog F E Int :=
  get (b, i) fun | .int v => ret v | _ => err .oob

/-- read an integer, signed index -/
def gIntI (b : Buf) (i : Int) : Prog F E Int :=
  if 0 ≤ i then gInt b i.toNat else err .oob

/-- read a priority -/
def gPri (b : Buf) (i : Nat) : Prog F E E :=
  get (b, i) fun | .pri v => ret v | _ => err .oob

/-- read a coordinate or coefficient -/
def gFlt (b : Buf) (i : Nat) : Prog F E F :=
  get (b, i) fun | .flt v => ret v | _ => err .oob

/-- read a `Tu` -/
def gU8 (b : Buf) (i : Nat) : Prog F E Nat :=
  get (b, i) fun | .u8 v => ret v | _ => err .oob

/-- read a `cc::state` -/
def gSt (b : Buf) (i : Nat) : Prog F E State :=
  get (b, i) fun | .st v => ret v | _ => err .oob

/-- write -/
def wrt (b : Buf) (i : Nat) (v : Val F E) : Prog F E Unit := put (b, i) v (ret ())

/-- `for (i = lo; i < hi; i++) body` -/
def forI (lo hi : Int) (body : Int → Prog F E Unit) : Prog F E Unit :=
  (irange lo hi).foldlM (fun _ i => body i) ()

/-- `for (i = 0; i < n; i++) body` -/
def forN (n : Nat) (body : Nat → Prog F E Unit) : Prog F E Unit :=
  (List.range n).foldlM (fun _ i => body i) ()

end Prog

/-- how a kind of memory is read and written -/
structure Store (F E σ : Type) where
  get : σ → Loc → M (Val F E)
  put : σ → Loc → Val F E → M σ

/-- a program running alone -/
def Prog.run {F E α σ : Type} (S : Store F E σ) : Prog F E α → σ → M (α × σ)
  | .ret a, s => .ok (a, s)
  | .err e, _ => .error e
  | .get l k, s => S.get s l >>= fun v => (k v).run S s
  | .put l v k, s => S.put s l v >>= fun s => k.run S s

/-- flat memory; `none` outside the allocated buffers -/
abbrev Mem (F E : Type) := Loc → Option (Val F E)

/-- one location overwritten -/
def Mem.set {F E : Type} (m : Mem F E) (l : Loc) (v : Val F E) : Mem F E :=
  fun l' => if l' = l then some v else m l'

/-- state of a set of threads sharing a memory -/
structure Sys (F E : Type) where
  mem : Mem F E
  ths : List (Prog F E Unit)

/-- one thread performs one access -/
inductive Step {F E : Type} : Sys F E → Sys F E → Prop
  | get (m : Mem F E) (ths : List (Prog F E Unit)) (i : Nat) (l : Loc)
      (k : Val F E → Prog F E Unit) (v : Val F E) :
      ths[i]? = some (.get l k) → m l = some v → Step ⟨m, ths⟩ ⟨m, ths.set i (k v)⟩
  | put (m : Mem F E) (ths : List (Prog F E Unit)) (i : Nat) (l : Loc)
      (v w : Val F E) (k : Prog F E Unit) :
      ths[i]? = some (.put l v k) → m l = some w → Step ⟨m, ths⟩ ⟨m.set l v, ths.set i k⟩

/-- `n` accesses by arbitrary threads in arbitrary order -/
inductive Steps {F E : Type} : Nat → Sys F E → Sys F E → Prop
  | refl (s : Sys F E) : Steps 0 s s
  | step {n : Nat} {a b c : Sys F E} : Step a b → Steps n b c → Steps (n + 1) a c

/-- every thread has ended normally -/
def Sys.Done {F E : Type} (s : Sys F E) : Prop :=
  ∀ p, p ∈ s.ths → p = .ret ()

/-- some thread runs into undefined behaviour -/
def Sys.Fault {F E : Type} (s : Sys F E) : Prop :=
  ∃ p, p ∈ s.ths ∧ match p with
    | .ret _ => False
    | .err _ => True
    | .get l _ => s.mem l = none
    | .put l _ _ => s.mem l = none

/-- the location a thread accesses next, and whether it writes -/
def Prog.next {F E α : Type} : Prog F E α → Option (Loc × Bool)
  | .ret _ => none
  | .err _ => none
  | .get l _ => some (l, false)
  | .put l _ _ => some (l, true)

/-- two threads are about to access the same location, at least one of them writing -/
def Sys.Race {F E : Type} (s : Sys F E) : Prop :=
  ∃ (i j : Nat) (p q : Prog F E Unit) (l : Loc) (a b : Bool), i ≠ j ∧ s.ths[i]? = some p ∧ s.ths[j]? = some q ∧
    p.next = some (l, a) ∧ q.next = some (l, b) ∧ (a || b) = true

end Votess
