import Verif.Model.Status
/-!
# C46 — status bits are independent

Specification: a status is a total map from flags to Booleans; operations update it
pointwise.  Every sequence of operations on the byte behaves like the map.
-/
namespace Votess

/-- operations on a status -/
inductive StatusOp
  | set (f : Status)
  | clear (f : Status)
  | reset

/-- specification: pointwise update of a map -/
def StatusOp.spec : StatusOp → (Status → Bool) → (Status → Bool)
  | .set f, m => fun g => if g = f then true else m g
  | .clear f, m => fun g => if g = f then false else m g
  | .reset, _ => fun _ => false

/-- the C++ operation on the byte (model functions) -/
def StatusOp.run : StatusOp → State → State
  | .set f, s => s.setTrue f
  | .clear f, s => s.setFalse f
  | .reset, s => s.reset

theorem Status.bit_lt (f : Status) : f.bit < 8 := by cases f <;> decide

theorem Status.bit_inj (f g : Status) : f.bit = g.bit ↔ f = g := by
  cases f <;> cases g <;> decide

theorem State.get_eq (s : State) (f : Status) : s.get f = s.byte.getLsbD f.bit := by
  have h : (1#8 <<< f.bit) = BitVec.twoPow 8 f.bit := by simp [BitVec.twoPow]
  have h2 : BitVec.twoPow 8 f.bit ≠ 0#8 := by cases f <;> decide
  unfold State.get
  rw [h, BitVec.and_twoPow]
  cases s.byte.getLsbD f.bit <;> simp [h2]

theorem State.get_setTrue (s : State) (f g : Status) :
    (s.setTrue f).get g = if g = f then true else s.get g := by
  have h : (1#8 <<< f.bit) = BitVec.twoPow 8 f.bit := by simp [BitVec.twoPow]
  simp only [State.get_eq, State.setTrue, h, BitVec.getLsbD_or, BitVec.getLsbD_twoPow]
  have := g.bit_lt
  have e := Status.bit_inj f g
  by_cases hgf : g = f
  · subst hgf; simp [this]
  · have : ¬ f.bit = g.bit := fun h => hgf (e.mp h).symm
    simp [hgf, this]

theorem State.get_setFalse (s : State) (f g : Status) :
    (s.setFalse f).get g = if g = f then false else s.get g := by
  have h : (1#8 <<< f.bit) = BitVec.twoPow 8 f.bit := by simp [BitVec.twoPow]
  simp only [State.get_eq, State.setFalse, h, BitVec.getLsbD_and, BitVec.getLsbD_not,
    BitVec.getLsbD_twoPow]
  have := g.bit_lt
  have e := Status.bit_inj f g
  by_cases hgf : g = f
  · subst hgf; simp [this]
  · have : ¬ f.bit = g.bit := fun h => hgf (e.mp h).symm
    simp [hgf, this, g.bit_lt]

theorem State.get_reset (s : State) (g : Status) : s.reset.get g = false := by
  simp [State.get_eq, State.reset]

theorem State.get_init (g : Status) : State.init.get g = false := by
  cases g <;> decide

/-- C46: after any sequence of operations, starting from any byte, every flag reads as in
the pointwise map. -/
theorem C46_status_ops (ops : List StatusOp) (s : State) (g : Status) :
    (ops.foldl (fun s o => o.run s) s).get g
      = (ops.foldl (fun m o => o.spec m) s.get) g := by
  induction ops generalizing s with
  | nil => rfl
  | cons o ops ih =>
    simp only [List.foldl_cons]
    rw [ih]
    have h : (o.run s).get = o.spec s.get := by
      funext g
      cases o with
      | set f => exact State.get_setTrue s f g
      | clear f => exact State.get_setFalse s f g
      | reset => exact State.get_reset s g
    rw [h]

/-- C46: a fresh state has no flag set. -/
theorem C46_status_init (g : Status) : State.init.get g = false := State.get_init g

/-- C46: flags are stored in distinct bits: two flags with the same bit are equal. -/
theorem C46_bits_injective (f g : Status) (h : f.bit = g.bit) : f = g := by
  revert h; cases f <;> cases g <;> decide

example : ((State.init.setTrue .error_p_overflow).setTrue .security_radius_reached).get
    .error_p_overflow = true := by decide
example : ([StatusOp.set .error_occurred, .set .error_t_overflow, .clear .error_occurred].foldl
    (fun s o => o.run s) State.init).byte = 0x20#8 := by decide

end Votess
