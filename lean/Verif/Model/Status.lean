import Verif.Model.Basic
/-!
# Voronoi cell status byte — `include/status.hpp`, `src/status.ipp`
-/
namespace Votess

/-- `enum cc::status`, bit numbers; include/status.hpp:20-31 -/
inductive Status
  | security_radius_reached
  | error_infinite_boundary
  | error_nonvalid_vertices
  | error_nonvalid_neighbor
  | error_p_overflow
  | error_t_overflow
  | error_occurred
  deriving DecidableEq, Repr

/-- enumerator values; include/status.hpp:20-27 -/
def Status.bit : Status → Nat
  | .security_radius_reached => 0
  | .error_infinite_boundary => 1
  | .error_nonvalid_vertices => 2
  | .error_nonvalid_neighbor => 3
  | .error_p_overflow => 4
  | .error_t_overflow => 5
  | .error_occurred => 6

/-- `__INTERNAL__K_UNDEFINED`, `cc::k_undefined`; include/status.hpp:8,30 -/
def kUndefined : Int := -32

/-- `struct cc::state { uint8_t byte; }`; include/status.hpp:35-44 -/
structure State where
  byte : BitVec 8
  deriving DecidableEq, Repr

namespace State

/-- `state::state()`; src/status.ipp:7 -/
def init : State := ⟨0⟩

/-- `state::get`; src/status.ipp:11-13 -/
def get (s : State) (f : Status) : Bool := (s.byte &&& (1#8 <<< f.bit)) != 0

/-- `state::set_true`; src/status.ipp:17-19 -/
def setTrue (s : State) (f : Status) : State := ⟨s.byte ||| (1#8 <<< f.bit)⟩

/-- `state::set_false`; src/status.ipp:23-25 -/
def setFalse (s : State) (f : Status) : State := ⟨s.byte &&& ~~~(1#8 <<< f.bit)⟩

/-- `state::reset`; src/status.ipp:29-31 -/
def reset (_ : State) : State := ⟨0⟩

end State
end Votess
