import Verif.Model.Prog
/-!
# What it means that the schedule does not matter
-/
namespace Votess

variable {F E : Type}

/-- Started in `s`, threads perform at most `total` accesses however they are interleaved, never
run into undefined behaviour, never race, and can only stop when all have ended — with memory
`m`. -/
structure Sys.Settles (s : Sys F E) (m : Mem F E) (total : Nat) : Prop where
  noFault : ∀ n t, Steps n s t → ¬ t.Fault
  noRace : ∀ n t, Steps n s t → ¬ t.Race
  bounded : ∀ n t, Steps n s t → n ≤ total
  progress : ∀ n t, Steps n s t → t.Done ∨ ∃ u, Step t u
  result : ∀ n t, Steps n s t → t.Done → t.mem = m ∧ n = total

end Votess
