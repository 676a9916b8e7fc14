import Verif.Model.System

/-
Claimable yield, written without the model's helper functions.
-/
namespace Dollar.Spec
open Dollar

/-- The yield of an account at a given index: the value of its principal at that index (rounded
down) minus its balance, if that is at least 2 units, otherwise nothing. -/
def yieldAt (s : State) (a : Addr) (index : Int) : Int :=
  if 2 ≤ s.principalOf a * index / 10 ^ 12 - s.balance a then
    s.principalOf a * index / 10 ^ 12 - s.balance a
  else 0

end Dollar.Spec
