import Verif.Model.System
import Mathlib.Data.List.Dedup

/-
Observations of the vaults, written without the model's helper functions.
-/
namespace Dollar.Spec
open Dollar

/-- The account that holds a position: all staked positions share one account, every flexible
position has its own, named after the owner and the second in which it was locked. -/
def vaultAccount (c : Cfg) (user : Addr) (vault time : Int) : Addr :=
  if vault = 2 then c.modAddr ("dollar/vaults/flexible/" ++ c.encode user ++ "/" ++ toString time)
  else c.modAddr "dollar/vaults/staked"

/-- Sum of the amounts of all positions of a vault. -/
def lockedIn (s : State) (vault : Int) : Int :=
  (s.positions.map fun e => if e.1.2.1 = vault then e.2.amount else 0).sum

/-- Sum of the amounts of the positions of one user in a vault. -/
def lockedBy (s : State) (user : Addr) (vault : Int) : Int :=
  (s.positions.map fun e => if e.1.1 = user ∧ e.1.2.1 = vault then e.2.amount else 0).sum

/-- Sum of the principals of all positions of a vault. -/
def principalIn (s : State) (vault : Int) : Int :=
  (s.positions.map fun e => if e.1.2.1 = vault then e.2.principal else 0).sum

/-- The users that have a position in a vault, each once. -/
def usersIn (s : State) (vault : Int) : List Addr :=
  (s.positions.filterMap fun e => if e.1.2.1 = vault then some e.1.1 else none).dedup

/-- A position after `x` was withdrawn from it: the amount shrinks by `x`, the principal by the value
of `x` at the index of the position, rounded down. -/
def shrink (p : Position) (x : Int) : Position :=
  { p with amount := p.amount - x, principal := p.principal - x * 10 ^ 12 / p.index }

/-- Withdraw `left` from the positions of a user in a vault, going through the store in order: whole
positions are removed while they fit, at most one is shrunk, everything else stays. -/
def withdraw (user : Addr) (vault : Int) : Int → KV (Addr × Int × Int) Position → KV (Addr × Int × Int) Position
  | _, [] => []
  | left, e :: rest =>
    if e.1.1 = user ∧ e.1.2.1 = vault ∧ 0 < left then
      if e.2.amount ≤ left then withdraw user vault (left - e.2.amount) rest
      else (e.1, shrink e.2 left) :: rest
    else e :: withdraw user vault left rest

end Dollar.Spec
