import Verif.Spec.External

/-
What an index update has to pay out of the yield account, and what it needs from the warp routes.
-/
namespace Dollar.Spec
open Dollar

/-- The IBC channels with a yield recipient (provider 0), in store order. -/
def ibcIds (s : State) : List String :=
  s.recipients.filterMap fun e => if e.1.1 = 0 then some e.1.2 else none

/-- What an update to `index` pays out of the yield account: the yield of the staked vault, in season one
also of the flexible vault, of the escrow account of every channel with a recipient, and of the warp
account. -/
def distribution (c : Cfg) (s : State) (index : Int) : Int :=
  yieldAt s (c.modAddr "dollar/vaults/staked") index +
  (if s.seasonOneEnded then 0 else yieldAt s (c.modAddr "dollar/vaults/flexible") index) +
  ((ibcIds s).map fun ch => yieldAt s (c.escrow "transfer" ch) index).sum +
  yieldAt s (c.modAddr "warp") index

/-- The warp token of the identifier exists. -/
def RouteKnown (c : Cfg) (s : State) (id : String) : Prop :=
  ∃ t col, tokenOf c id = some t ∧ s.collateral.get? t = some col

/-- The warp routes can take `y`: the token of every identifier with a recipient exists, and, unless there
is no collateral at all, every identifier to which something is due has one router and a proper recipient.
(Nothing is asked for when there is nothing to distribute.) -/
def HypReady (c : Cfg) (env : Env) (s : State) (y : Int) : Prop :=
  0 < y → (∀ id ∈ hypIds s, RouteKnown c s id) ∧
    (0 < hypTotal c s → ∀ id ∈ hypIds s, 0 < hypOwed c s y id → Deliverable c env s id)

/-- The accounts an index update pays are not on the bank's list of blocked recipients. -/
def Payable (c : Cfg) : Prop :=
  c.blocked (c.modAddr "dollar/vaults/staked") = false ∧
  c.blocked (c.modAddr "dollar/vaults/flexible") = false ∧
  c.blocked (c.modAddr "warp") = false ∧ ∀ ch, c.blocked (c.escrow "transfer" ch) = false

/-- The collector of season two is neither the warp account nor an escrow account. -/
def CollectorApart (c : Cfg) (s : State) : Prop :=
  s.seasonOneEnded = true → s.collector ≠ c.modAddr "warp" ∧ ∀ ch, s.collector ≠ c.escrow "transfer" ch

end Dollar.Spec
