import Verif.Spec.Yield

/-
What the distribution of yield to other chains is compared with, written without the model's
helper functions.
-/
namespace Dollar.Spec
open Dollar

/-- The IBC packets handed over between two states on one channel. -/
def sentOn (s s' : State) (channel : String) : List IbcOut :=
  (s'.ibcOut.drop s.ibcOut.length).filter fun p => decide (p.channel = channel)

/-- The total amount of a list of packets. -/
def packetTotal (l : List IbcOut) : Int := (l.map fun p => p.amount).sum

/-- The warp messages dispatched between two states. -/
def dispatched (s s' : State) : List WarpOut := s'.warpOut.drop s.warpOut.length

/-- The warp token a Hyperlane identifier stands for. -/
def tokenOf (c : Cfg) (id : String) : Option Nat := (c.hexAddr id).map c.internalId

/-- The collateral of the warp token a Hyperlane identifier stands for. -/
def collateralOf (c : Cfg) (s : State) (id : String) : Int :=
  match tokenOf c id with
  | none => 0
  | some t => (s.collateral.get? t).getD 0

/-- The Hyperlane identifiers with a yield recipient (provider 1), in store order. -/
def hypIds (s : State) : List String :=
  s.recipients.filterMap fun e => if e.1.1 = 1 then some e.1.2 else none

/-- The collateral of all of them together. -/
def hypTotal (c : Cfg) (s : State) : Int := ((hypIds s).map (collateralOf c s)).sum

/-- The share of `y` for a route: `collateral / total` with 18 decimals, rounded down, times `y`,
rounded down. -/
def share (collateral total y : Int) : Int := collateral * 10 ^ 18 / total * y / 10 ^ 18

/-- What is due to a Hyperlane identifier when `y` is distributed: its share plus its retry amount. -/
def hypOwed (c : Cfg) (s : State) (y : Int) (id : String) : Int :=
  share (collateralOf c s id) (hypTotal c s) y + s.retryOf 1 id

/-- The transfer to a Hyperlane identifier goes through: something is due, the warp account (which
has received `y`) can pay, and the warp module does not fail. -/
def hypSends (c : Cfg) (env : Env) (s : State) (y : Int) (id : String) : Prop :=
  (tokenOf c id).map env.warp = some .success ∧ 0 < hypOwed c s y id ∧
    hypOwed c s y id ≤ s.balance (c.modAddr "warp") + y

instance (c : Cfg) (env : Env) (s : State) (y : Int) (id : String) : Decidable (hypSends c env s y id) := by
  unfold hypSends; infer_instance

/-- The identifier has a token with exactly one router, and its recipient is a Hyperlane address. -/
def Deliverable (c : Cfg) (env : Env) (s : State) (id : String) : Prop :=
  ∃ t d r raw, tokenOf c id = some t ∧ env.routers t = [d] ∧ s.recipients.get? (1, id) = some r ∧
    c.hexAddr r = some raw

/-- The message to a Hyperlane identifier. -/
def IsHypMessage (c : Cfg) (env : Env) (s : State) (y : Int) (id : String) (w : WarpOut) : Prop :=
  tokenOf c id = some w.tokenId ∧ env.routers w.tokenId = [w.domain] ∧
    (∃ r, s.recipients.get? (1, id) = some r ∧ c.hexAddr r = some w.recipient) ∧
    w.amount = hypOwed c s y id

end Dollar.Spec
