import Verif.Model.Bank

/-
x/bank with other denominations and vesting locks beside the module's denom: `SendCoins` of a whole set of
coins (SDK v0.50.13) with the module's send restriction, which looks only at the amount of its own denom
(keeper/keeper.go:188-190).
-/
namespace Dollar
open MM

/-- `sdk.Coins`: denominations with amounts. -/
abbrev Coins := List (String × Int)

/-- `Coins.AmountOf` (keeper/keeper.go:189). -/
def amountOf (coins : Coins) (denom : String) : Int := (KV.get? coins denom).getD 0

/-- The chain state together with the balances of all other denominations. -/
structure Wallets where
  s : State
  other : KV (Addr × String) Int

/-- x/bank `GetBalance` of any denomination. -/
def Wallets.balance (c : Cfg) (w : Wallets) (a : Addr) (denom : String) : Int :=
  if denom = c.denom then w.s.balance a else (w.other.get? (a, denom)).getD 0

/-- x/bank `setBalance` of any denomination. -/
def Wallets.setBalance (c : Cfg) (w : Wallets) (a : Addr) (denom : String) (v : Int) : Wallets :=
  if denom = c.denom then { w with s := { w.s with bal := w.s.bal.set a v } }
  else { w with other := w.other.set (a, denom) v }

/-- Run a computation on the chain state. -/
def onState {α : Type} (x : M α) : MM Wallets α := fun w =>
  match x w.s with
  | .ok r s => .ok r { w with s := s }
  | .err e s => .err e { w with s := s }
  | .panic => .panic

/-- x/bank `subUnlockedCoins`: coin by coin; what is locked by a vesting schedule cannot be sent. -/
def subCoinsIn (c : Cfg) (locked : Addr → String → Int) (a : Addr) : Coins → MM Wallets Unit
  | [] => pure ()
  | (denom, amount) :: t => do
    let w ← get
    if w.balance c a denom - locked a denom < amount then fail .insufficientFunds
    else do
      modify fun w => w.setBalance c a denom (w.balance c a denom - amount)
      subCoinsIn c locked a t

/-- x/bank `addCoins`: coin by coin. -/
def addCoinsIn (c : Cfg) (a : Addr) : Coins → MM Wallets Unit
  | [] => pure ()
  | (denom, amount) :: t => do
    modify fun w => w.setBalance c a denom (w.balance c a denom + amount)
    addCoinsIn c a t

/-- x/bank `SendCoins` of a set of coins; the restriction (keeper/keeper.go:188-292) reads the amount of its own
denomination only. -/
def sendCoinsIn (c : Cfg) (locked : Addr → String → Int) (a b : Addr) (coins : Coins) : MM Wallets Unit := do
  subCoinsIn c locked a coins
  onState (sendRestriction c a b (amountOf coins c.denom))
  addCoinsIn c b coins

/-- Outputs of a x/bank multi-send of sets of coins: restriction (keeper/keeper.go:188-292) and credit per output. -/
def multiOutputsIn (c : Cfg) (a : Addr) : List (Addr × Coins) → MM Wallets Unit
  | [] => pure ()
  | (out, coins) :: t => do
    onState (sendRestriction c a out (amountOf coins c.denom))
    addCoinsIn c out coins
    multiOutputsIn c a t

/-- x/bank `InputOutputCoins` of sets of coins (SDK v0.50.13), after `ValidateInputOutputs`: the input is debited once, then every output
passes the restriction (keeper/keeper.go:188-292) and is credited. -/
def multiSendIn (c : Cfg) (locked : Addr → String → Int) (a : Addr) (input : Coins) (outs : List (Addr × Coins)) : MM Wallets Unit := do
  subCoinsIn c locked a input
  multiOutputsIn c a outs

end Dollar
