import Verif.Model.Math

/-
x/bank for the module's denom (SDK v0.50.13 order of operations) and the module's
send restriction, keeper/keeper.go:188-292.
-/
namespace Dollar
open MM

/-- x/bank `setBalance`. -/
def setBalance (a : Addr) (v : Int) : M Unit := modify fun s => { s with bal := s.bal.set a v }

/-- x/bank `subUnlockedCoins` (no vesting locks). -/
def subCoins (a : Addr) (amount : Int) : M Unit := do
  let s ← get
  if s.balance a < amount then fail .insufficientFunds
  else setBalance a (s.balance a - amount)

/-- x/bank `addCoins`. -/
def addCoins (a : Addr) (amount : Int) : M Unit := do
  let s ← get
  setBalance a (s.balance a + amount)

/-- `sdk.NewCoin` panics on a negative amount. -/
def newCoin (amount : Int) : M Unit := if amount < 0 then crash else pure ()

/-- keeper/state.go:57-68. -/
def decrementHolders : M Unit := modify fun s =>
  { s with holders := if 0 < s.holders then s.holders - 1 else s.holders }

/-- keeper/state.go:71-80. -/
def incrementHolders : M Unit := modify fun s => { s with holders := s.holders + 1 }

/-- keeper/state.go:93-105. -/
def decrementTotalPrincipal (amount : Int) : M Unit :=
  modify fun s => { s with totalPrincipal := s.totalPrincipal - amount }

/-- keeper/state.go:108-120. -/
def incrementTotalPrincipal (amount : Int) : M Unit :=
  modify fun s => { s with totalPrincipal := s.totalPrincipal + amount }

/-- `Principal.Get` (zero if absent), add, `Principal.Set`:
keeper/keeper.go:223-231, 260-268 and keeper/msg_server.go:239-254. -/
def addPrincipal (a : Addr) (delta : Int) : M Unit :=
  modify fun s => { s with principal := s.principal.set a (s.principalOf a + delta) }

/-- keeper/keeper.go:222-251: sender side of the restriction. -/
def restrictSender (c : Cfg) (sender : Addr) (principal : Int) : M Unit :=
  if sender = c.moduleAddr then incrementTotalPrincipal principal
  else do
    addPrincipal sender (-principal)
    let s ← get
    if s.balance sender = 0 then decrementHolders else pure ()

/-- keeper/keeper.go:255-288: recipient side of the restriction. -/
def restrictRecipient (c : Cfg) (sender recipient : Addr) (amount index principal : Int) : M Unit :=
  if recipient = c.moduleAddr then decrementTotalPrincipal principal
  else do
    let p ← if sender = c.moduleAddr then principalDown amount index else pure principal
    addPrincipal recipient p
    let s ← get
    if s.balance recipient = 0 then incrementHolders else pure ()

/-- keeper/keeper.go:188-292, `SendRestrictionFn`. -/
def sendRestriction (c : Cfg) (sender recipient : Addr) (amount : Int) : M Unit :=
  if amount = 0 then pure ()
  else if sender = c.yieldAddr then pure ()
  else if recipient = c.yieldAddr then
    if sender = c.moduleAddr then pure () else fail .yieldAccount
  else do
    let s ← get
    let principal ← principalUp amount s.index
    restrictSender c sender principal
    restrictRecipient c sender recipient amount s.index principal

/-- x/bank `SendCoins` of one coin of the module's denom; an empty coin set is a no-op. -/
def sendCoins (c : Cfg) (sender recipient : Addr) (amount : Int) : M Unit :=
  if amount = 0 then pure ()
  else do
    subCoins sender amount
    sendRestriction c sender recipient amount
    addCoins recipient amount

/-- x/bank `SendCoinsFromModuleToAccount`: blocked recipients are rejected. -/
def sendModuleToAccount (c : Cfg) (sender recipient : Addr) (amount : Int) : M Unit :=
  if c.blocked recipient then fail .blockedRecipient else sendCoins c sender recipient amount

/-- x/bank `MintCoins` into the dollar module account. -/
def mintCoins (c : Cfg) (amount : Int) : M Unit := do
  addCoins c.moduleAddr amount
  modify fun s => { s with supply := s.supply + amount }

/-- x/bank `BurnCoins` from the dollar module account. -/
def burnCoins (c : Cfg) (amount : Int) : M Unit := do
  subCoins c.moduleAddr amount
  modify fun s => { s with supply := s.supply - amount }

/-- Outputs of a x/bank multi-send: restriction and credit per output. -/
def multiSendOutputs (c : Cfg) (sender : Addr) : List (Addr × Int) → M Unit
  | [] => pure ()
  | (out, amount) :: t => do
    sendRestriction c sender out amount
    addCoins out amount
    multiSendOutputs c sender t

/-- x/bank `InputOutputCoins`: the input is debited once, then every output is restricted
and credited. -/
def multiSend (c : Cfg) (sender : Addr) (outs : List (Addr × Int)) : M Unit := do
  subCoins sender (outs.map Prod.snd).sum
  multiSendOutputs c sender outs

end Dollar
