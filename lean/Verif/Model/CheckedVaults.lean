import Verif.Model.Checked
import Verif.Model.Queries
import Verif.Model.System

/-
The two messages of the vaults and the two queries of pending rewards once more, now with the overflow panic of
`cosmossdk.io/math.Int` at every addition, subtraction, multiplication and decimal operation that
keeper/msg_server_vaults.go, keeper/state_vaults.go and keeper/query_server_vaults.go write.  Left unchecked: the
transfers of coins (`sendCoins`) and the claim of a position's yield (`claimModuleYield`), which are not written in
those files; the conversions in them are the subject of C71.
-/
namespace Dollar.Checked
open MM

/-- The overflow panic of `cosmossdk.io/math.Int` (for instance keeper/msg_server_vaults.go:194) ends the message. -/
def lift {α : Type} : Option α → M α
  | some a => pure a
  | none => crash

/-- The accumulation loops of keeper/msg_server_vaults.go:192-195 and keeper/query_server_vaults.go:86-89:
`total = total.Add(x)`. -/
def sumFrom : Int → List Int → Option Int
  | acc, [] => some acc
  | acc, x :: t => do
    let a ← add acc x
    sumFrom a t

/-- keeper/msg_server_vaults.go:122-135 (`Add`). -/
def lockTotal (vault p : Int) : M Unit := do
  let s ← get
  if vault = FLEXIBLE then do
    let x ← lift (add s.totalFlexible p)
    modify fun s => { s with totalFlexible := x }
  else pure ()

/-- keeper/state_vaults.go:233-247, `IncrementVaultTotalPrincipal`. -/
def incVaultPrincipal (vault p : Int) : M Unit := do
  let s ← get
  if vault = STAKED then do
    let x ← lift (add s.vstats.stakedPrincipal p)
    modify fun s => { s with vstats := { s.vstats with stakedPrincipal := x } }
  else if vault = FLEXIBLE then do
    let x ← lift (add s.vstats.flexPrincipal p)
    modify fun s => { s with vstats := { s.vstats with flexPrincipal := x } }
  else pure ()

/-- keeper/state_vaults.go:250-264, `DecrementVaultTotalPrincipal`. -/
def decVaultPrincipal (vault p : Int) : M Unit := do
  let s ← get
  if vault = STAKED then do
    let x ← lift (sub s.vstats.stakedPrincipal p)
    modify fun s => { s with vstats := { s.vstats with stakedPrincipal := x } }
  else if vault = FLEXIBLE then do
    let x ← lift (sub s.vstats.flexPrincipal p)
    modify fun s => { s with vstats := { s.vstats with flexPrincipal := x } }
  else pure ()

/-- keeper/state_vaults.go:267-280. -/
def incrementDistributed (amount : Int) : M Unit := do
  let s ← get
  let x ← lift (add s.vstats.flexDistributed amount)
  modify fun s => { s with vstats := { s.vstats with flexDistributed := x } }

/-- keeper/msg_server_vaults.go:104-153, see `Dollar.lockBook`. -/
def lockBook (signer : String) (addr : Addr) (vault amount time : Int) : M Unit := do
  let s ← get
  let p ← lift (principalDown amount s.index)
  modify fun s => { s with positions := s.positions.set (addr, vault, time) ⟨p, s.index, amount, time⟩ }
  lockTotal vault p
  countNewUser addr vault
  incVaultPrincipal vault p
  emit (.positionLocked signer vault s.index amount p)

/-- keeper/msg_server_vaults.go:48-154, see `Dollar.lock`. -/
def lock (c : Cfg) (env : Env) (signer : String) (vault : Int) (amount? : Option Int) : M Unit := do
  let s ← get
  if vault = FLEXIBLE ∧ s.seasonOneEnded = true then fail .actionPaused
  else if s.vPaused = PAUSE_ALL ∨ s.vPaused = PAUSE_LOCK then fail .actionPaused
  else match c.decode signer with
  | none => fail .badAddress
  | some addr =>
    match amount? with
    | none => crash
    | some amount =>
      if amount < c.minLock then fail .invalidAmount
      else if validVault vault = false then fail .invalidVaultType
      else if s.positions.has (addr, vault, env.time) = true then fail .samePositionTime
      else if s.balance addr < amount then fail .invalidAmount
      else do
        newCoin amount
        sendCoins c addr (posAddr c signer vault env.time) amount
        lockBook signer addr vault amount env.time

/-- keeper/msg_server_vaults.go:394-420: the walk over the records after `start`, record by record. -/
def walk (start cur p : Int) : KV Int Reward → Int → Option (KV Int Reward × Int)
  | [], acc => some ([], acc)
  | (k, r) :: t, acc =>
    if ¬ start < k ∨ ¬ 0 < r.total ∨ ¬ 0 < r.rewards then do
      let (t', a) ← walk start cur p t acc
      some ((k, r) :: t', a)
    else do
      let u ← userReward cur p r
      let total ← sub r.total p
      let rewards ← sub r.rewards u
      let acc ← add acc u
      let (t', a) ← walk start cur p t acc
      some ((k, ⟨r.index, total, rewards⟩) :: t', a)

/-- keeper/msg_server_vaults.go:363-436, see `Dollar.claimRewards`. -/
def claimRewards (c : Cfg) (pos : PosEntry) (amount : Int) : M Int := do
  let s ← get
  if s.principalOf c.flexibleAddr ≤ 0 then pure 0
  else do
    let p ← lift (principalDown amount pos.index)
    let r ← lift (walk pos.index s.index p s.rewards 0)
    modify fun s => { s with rewards := r.1 }
    newCoin r.2
    sendCoins c c.flexibleAddr pos.address r.2
    emit (.rewardClaimed pos.address r.2)
    pure r.2

/-- keeper/msg_server_vaults.go:246-279, see `Dollar.unlockFlexible`. -/
def unlockFlexible (c : Cfg) (signer : String) (vault : Int) (pos : PosEntry)
    (amount principal : Int) : M Int := do
  let s ← get
  let x ← lift (sub s.totalFlexible principal)
  modify fun s => { s with totalFlexible := x }
  let rewards ← claimRewards c pos amount
  incrementDistributed rewards
  let y ← claimModuleYield c (posAddr c signer vault pos.time)
  if 0 < y then lift (add amount y) else pure amount

/-- keeper/msg_server_vaults.go:291-306, see `Dollar.updatePosition`. -/
def updatePosition (pos : PosEntry) (amount principal : Int) : M Unit :=
  if pos.amount ≤ amount then
    modify fun s => { s with positions := s.positions.erase (pos.address, pos.vault, pos.time) }
  else do
    let p ← lift (sub pos.principal principal)
    let a ← lift (sub pos.amount amount)
    modify fun s =>
      { s with positions := s.positions.set (pos.address, pos.vault, pos.time) ⟨p, pos.index, a, pos.time⟩ }

/-- keeper/msg_server_vaults.go:246-280, see `Dollar.unlockPayout`. -/
def unlockPayout (c : Cfg) (signer : String) (vault : Int) (pos : PosEntry)
    (amount principal : Int) : M Int :=
  if vault = FLEXIBLE then unlockFlexible c signer vault pos amount principal else pure amount

/-- keeper/msg_server_vaults.go:237-321, see `Dollar.unlockOne`. -/
def unlockOne (c : Cfg) (signer : String) (addr : Addr) (vault : Int) (pos : PosEntry)
    (remaining : Int) : M (Int × Int) := do
  let amount := amountToRemove pos remaining
  let principal ← lift (principalDown amount pos.index)
  let toSend ← unlockPayout c signer vault pos amount principal
  newCoin toSend
  sendCoins c (posAddr c signer pos.vault pos.time) addr toSend
  updatePosition pos amount principal
  emit (.positionUnlocked signer vault pos.index toSend principal)
  pure (amount, principal)

/-- keeper/msg_server_vaults.go:231-322, see `Dollar.unlockLoop`. -/
def unlockLoop (c : Cfg) (signer : String) (addr : Addr) (vault : Int) :
    List PosEntry → Int → Int → M (Int × Int)
  | [], remaining, removed => pure (remaining, removed)
  | pos :: t, remaining, removed =>
    if remaining = 0 then pure (remaining, removed)
    else do
      let r ← unlockOne c signer addr vault pos remaining
      let removed ← lift (add removed r.2)
      let remaining ← lift (sub remaining r.1)
      unlockLoop c signer addr vault t remaining removed

/-- keeper/msg_server_vaults.go:167-339, see `Dollar.unlockInner`. -/
def unlockInner (c : Cfg) (signer : String) (vault : Int) (amount? : Option Int) : M Unit :=
  match c.decode signer with
  | none => fail .badAddress
  | some addr =>
    match amount? with
    | none => fail .invalidAmount
    | some amount =>
      if amount ≤ 0 then fail .invalidAmount
      else if validVault vault = false then fail .invalidVaultType
      else do
        let s ← get
        let positions := positionsOf s addr vault
        let total ← lift (sumFrom 0 (positions.map PosEntry.amount))
        if total < amount then fail .invalidAmount
        else if amount < c.minUnlock ∧ total ≠ amount then fail .invalidAmount
        else do
          let r ← unlockLoop c signer addr vault positions amount 0
          if r.1 ≠ 0 then fail .invalidAmount
          else do
            countGoneUser addr vault
            decVaultPrincipal vault r.2

/-- keeper/msg_server_vaults.go:156-165, see `Dollar.unlock`. -/
def unlock (c : Cfg) (signer : String) (vault : Int) (amount? : Option Int) : M Unit := do
  let s ← get
  if vault = FLEXIBLE ∧ s.seasonOneEnded = true then fail .actionPaused
  else if s.vPaused = PAUSE_ALL ∨ s.vPaused = PAUSE_UNLOCK then fail .actionPaused
  else unlockInner c signer vault amount?

/-- keeper/query_server_vaults.go:74-94, see `Dollar.queryPendingRewards`. -/
def queryPendingRewards (s : State) : Option Int := sumFrom 0 (s.rewards.map fun e => e.2.rewards)

/-- keeper/query_server_vaults.go:124-144: the walk for one position, which adds to the position's rewards and to the
total of all positions. -/
def queryWalk (start cur p : Int) : KV Int Reward → Int → Int → Option (Int × Int)
  | [], acc, total => some (acc, total)
  | (k, r) :: t, acc, total =>
    if ¬ start < k ∨ ¬ 0 < r.total ∨ ¬ 0 < r.rewards then queryWalk start cur p t acc total
    else do
      let u ← userReward cur p r
      let acc ← add acc u
      let total ← add total u
      queryWalk start cur p t acc total

/-- keeper/query_server_vaults.go:115-150: the loop over the positions. -/
def queryLoop (s : State) : List PosEntry → Int → Option (Int × List (Int × Int))
  | [], total => some (total, [])
  | p :: t, total => do
    let q ← principalDown p.amount p.index
    let r ← queryWalk p.index s.index q s.rewards 0 total
    let (total', l) ← queryLoop s t r.2
    some (total', (p.amount, r.1) :: l)

/-- keeper/query_server_vaults.go:96-156, see `Dollar.queryPendingByProvider`. -/
def queryPendingByProvider (c : Cfg) (s : State) (provider : String) : Option (Int × List (Int × Int)) := do
  let a ← c.decode provider
  queryLoop s (positionsOf s a FLEXIBLE) 0

/-- module.go:154-165, see `Dollar.exec`: the handlers, those of keeper/msg_server_vaults.go:48-339 with the overflow
panic. -/
def exec (c : Cfg) (env : Env) : Msg → M Unit
  | .lock signer v a => lock c env signer v a
  | .unlock signer v a => unlock c signer v a
  | m => Dollar.exec c env m

/-- One transaction (module.go:154-165, see `Dollar.step`). -/
def step (c : Cfg) (env : Env) (m : Msg) (s : State) : State := runTx (exec c env m) s

/-- The state after a history (module.go:154-165, see `Dollar.run`). -/
def run (c : Cfg) : History → State → State
  | [], s => s
  | (env, m) :: t, s => run c t (step c env m s)

end Dollar.Checked
