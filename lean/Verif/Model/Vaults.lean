import Verif.Model.Dollar

/-
keeper/msg_server_vaults.go and keeper/state_vaults.go.
-/
namespace Dollar
open MM

/-- `vaults.PositionEntry`: a position together with its key. -/
structure PosEntry where
  address : Addr
  vault : Int
  principal : Int
  index : Int
  amount : Int
  time : Int
  deriving DecidableEq, Repr

/-- `strings.ToLower` (keeper/msg_server_vaults.go:441).
Simplification: ASCII letters only; bech32 addresses contain nothing else. -/
def lowerStr (s : String) : String := String.ofList (s.toList.map Char.toLower)

/-- keeper/msg_server_vaults.go:438-446, `ToUserVaultPositionModuleAccount`. -/
def posAccountName (address : String) (vault time : Int) : String :=
  if vault = FLEXIBLE then
    "dollar/vaults/" ++ "flexible" ++ "/" ++ lowerStr address ++ "/" ++ toString time
  else "dollar/vaults/staked"

/-- The account that holds a position: `NewModuleAddress` of the name
(keeper/msg_server_vaults.go:91, 271, 283). -/
def posAddr (c : Cfg) (address : String) (vault time : Int) : Addr :=
  c.modAddr (posAccountName address vault time)

/-- keeper/state_vaults.go:143-165: positions of a user in a vault, in key (time) order.
Simplification: position keys of different addresses are ordered bytewise, without the length
prefix of the key codec; only the order within one address is ever observed. -/
def positionsOf (s : State) (addr : Addr) (vault : Int) : List PosEntry :=
  s.positions.filterMap fun e =>
    if e.1.1 = addr ∧ e.1.2.1 = vault then
      some ⟨e.1.1, e.1.2.1, e.2.principal, e.2.index, e.2.amount, e.2.time⟩
    else none

/-- keeper/state_vaults.go:93-115, `GetVaultsPositions`. -/
def allPositions (s : State) : List PosEntry :=
  s.positions.map fun e => ⟨e.1.1, e.1.2.1, e.2.principal, e.2.index, e.2.amount, e.2.time⟩

/-- `uint64` addition of one. -/
def u64inc (n : Nat) : Nat := (n + 1) % 2 ^ 64
/-- `uint64` subtraction of one (wraps below zero). -/
def u64dec (n : Nat) : Nat := if n = 0 then 2 ^ 64 - 1 else n - 1

/-- keeper/state_vaults.go:199-213. -/
def incrementVaultUsers (vault : Int) : M Unit := modify fun s =>
  if vault = STAKED then { s with vstats := { s.vstats with stakedUsers := u64inc s.vstats.stakedUsers } }
  else if vault = FLEXIBLE then { s with vstats := { s.vstats with flexUsers := u64inc s.vstats.flexUsers } }
  else s

/-- keeper/state_vaults.go:216-230. -/
def decrementVaultUsers (vault : Int) : M Unit := modify fun s =>
  if vault = STAKED then { s with vstats := { s.vstats with stakedUsers := u64dec s.vstats.stakedUsers } }
  else if vault = FLEXIBLE then { s with vstats := { s.vstats with flexUsers := u64dec s.vstats.flexUsers } }
  else s

/-- keeper/state_vaults.go:233-264: add `delta` (negative for the decrement) to the vault's
total principal statistic. -/
def addVaultPrincipal (vault delta : Int) : M Unit := modify fun s =>
  if vault = STAKED then
    { s with vstats := { s.vstats with stakedPrincipal := s.vstats.stakedPrincipal + delta } }
  else if vault = FLEXIBLE then
    { s with vstats := { s.vstats with flexPrincipal := s.vstats.flexPrincipal + delta } }
  else s

/-- keeper/state_vaults.go:267-280. -/
def incrementDistributed (amount : Int) : M Unit := modify fun s =>
  { s with vstats := { s.vstats with flexDistributed := s.vstats.flexDistributed + amount } }

/-- keeper/msg_server_vaults.go:73-76, 180-183: the vault type exists and is specified. -/
def validVault (vault : Int) : Bool := decide (vault = STAKED ∨ vault = FLEXIBLE)

/-- keeper/msg_server_vaults.go:122-135, 248-259: change the flexible principal total. -/
def addTotalFlexible (delta : Int) : M Unit :=
  modify fun s => { s with totalFlexible := s.totalFlexible + delta }

/-- keeper/msg_server_vaults.go:122-135: only a flexible lock enters the flexible total. -/
def lockTotal (vault p : Int) : M Unit := if vault = FLEXIBLE then addTotalFlexible p else pure ()

/-- keeper/msg_server_vaults.go:138-142: a first position makes a new user. -/
def countNewUser (addr : Addr) (vault : Int) : M Unit := do
  let s ← get
  if (positionsOf s addr vault).length = 1 then incrementVaultUsers vault else pure ()

/-- keeper/msg_server_vaults.go:104-153: the part of `Lock` after the coins were moved. -/
def lockBook (signer : String) (addr : Addr) (vault amount time : Int) : M Unit := do
  let s ← get
  let p ← principalDown amount s.index
  modify fun s => { s with positions := s.positions.set (addr, vault, time) ⟨p, s.index, amount, time⟩ }
  lockTotal vault p
  countNewUser addr vault
  addVaultPrincipal vault p
  emit (.positionLocked signer vault s.index amount p)

/-- keeper/msg_server_vaults.go:48-154, `Lock`.  `amount = none` is a nil `math.Int`, on which
`LT` panics (line 63). -/
def lock (c : Cfg) (env : Env) (signer : String) (vault : Int) (amount? : Option Int) : M Unit := do
  let s ← get
  if vault = FLEXIBLE ∧ s.seasonOneEnded = true then fail .actionPaused
  else if s.vPaused = PAUSE_ALL ∨ s.vPaused = PAUSE_LOCK then fail .actionPaused
  else match c.decode signer with
  | none => fail .badAddress
  | some addr =>
    match amount? with
    | none => crash
    | some amount =>
      if amount < c.minLock then fail .invalidAmount
      else if validVault vault = false then fail .invalidVaultType
      else if s.positions.has (addr, vault, env.time) = true then fail .samePositionTime
      else if s.balance addr < amount then fail .invalidAmount
      else do
        newCoin amount
        sendCoins c addr (posAddr c signer vault env.time) amount
        lockBook signer addr vault amount env.time

/-- keeper/msg_server_vaults.go:398-417 and keeper/query_server_vaults.go:130-141: the reward a
record pays to `amountPrincipal`. -/
def userReward (cur amountPrincipal : Int) (r : Reward) : Int :=
  if 0 < r.total ∧ 0 < r.rewards then
    if r.index ≠ cur ∧ 0 ≤ r.rewards then
      decTrunc (decMulInt (decQuo (decOfInt r.rewards) (decOfInt r.total)) amountPrincipal)
    else 0
  else 0

/-- keeper/msg_server_vaults.go:409-413: the record after the payment. -/
def rewardAfter (cur amountPrincipal : Int) (r : Reward) : Reward :=
  if 0 < r.total ∧ 0 < r.rewards then
    ⟨r.index, r.total - amountPrincipal, r.rewards - userReward cur amountPrincipal r⟩
  else r

/-- keeper/msg_server_vaults.go:394-420: total reward over the records after `start`. -/
def rewardsOwed (records : KV Int Reward) (start cur amountPrincipal : Int) : Int :=
  KV.sum records fun k r => if start < k then userReward cur amountPrincipal r else 0

/-- keeper/msg_server_vaults.go:394-420: the records after the walk.
Assumption: `Walk` visits the entries present when it starts; overwriting the visited key during
the walk does not disturb it. -/
def rewardsAfter (records : KV Int Reward) (start cur amountPrincipal : Int) : KV Int Reward :=
  records.map fun e => (e.1, if start < e.1 then rewardAfter cur amountPrincipal e.2 else e.2)

/-- keeper/msg_server_vaults.go:363-436, `ClaimRewards`. -/
def claimRewards (c : Cfg) (pos : PosEntry) (amount : Int) : M Int := do
  let s ← get
  if s.principalOf c.flexibleAddr ≤ 0 then pure 0
  else do
    let p ← principalDown amount pos.index
    let owed := rewardsOwed s.rewards pos.index s.index p
    modify fun s => { s with rewards := rewardsAfter s.rewards pos.index s.index p }
    newCoin owed
    sendCoins c c.flexibleAddr pos.address owed
    emit (.rewardClaimed pos.address owed)
    pure owed

/-- keeper/msg_server_vaults.go:246-279: additional work for a flexible position; returns the
amount to send. -/
def unlockFlexible (c : Cfg) (signer : String) (vault : Int) (pos : PosEntry)
    (amount principal : Int) : M Int := do
  addTotalFlexible (-principal)
  let rewards ← claimRewards c pos amount
  incrementDistributed rewards
  let y ← claimModuleYield c (posAddr c signer vault pos.time)
  if 0 < y then pure (amount + y) else pure amount

/-- keeper/msg_server_vaults.go:291-306: remove or shrink the position. -/
def updatePosition (pos : PosEntry) (amount principal : Int) : M Unit := modify fun s =>
  if pos.amount ≤ amount then { s with positions := s.positions.erase (pos.address, pos.vault, pos.time) }
  else
    let p : Position := ⟨pos.principal - principal, pos.index, pos.amount - amount, pos.time⟩
    { s with positions := s.positions.set (pos.address, pos.vault, pos.time) p }

/-- keeper/msg_server_vaults.go:238-241: how much of a position to remove. -/
def amountToRemove (pos : PosEntry) (remaining : Int) : Int :=
  if remaining < pos.amount then remaining else pos.amount

/-- keeper/msg_server_vaults.go:246-280: the amount to send for this position. -/
def unlockPayout (c : Cfg) (signer : String) (vault : Int) (pos : PosEntry)
    (amount principal : Int) : M Int :=
  if vault = FLEXIBLE then unlockFlexible c signer vault pos amount principal else pure amount

/-- keeper/msg_server_vaults.go:237-321: one loop iteration; returns removed amount and principal. -/
def unlockOne (c : Cfg) (signer : String) (addr : Addr) (vault : Int) (pos : PosEntry)
    (remaining : Int) : M (Int × Int) := do
  let amount := amountToRemove pos remaining
  let principal ← principalDown amount pos.index
  let toSend ← unlockPayout c signer vault pos amount principal
  newCoin toSend
  sendCoins c (posAddr c signer pos.vault pos.time) addr toSend
  updatePosition pos amount principal
  emit (.positionUnlocked signer vault pos.index toSend principal)
  pure (amount, principal)

/-- keeper/msg_server_vaults.go:231-322: returns the amount still to remove and the principal
removed. -/
def unlockLoop (c : Cfg) (signer : String) (addr : Addr) (vault : Int) :
    List PosEntry → Int → Int → M (Int × Int)
  | [], remaining, removed => pure (remaining, removed)
  | pos :: t, remaining, removed =>
    if remaining = 0 then pure (remaining, removed)
    else do
      let r ← unlockOne c signer addr vault pos remaining
      unlockLoop c signer addr vault t (remaining - r.1) (removed + r.2)

/-- keeper/msg_server_vaults.go:329-333: a user without positions is no longer counted. -/
def countGoneUser (addr : Addr) (vault : Int) : M Unit := do
  let s ← get
  if (positionsOf s addr vault).length = 0 then decrementVaultUsers vault else pure ()

/-- keeper/msg_server_vaults.go:167-339, `unlock`. -/
def unlockInner (c : Cfg) (signer : String) (vault : Int) (amount? : Option Int) : M Unit :=
  match c.decode signer with
  | none => fail .badAddress
  | some addr =>
    match amount? with
    | none => fail .invalidAmount
    | some amount =>
      if amount ≤ 0 then fail .invalidAmount
      else if validVault vault = false then fail .invalidVaultType
      else do
        let s ← get
        let positions := positionsOf s addr vault
        let total := (positions.map PosEntry.amount).sum
        if total < amount then fail .invalidAmount
        else if amount < c.minUnlock ∧ total ≠ amount then fail .invalidAmount
        else do
          let r ← unlockLoop c signer addr vault positions amount 0
          if r.1 ≠ 0 then fail .invalidAmount
          else do
            countGoneUser addr vault
            addVaultPrincipal vault (-r.2)

/-- keeper/msg_server_vaults.go:156-165, `Unlock`. -/
def unlock (c : Cfg) (signer : String) (vault : Int) (amount? : Option Int) : M Unit := do
  let s ← get
  if vault = FLEXIBLE ∧ s.seasonOneEnded = true then fail .actionPaused
  else if s.vPaused = PAUSE_ALL ∨ s.vPaused = PAUSE_UNLOCK then fail .actionPaused
  else unlockInner c signer vault amount?

/-- keeper/msg_server_vaults.go:341-361, `SetPausedState`: the pause type must be one of the
four enum values. -/
def vaultsSetPaused (c : Cfg) (signer : String) (paused : Int) : M Unit :=
  if signer ≠ c.authority then fail .invalidAuthority
  else if ¬(0 ≤ paused ∧ paused ≤ 3) then fail .invalidPauseType
  else do
    modify fun s => { s with vPaused := paused }
    emit (.vaultsPausedSet paused)

/-- keeper/msg_server_vaults.go:463-479: flexible totals per (encoded) user address. -/
def flexibleTotals (c : Cfg) : List PosEntry → KV String Int
  | [] => []
  | p :: t =>
    let rest := flexibleTotals c t
    if p.vault = FLEXIBLE then
      rest.set (c.encode p.address) ((rest.get? (c.encode p.address)).getD 0 + p.amount)
    else rest

/-- keeper/msg_server_vaults.go:483-497: unlock user by user; errors are logged and skipped,
what the failed call already wrote stays. -/
def endSeasonLoop (c : Cfg) : List (String × Int) → M Unit
  | [] => pure ()
  | (user, amount) :: t => do
    ignore (unlockInner c user FLEXIBLE (some amount))
    endSeasonLoop c t

/-- keeper/msg_server_vaults.go:450-501, `endVaultsSeasonOne` (not called anywhere in this
commit).  The store `flexibleTotals` is kept in ascending key order, which is the order
`sort.Strings` produces. -/
def endVaultsSeasonOne (c : Cfg) : M Unit := do
  let s ← get
  endSeasonLoop c (flexibleTotals c (allPositions s))

end Dollar
