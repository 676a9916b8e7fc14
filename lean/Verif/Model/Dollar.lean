import Verif.Model.Bank

/-
keeper/keeper.go (GetYield), keeper/msg_server.go and keeper/state.go.
-/
namespace Dollar
open MM

/-! ### keeper/state.go -/

/-- keeper/state.go:123-135. -/
def incrementTotalYield (amount : Int) : M Unit :=
  modify fun s => { s with totalYield := s.totalYield + amount }

/-- keeper/state.go:138-147. -/
def incrementExtYield (provider : Int) (id : String) (amount : Int) : M Unit :=
  modify fun s => { s with extYield := s.extYield.set (provider, id) (s.extYieldOf provider id + amount) }

/-- keeper/state.go:178-193: the recipients of one provider as a Go map. -/
def recipientsBy (s : State) (provider : Int) : KV String String :=
  s.recipients.filterMap fun e => if e.1.1 = provider then some (e.1.2, e.2) else none

/-- keeper/state.go:196-201. -/
def hasYieldRecipient (s : State) (provider : Int) (id : String) : Bool :=
  s.recipients.has (provider, id)

/-- keeper/state.go:227-239: the entry is removed only when it is positive. -/
def takeRetry (provider : Int) (id : String) : M Int := do
  let s ← get
  let r := s.retryOf provider id
  if 0 < r then do
    modify fun s => { s with retry := s.retry.erase (provider, id) }
    pure r
  else pure r

/-- keeper/state.go:242-248. -/
def incrementRetry (provider : Int) (id : String) (amount : Int) : M Unit :=
  modify fun s => { s with retry := s.retry.set (provider, id) (s.retryOf provider id + amount) }

/-! ### Yield -/

/-- keeper/keeper.go:307-337, `GetYield` after the address is decoded: expected minus current
balance; one unit or a negative difference counts as zero. -/
def claimable (s : State) (a : Addr) : Int :=
  let y := present (s.principalOf a) s.index - s.balance a
  if y = 1 ∨ y < 0 then 0 else y

/-- keeper/keeper.go:307-337, `GetYield`. -/
def getYield (c : Cfg) (account : String) : M (Int × Addr) := do
  match c.decode account with
  | none => fail .badAddress
  | some a => do
    let s ← get
    pure (claimable s a, a)

/-- keeper/msg_server.go:52-71, `ClaimYield`. -/
def claimYield (c : Cfg) (signer : String) : M Unit := do
  let s ← get
  if s.paused then fail .paused
  else do
    let (y, account) ← getYield c signer
    newCoin y
    sendModuleToAccount c c.yieldAddr account y
    emit (.yieldClaimed signer y)

/-- keeper/msg_server.go:73-89, `SetPausedState`. -/
def setPaused (c : Cfg) (signer : String) (paused : Bool) : M Unit :=
  if signer ≠ c.authority then fail .invalidAuthority
  else do
    modify fun s => { s with paused := paused }
    emit (.pausedSet paused)

/-- keeper/msg_server.go:195-211, `claimModuleYield`.
Simplification: `addr.String()` is assumed to decode back to `addr`. -/
def claimModuleYield (c : Cfg) (a : Addr) : M Int := do
  let s ← get
  let y := claimable s a
  if 0 < y then do
    sendModuleToAccount c c.yieldAddr a y
    pure y
  else pure y

/-- keeper/msg_server.go:234-236: principal that corresponds to an amount of staked yield. -/
def yieldPrincipal (y index : Int) : Int :=
  decTrunc (decQuo (decOfInt y) (decQuoInt (decOfInt index) SCALE))

/-- keeper/msg_server.go:213-256, `claimStakedVaultYield`. -/
def claimStakedVaultYield (c : Cfg) : M Int := do
  let s ← get
  let y := claimable s c.stakedAddr
  if 0 < y then do
    sendModuleToAccount c c.yieldAddr c.flexibleAddr y
    let s ← get
    if decQuoInt (decOfInt s.index) SCALE = 0 then crash
    else do
      addPrincipal c.stakedAddr (-(yieldPrincipal y s.index))
      addPrincipal c.flexibleAddr (yieldPrincipal y s.index)
      pure y
  else pure 0

/-! ### External yield -/

/-- `sort.Strings` (keeper/msg_server.go:269, 332): insertion into an ascending list. -/
def insertStr (x : String) : List String → List String
  | [] => [x]
  | y :: t => if x < y then x :: y :: t else y :: insertStr x t

/-- `sort.Strings`. -/
def sortStrings : List String → List String
  | [] => []
  | x :: t => insertStr x (sortStrings t)

/-- keeper/msg_server.go:260-269 and 323-332: identifiers with a recipient, collected by
iterating over a Go map (arbitrary order) and then sorted. -/
def sortedIds (env : Env) (s : State) (provider : Int) : List String :=
  sortStrings (env.mapOrder ((recipientsBy s provider).map Prod.fst))

/-- isc4_wrapper.go:65-80 for a USDN packet: refused without a yield recipient on the channel. -/
def ics4Check (channel : String) : M Unit := do
  let s ← get
  if hasYieldRecipient s IBC channel then pure () else fail .ibcDisabled

/-- IBC core `SendPacket`: store the commitment of a packet (and count its vouchers). -/
def bookPacket (p : IbcOut) : M Unit := modify fun s =>
  { s with ibcOut := s.ibcOut ++ [p], inflight := s.inflight ++ [p],
           vouchers := s.vouchers.set p.channel (s.vouchersOf p.channel + p.amount) }

/-- ibc-go `Transfer` of USDN by `sender` over `channel`: escrow the coins, pass the module's
ICS4 wrapper, hand the packet to IBC core.  The environment decides whether and where it fails. -/
def ibcTransfer (c : Cfg) (env : Env) (channel : String) (sender : Addr) (receiver : String)
    (amount : Int) : M Unit :=
  match env.ibc channel with
  | .failEarly => fail .transferFailed
  | .failLate => do
    sendCoins c sender (c.escrowAddr channel) amount
    ics4Check channel
    fail .transferFailed
  | .success => do
    sendCoins c sender (c.escrowAddr channel) amount
    ics4Check channel
    bookPacket ⟨channel, sender, receiver, amount⟩

/-- keeper/msg_server.go:299-306: a failed transfer is queued for retry. -/
def retryOnError (e : Option Err) (provider : Int) (id : String) (amount : Int) : M Unit :=
  match e with
  | none => pure ()
  | some _ => incrementRetry provider id amount

/-- keeper/msg_server.go:271-316: one iteration of the IBC loop. -/
def ibcOne (c : Cfg) (env : Env) (recips : KV String String) (channel : String) : M Unit := do
  let y ← claimModuleYield c (c.escrowAddr channel)
  let r ← takeRetry IBC channel
  if 0 < y + r then do
    let e ← attempt (ibcTransfer c env channel (c.escrowAddr channel)
      ((recips.get? channel).getD "") (y + r))
    retryOnError e IBC channel (y + r)
    incrementExtYield IBC channel y
  else pure ()

/-- keeper/msg_server.go:271-318. -/
def ibcLoop (c : Cfg) (env : Env) (recips : KV String String) : List String → M Unit
  | [] => pure ()
  | id :: t => do
    ibcOne c env recips id
    ibcLoop c env recips t

/-- keeper/msg_server.go:258-319, `claimExternalYieldIBC`. -/
def claimExternalIBC (c : Cfg) (env : Env) : M Unit := do
  let s ← get
  ibcLoop c env (recipientsBy s IBC) (sortedIds env s IBC)

/-- A warp route: identifier, internal token id, collateral read before the transfers. -/
structure Route where
  identifier : String
  tokenId : Nat
  collateral : Int
  deriving DecidableEq, Repr

/-- keeper/msg_server.go:347-363: first pass over the routes. -/
def hypRoutes (c : Cfg) : List String → M (List Route)
  | [] => pure []
  | id :: t =>
    match c.hexAddr id with
    | none => fail .badIdentifier
    | some raw => do
      let s ← get
      match s.collateral.get? (c.internalId raw) with
      | none => fail .unknownToken
      | some col => do
        let rest ← hypRoutes c t
        pure (⟨id, c.internalId raw, col⟩ :: rest)

/-- keeper/msg_server.go:347, 361: sum of the collateral of all routes. -/
def totalCollateral (routes : List Route) : Int := (routes.map Route.collateral).sum

/-- keeper/msg_server.go:373-375: a route's share of the yield, rounded down. -/
def yieldPortion (col total y : Int) : Int :=
  decTrunc (decMulInt (decQuoInt (decOfInt col) total) y)

/-- keeper/msg_server_v2.go:94-114, `getHyperlaneRouter`. -/
def hypRouter (env : Env) (tokenId : Nat) : M Nat :=
  match env.routers tokenId with
  | [d] => pure d
  | _ => fail .badRouter

/-- warp `RemoteTransferCollateral` from the warp account to itself (keeper/msg_server.go:396-407):
book the coins, raise the collateral recorded for the (previously read) token, dispatch. -/
def warpTransfer (c : Cfg) (env : Env) (r : Route) (domain : Nat) (recipient : Bytes)
    (amount : Int) : M Unit :=
  match env.warp r.tokenId with
  | .failEarly => fail .transferFailed
  | .failLate => do
    sendCoins c c.warpAddr c.warpAddr amount
    modify fun s => { s with collateral := s.collateral.set r.tokenId (r.collateral + amount) }
    fail .transferFailed
  | .success => do
    sendCoins c c.warpAddr c.warpAddr amount
    modify fun s => { s with collateral := s.collateral.set r.tokenId (r.collateral + amount) }
    modify fun s => { s with warpOut := s.warpOut ++ [⟨r.tokenId, domain, recipient, amount⟩] }

/-- keeper/msg_server.go:369-425: one iteration of the second Hyperlane loop. -/
def hypOne (c : Cfg) (env : Env) (recips : KV String String) (total y : Int) (r : Route) :
    M Unit := do
  let portion := yieldPortion r.collateral total y
  let retry ← takeRetry HYPERLANE r.identifier
  if 0 < portion + retry then do
    let domain ← hypRouter env r.tokenId
    match c.hexAddr ((recips.get? r.identifier).getD "") with
    | none => fail .badHexRecipient
    | some recipient => do
      let e ← attempt (warpTransfer c env r domain recipient (portion + retry))
      retryOnError e HYPERLANE r.identifier (portion + retry)
      incrementExtYield HYPERLANE r.identifier portion
  else pure ()

/-- keeper/msg_server.go:369-427. -/
def hypLoop (c : Cfg) (env : Env) (recips : KV String String) (total y : Int) :
    List Route → M Unit
  | [] => pure ()
  | r :: t => do
    hypOne c env recips total y r
    hypLoop c env recips total y t

/-- keeper/msg_server.go:321-428, `claimExternalYieldHyperlane`. -/
def claimExternalHyperlane (c : Cfg) (env : Env) : M Unit := do
  let s ← get
  let y ← claimModuleYield c c.warpAddr
  if 0 < y then do
    let routes ← hypRoutes c (sortedIds env s HYPERLANE)
    if 0 < totalCollateral routes then
      hypLoop c env (recipientsBy s HYPERLANE) (totalCollateral routes) y routes
    else pure ()
  else pure ()

/-! ### Index updates -/

/-- keeper/msg_server.go:432-466, `handleVaultsYieldSeasonOne`. -/
def handleSeasonOne (c : Cfg) (index : Int) : M Unit := do
  let flexibleYield ← claimModuleYield c c.flexibleAddr
  let stakedYield ← claimStakedVaultYield c
  modify fun s =>
    { s with rewards := s.rewards.set index ⟨index, s.totalFlexible, stakedYield + flexibleYield⟩ }

/-- keeper/msg_server.go:470-493, `handleVaultsYieldSeasonTwo`. -/
def handleSeasonTwo (c : Cfg) : M Unit := do
  let y ← claimModuleYield c c.stakedAddr
  if 0 < y then do
    let s ← get
    sendCoins c c.stakedAddr s.collector y
  else pure ()

/-- keeper/msg_server.go:163-173: vault yield handling, by season. -/
def handleVaults (c : Cfg) (index : Int) : M Unit := do
  let s ← get
  if s.seasonOneEnded then handleSeasonTwo c else handleSeasonOne c index

/-- keeper/msg_server.go:145-161: mint the difference between expected and current supply to
the yield account.  `sdk.NewCoin` panics when the difference is negative (line 145). -/
def accrueYield (c : Cfg) (diff : Int) : M Unit := do
  newCoin diff
  if 0 < diff then do
    mintCoins c diff
    sendCoins c c.moduleAddr c.yieldAddr diff
    incrementTotalYield diff
  else pure ()

/-- keeper/msg_server.go:123-193, `UpdateIndex`. -/
def updateIndex (c : Cfg) (env : Env) (index : Int) : M Unit := do
  let s ← get
  if index ≤ s.index then fail .decreasingIndex
  else do
    modify fun s => { s with index := index }
    accrueYield c (present s.totalPrincipal index - s.supply)
    handleVaults c index
    claimExternalIBC c env
    claimExternalHyperlane c env
    emit (.indexUpdated s.index index s.totalPrincipal (present s.totalPrincipal index - s.supply))

/-- keeper/msg_server.go:105-121, `Mint` with a non-nil index (the only call,
keeper/keeper.go:425): the error of `UpdateIndex` is ignored. -/
def mint (c : Cfg) (env : Env) (recipient : Addr) (amount index : Int) : M Unit := do
  ignore (updateIndex c env index)
  newCoin amount
  mintCoins c amount
  sendModuleToAccount c c.moduleAddr recipient amount

/-- keeper/msg_server.go:91-103, `Burn`. -/
def burn (c : Cfg) (sender : Addr) (amount : Int) : M Unit := do
  newCoin amount
  sendCoins c sender c.moduleAddr amount
  burnCoins c amount

/-! ### keeper/msg_server_v2.go -/

/-- keeper/msg_server_v2.go:53-75: existence checks; an unknown provider is not checked. -/
def checkRoute (c : Cfg) (env : Env) (provider : Int) (identifier : String) : M Unit :=
  if provider = IBC then
    if env.channelExists identifier then pure () else fail .unknownChannel
  else if provider = HYPERLANE then
    match c.hexAddr identifier with
    | none => fail .badIdentifier
    | some raw => do
      let s ← get
      if s.collateral.has (c.internalId raw) then do
        let _ ← hypRouter env (c.internalId raw)
        pure ()
      else fail .unknownToken
  else pure ()

/-- keeper/msg_server_v2.go:48-88, `SetYieldRecipient`. -/
def setYieldRecipient (c : Cfg) (env : Env) (signer : String) (provider : Int)
    (identifier recipient : String) : M Unit :=
  if signer ≠ c.authority then fail .invalidAuthority
  else do
    checkRoute c env provider identifier
    modify fun s => { s with recipients := s.recipients.set (provider, identifier) recipient }
    emit (.yieldRecipientSet provider identifier recipient)

end Dollar
