import Verif.Model.CheckedVaults

/-
The remaining handlers once more, now with the overflow panic of `cosmossdk.io/math.Int` at every addition, subtraction,
multiplication and decimal operation: the send restriction, transfers of coins, claims, the update of the index with the
distribution of yield, mint and burn, the portal, and the messages of other modules that move coins (the sums that
x/bank and warp compute on balances, supply and collateral included).  Together with Model/CheckedVaults, whose handlers
appear here with the checked transfers and claims, that is every message.
Simplifications: where the Go code calls `SafeAdd` or `SafeSub` and returns the error (keeper/state.go:99, 114, 129) the
overflow is modelled as the panic, which is the stronger demand; the debit of a balance (`SafeSub` of x/bank after the
comparison) and the sum of the outputs of a multi-send (validation of x/bank's own message) are left unchecked, as is the
ghost count of vouchers.
-/
namespace Dollar.Checked.Full
open MM

/-! ### keeper/keeper.go, keeper/state.go and x/bank -/

/-- x/bank `addCoins` (reached from keeper/keeper.go:188-292 and every transfer), see `Dollar.addCoins`. -/
def addCoins (a : Addr) (amount : Int) : M Unit := do
  let s ← get
  let x ← lift (add (s.balance a) amount)
  setBalance a x

/-- keeper/state.go:93-105. -/
def decrementTotalPrincipal (amount : Int) : M Unit := do
  let s ← get
  let x ← lift (sub s.totalPrincipal amount)
  modify fun s => { s with totalPrincipal := x }

/-- keeper/state.go:108-120. -/
def incrementTotalPrincipal (amount : Int) : M Unit := do
  let s ← get
  let x ← lift (add s.totalPrincipal amount)
  modify fun s => { s with totalPrincipal := x }

/-- keeper/keeper.go:223-231, 260-268 and keeper/msg_server.go:239-254; `Sub(x)` is the addition of `-x`. -/
def addPrincipal (a : Addr) (delta : Int) : M Unit := do
  let s ← get
  let x ← lift (add (s.principalOf a) delta)
  modify fun s => { s with principal := s.principal.set a x }

/-- keeper/keeper.go:222-251, see `Dollar.restrictSender`. -/
def restrictSender (c : Cfg) (sender : Addr) (principal : Int) : M Unit :=
  if sender = c.moduleAddr then incrementTotalPrincipal principal
  else do
    addPrincipal sender (-principal)
    let s ← get
    if s.balance sender = 0 then decrementHolders else pure ()

/-- keeper/keeper.go:255-288, see `Dollar.restrictRecipient`. -/
def restrictRecipient (c : Cfg) (sender recipient : Addr) (amount index principal : Int) : M Unit :=
  if recipient = c.moduleAddr then decrementTotalPrincipal principal
  else do
    let p ← if sender = c.moduleAddr then lift (principalDown amount index) else pure principal
    addPrincipal recipient p
    let s ← get
    if s.balance recipient = 0 then incrementHolders else pure ()

/-- keeper/keeper.go:188-292, see `Dollar.sendRestriction`. -/
def sendRestriction (c : Cfg) (sender recipient : Addr) (amount : Int) : M Unit :=
  if amount = 0 then pure ()
  else if sender = c.yieldAddr then pure ()
  else if recipient = c.yieldAddr then
    if sender = c.moduleAddr then pure () else fail .yieldAccount
  else do
    let s ← get
    let principal ← lift (principalUp amount s.index)
    restrictSender c sender principal
    restrictRecipient c sender recipient amount s.index principal

/-- x/bank `SendCoins` around keeper/keeper.go:188-292, see `Dollar.sendCoins`. -/
def sendCoins (c : Cfg) (sender recipient : Addr) (amount : Int) : M Unit :=
  if amount = 0 then pure ()
  else do
    subCoins sender amount
    sendRestriction c sender recipient amount
    addCoins recipient amount

/-- x/bank `SendCoinsFromModuleToAccount` (keeper/msg_server.go:62, 117, 204), see `Dollar.sendModuleToAccount`. -/
def sendModuleToAccount (c : Cfg) (sender recipient : Addr) (amount : Int) : M Unit :=
  if c.blocked recipient then fail .blockedRecipient else sendCoins c sender recipient amount

/-- x/bank `MintCoins` (keeper/msg_server.go:112, 148), see `Dollar.mintCoins`. -/
def mintCoins (c : Cfg) (amount : Int) : M Unit := do
  addCoins c.moduleAddr amount
  let s ← get
  let x ← lift (add s.supply amount)
  modify fun s => { s with supply := x }

/-- x/bank `BurnCoins` (keeper/msg_server.go:98), see `Dollar.burnCoins`. -/
def burnCoins (c : Cfg) (amount : Int) : M Unit := do
  subCoins c.moduleAddr amount
  let s ← get
  let x ← lift (sub s.supply amount)
  modify fun s => { s with supply := x }

/-- x/bank multi-send around keeper/keeper.go:188-292, see `Dollar.multiSendOutputs`. -/
def multiSendOutputs (c : Cfg) (sender : Addr) : List (Addr × Int) → M Unit
  | [] => pure ()
  | (out, amount) :: t => do
    sendRestriction c sender out amount
    addCoins out amount
    multiSendOutputs c sender t

/-- x/bank `InputOutputCoins` around keeper/keeper.go:188-292, see `Dollar.multiSend`. -/
def multiSend (c : Cfg) (sender : Addr) (outs : List (Addr × Int)) : M Unit := do
  subCoins sender (outs.map Prod.snd).sum
  multiSendOutputs c sender outs

/-! ### Yield -/

/-- keeper/keeper.go:307-337, see `Dollar.claimable`: `SafeSub` that fails gives zero (lines 331-334). -/
def claimable (s : State) (a : Addr) : Option Int := do
  let expected ← Checked.present (s.principalOf a) s.index
  match sub expected (s.balance a) with
  | none => some 0
  | some y => some (if y = 1 ∨ y < 0 then 0 else y)

/-- keeper/keeper.go:307-337, see `Dollar.getYield`. -/
def getYield (c : Cfg) (account : String) : M (Int × Addr) := do
  match c.decode account with
  | none => fail .badAddress
  | some a => do
    let s ← get
    let y ← lift (claimable s a)
    pure (y, a)

/-- keeper/msg_server.go:52-71, see `Dollar.claimYield`. -/
def claimYield (c : Cfg) (signer : String) : M Unit := do
  let s ← get
  if s.paused then fail .paused
  else do
    let (y, account) ← getYield c signer
    newCoin y
    sendModuleToAccount c c.yieldAddr account y
    emit (.yieldClaimed signer y)

/-- keeper/msg_server.go:195-211, see `Dollar.claimModuleYield`. -/
def claimModuleYield (c : Cfg) (a : Addr) : M Int := do
  let s ← get
  let y ← lift (claimable s a)
  if 0 < y then do
    sendModuleToAccount c c.yieldAddr a y
    pure y
  else pure y

/-- keeper/msg_server.go:213-256, see `Dollar.claimStakedVaultYield`. -/
def claimStakedVaultYield (c : Cfg) : M Int := do
  let s ← get
  let y ← lift (claimable s c.stakedAddr)
  if 0 < y then do
    sendModuleToAccount c c.yieldAddr c.flexibleAddr y
    let s ← get
    let p ← lift (Checked.yieldPrincipal y s.index)
    addPrincipal c.stakedAddr (-p)
    addPrincipal c.flexibleAddr p
    pure y
  else pure 0

/-- keeper/state.go:138-147. -/
def incrementExtYield (provider : Int) (id : String) (amount : Int) : M Unit := do
  let s ← get
  let x ← lift (add (s.extYieldOf provider id) amount)
  modify fun s => { s with extYield := s.extYield.set (provider, id) x }

/-- keeper/state.go:242-248. -/
def incrementRetry (provider : Int) (id : String) (amount : Int) : M Unit := do
  let s ← get
  let x ← lift (add (s.retryOf provider id) amount)
  modify fun s => { s with retry := s.retry.set (provider, id) x }

/-- ibc-go `Transfer` (keeper/msg_server.go:287-298), see `Dollar.ibcTransfer`. -/
def ibcTransfer (c : Cfg) (env : Env) (channel : String) (sender : Addr) (receiver : String)
    (amount : Int) : M Unit :=
  match env.ibc channel with
  | .failEarly => fail .transferFailed
  | .failLate => do
    sendCoins c sender (c.escrowAddr channel) amount
    ics4Check channel
    fail .transferFailed
  | .success => do
    sendCoins c sender (c.escrowAddr channel) amount
    ics4Check channel
    bookPacket ⟨channel, sender, receiver, amount⟩

/-- keeper/msg_server.go:299-306, see `Dollar.retryOnError`. -/
def retryOnError (e : Option Err) (provider : Int) (id : String) (amount : Int) : M Unit :=
  match e with
  | none => pure ()
  | some _ => incrementRetry provider id amount

/-- keeper/msg_server.go:271-316, see `Dollar.ibcOne`. -/
def ibcOne (c : Cfg) (env : Env) (recips : KV String String) (channel : String) : M Unit := do
  let y ← claimModuleYield c (c.escrowAddr channel)
  let r ← takeRetry IBC channel
  let a ← lift (add y r)
  if 0 < a then do
    let e ← attempt (ibcTransfer c env channel (c.escrowAddr channel) ((recips.get? channel).getD "") a)
    retryOnError e IBC channel a
    incrementExtYield IBC channel y
  else pure ()

/-- keeper/msg_server.go:271-318. -/
def ibcLoop (c : Cfg) (env : Env) (recips : KV String String) : List String → M Unit
  | [] => pure ()
  | id :: t => do
    ibcOne c env recips id
    ibcLoop c env recips t

/-- keeper/msg_server.go:258-319, see `Dollar.claimExternalIBC`. -/
def claimExternalIBC (c : Cfg) (env : Env) : M Unit := do
  let s ← get
  ibcLoop c env (recipientsBy s IBC) (sortedIds env s IBC)

/-- warp `RemoteTransferCollateral` (keeper/msg_server.go:396-407), see `Dollar.warpTransfer`. -/
def warpTransfer (c : Cfg) (env : Env) (r : Route) (domain : Nat) (recipient : Bytes)
    (amount : Int) : M Unit :=
  match env.warp r.tokenId with
  | .failEarly => fail .transferFailed
  | .failLate => do
    sendCoins c c.warpAddr c.warpAddr amount
    let x ← lift (add r.collateral amount)
    modify fun s => { s with collateral := s.collateral.set r.tokenId x }
    fail .transferFailed
  | .success => do
    sendCoins c c.warpAddr c.warpAddr amount
    let x ← lift (add r.collateral amount)
    modify fun s => { s with collateral := s.collateral.set r.tokenId x }
    modify fun s => { s with warpOut := s.warpOut ++ [⟨r.tokenId, domain, recipient, amount⟩] }

/-- keeper/msg_server.go:369-425, see `Dollar.hypOne`. -/
def hypOne (c : Cfg) (env : Env) (recips : KV String String) (total y : Int) (r : Route) :
    M Unit := do
  let portion ← lift (Checked.yieldPortion r.collateral total y)
  let retry ← takeRetry HYPERLANE r.identifier
  let a ← lift (add portion retry)
  if 0 < a then do
    let domain ← hypRouter env r.tokenId
    match c.hexAddr ((recips.get? r.identifier).getD "") with
    | none => fail .badHexRecipient
    | some recipient => do
      let e ← attempt (warpTransfer c env r domain recipient a)
      retryOnError e HYPERLANE r.identifier a
      incrementExtYield HYPERLANE r.identifier portion
  else pure ()

/-- keeper/msg_server.go:369-427. -/
def hypLoop (c : Cfg) (env : Env) (recips : KV String String) (total y : Int) :
    List Route → M Unit
  | [] => pure ()
  | r :: t => do
    hypOne c env recips total y r
    hypLoop c env recips total y t

/-- keeper/msg_server.go:321-428, see `Dollar.claimExternalHyperlane`.  Simplification: the collateral (line 361) is
summed after the pass over the routes, not during it. -/
def claimExternalHyperlane (c : Cfg) (env : Env) : M Unit := do
  let s ← get
  let y ← claimModuleYield c c.warpAddr
  if 0 < y then do
    let routes ← hypRoutes c (sortedIds env s HYPERLANE)
    let total ← lift (sumFrom 0 (routes.map Route.collateral))
    if 0 < total then
      hypLoop c env (recipientsBy s HYPERLANE) total y routes
    else pure ()
  else pure ()

/-! ### Index updates -/

/-- keeper/msg_server.go:432-466, see `Dollar.handleSeasonOne`. -/
def handleSeasonOne (c : Cfg) (index : Int) : M Unit := do
  let flexibleYield ← claimModuleYield c c.flexibleAddr
  let stakedYield ← claimStakedVaultYield c
  let x ← lift (add stakedYield flexibleYield)
  modify fun s =>
    { s with rewards := s.rewards.set index ⟨index, s.totalFlexible, x⟩ }

/-- keeper/msg_server.go:470-493, see `Dollar.handleSeasonTwo`. -/
def handleSeasonTwo (c : Cfg) : M Unit := do
  let y ← claimModuleYield c c.stakedAddr
  if 0 < y then do
    let s ← get
    sendCoins c c.stakedAddr s.collector y
  else pure ()

/-- keeper/msg_server.go:163-173, see `Dollar.handleVaults`. -/
def handleVaults (c : Cfg) (index : Int) : M Unit := do
  let s ← get
  if s.seasonOneEnded then handleSeasonTwo c else handleSeasonOne c index

/-- keeper/state.go:123-135. -/
def incrementTotalYield (amount : Int) : M Unit := do
  let s ← get
  let x ← lift (add s.totalYield amount)
  modify fun s => { s with totalYield := x }

/-- keeper/msg_server.go:145-161, see `Dollar.accrueYield`. -/
def accrueYield (c : Cfg) (diff : Int) : M Unit := do
  newCoin diff
  if 0 < diff then do
    mintCoins c diff
    sendCoins c c.moduleAddr c.yieldAddr diff
    incrementTotalYield diff
  else pure ()

/-- keeper/msg_server.go:123-193, see `Dollar.updateIndex`. -/
def updateIndex (c : Cfg) (env : Env) (index : Int) : M Unit := do
  let s ← get
  if index ≤ s.index then fail .decreasingIndex
  else do
    modify fun s => { s with index := index }
    let expected ← lift (Checked.present s.totalPrincipal index)
    let diff ← lift (sub expected s.supply)
    accrueYield c diff
    handleVaults c index
    claimExternalIBC c env
    claimExternalHyperlane c env
    emit (.indexUpdated s.index index s.totalPrincipal diff)

/-- keeper/msg_server.go:105-121, see `Dollar.mint`. -/
def mint (c : Cfg) (env : Env) (recipient : Addr) (amount index : Int) : M Unit := do
  ignore (updateIndex c env index)
  newCoin amount
  mintCoins c amount
  sendModuleToAccount c c.moduleAddr recipient amount

/-- keeper/msg_server.go:91-103, see `Dollar.burn`. -/
def burn (c : Cfg) (sender : Addr) (amount : Int) : M Unit := do
  newCoin amount
  sendCoins c sender c.moduleAddr amount
  burnCoins c amount

/-! ### The portal -/

/-- keeper/keeper.go:416-448, see `Dollar.handleToken`. -/
def handleToken (c : Cfg) (env : Env) (payload : Sl) (ev : EventsPayload) : M Unit := do
  let p ← parse (decodeToken payload)
  if c.chain ≠ p.chain then fail .wrongChain
  else if c.rawToken ≠ p.token then fail .wrongToken
  else do
    mint c env p.recipient p.amount p.index
    emit (.mTokenReceived ev.sourceChain p.token ev.sender p.recipient p.amount p.index ev.messageId)
    emit (.transferRedeemed ev.messageId)

/-- keeper/keeper.go:449-455, see `Dollar.handleIndex`. -/
def handleIndex (c : Cfg) (env : Env) (payload : Sl) : M Unit := do
  let p ← parse (decodeIndex payload)
  if c.chain ≠ p.2 then fail .wrongChain
  else updateIndex c env p.1

/-- keeper/keeper.go:407-459, see `Dollar.handlePayload`. -/
def handlePayload (c : Cfg) (env : Env) (payload : Sl) (ev : EventsPayload) : M Unit := do
  let t ← parse (payloadType payload)
  match t with
  | .unknown => pure ()
  | .token => handleToken c env payload ev
  | .index => handleIndex c env payload

/-- keeper/keeper.go:364-403, see `Dollar.deliverPayload`. -/
def deliverPayload (c : Cfg) (env : Env) (peer : Peer) (v : VAA) : M Unit := do
  let t ← parse (parseTransceiver v.payload)
  if peer.manager ≠ t.sourceManager.bytes then fail .invalidPeer
  else if c.paddedManager ≠ t.recipientManager.bytes then fail .invalidMessage
  else do
    let m ← parse (parseManager t.managerPayload)
    handlePayload c env m.payload
      ⟨v.emitterChain, m.sender.bytes, managerDigest c v.emitterChain m.bytes⟩

/-- keeper/keeper.go:340-404, see `Dollar.deliverInner`. -/
def deliverInner (c : Cfg) (env : Env) (bz : Bytes) : M Unit := do
  let s ← get
  if s.portalPaused then fail .portalPaused
  else do
    let v ← verifyVAA env bz
    match s.peers.get? v.emitterChain with
    | none => fail .invalidPeer
    | some peer =>
      if peer.transceiver ≠ v.emitterAddress then fail .invalidPeer
      else deliverPayload c env peer v

/-- keeper/msg_server_portal.go:48-56, see `Dollar.deliver`. -/
def deliver (c : Cfg) (env : Env) (bz : Bytes) : M Unit := do
  deliverInner c env bz
  emit (.delivered bz)

/-- keeper/msg_server_portal.go:92-174, see `Dollar.transferSend`. -/
def transferSend (c : Cfg) (env : Env) (signer : String) (amount : Int) (chain : Nat)
    (token recipient : Bytes) (peer : Peer) : M Unit := do
  let s ← get
  match c.decode signer with
  | none => fail .badAddress
  | some sender => do
    let rawSender ← parse (leftPad32 sender)
    let nonce ← incrementNonce
    let (mm, raw) := transferMessage c peer s.index amount.toNat chain token recipient rawSender nonce
    burn c sender amount
    postMessage env raw nonce
    emit (.usdnTokenSent chain token signer recipient amount s.index (managerDigest c c.chain mm))
    if 2 ^ 63 ≤ amount then crash
    else do
      emit (.transferSent recipient amount chain nonce)
      emit (.transferSentDigest (managerDigest c c.chain mm))

/-- keeper/msg_server_portal.go:58-174, see `Dollar.transfer`. -/
def transfer (c : Cfg) (env : Env) (signer : String) (amount? : Option Int) (chain : Nat)
    (token recipient : Bytes) : M Unit := do
  let s ← get
  if s.portalPaused then fail .portalPaused
  else match s.peers.get? chain with
  | none => fail .invalidPeer
  | some peer =>
    if s.paths.has (chain, token) = false then fail .invalidBridgePath
    else if recipient.length ≠ 32 then fail .invalidRecipient
    else match amount? with
      | none => crash
      | some amount =>
        if amount < 0 ∨ 2 ^ 64 ≤ amount then crash
        else transferSend c env signer amount chain token recipient peer

/-! ### IBC and warp -/

/-- ibc_middleware.go:64-87, see `Dollar.addAmountToRetry`. -/
def addAmountToRetry (c : Cfg) (port channel : String) (decoded : Option PacketData) : M Unit :=
  match decoded with
  | none => pure ()
  | some d =>
    if d.denom = c.denom then
      if d.sender = c.encode (c.escrow port channel) then
        match intOfString d.amount with
        | none => pure ()
        | some a => incrementRetry IBC channel a
      else pure ()
    else pure ()

/-- ibc-go `refundPacketToken` (below ibc_middleware.go:117-134), see `Dollar.refund`. -/
def refund (c : Cfg) (p : IbcOut) : M Unit := do
  sendCoins c (c.escrowAddr p.channel) p.sender p.amount
  modify fun s => { s with
    inflight := s.inflight.erase p,
    vouchers := s.vouchers.set p.channel (s.vouchersOf p.channel - p.amount) }

/-- ibc_middleware.go:117-134, see `Dollar.packetFailed`, `Dollar.onAck` and `Dollar.onTimeout`: both add to the retry
amount and pass the packet on. -/
def packetFailed (c : Cfg) (p : IbcOut) : M Unit := do
  let s ← get
  if p ∉ s.inflight then fail .transferFailed
  else if s.vouchersOf p.channel < p.amount then fail .transferFailed
  else do
    addAmountToRetry c "transfer" p.channel (some (packetData c p))
    refund c p

/-- ibc_middleware.go:113-115, see `Dollar.ibcReceive`. -/
def ibcReceive (c : Cfg) (channel : String) (receiver : Addr) (amount : Int) : M Unit := do
  let s ← get
  if amount ≤ 0 ∨ s.vouchersOf channel < amount then fail .transferFailed
  else if c.blocked receiver then fail .blockedRecipient
  else do
    sendCoins c (c.escrowAddr channel) receiver amount
    modify fun s => { s with vouchers := s.vouchers.set channel (s.vouchersOf channel - amount) }

/-- warp (as keeper/msg_server.go:396-407 for a user's own transfer), see `Dollar.warpSend`. -/
def warpSend (c : Cfg) (tokenId domain : Nat) (sender : Addr) (recipient : Bytes) (amount : Int) :
    M Unit := do
  let s ← get
  match s.collateral.get? tokenId with
  | none => fail .unknownToken
  | some col =>
    if amount ≤ 0 then fail .invalidAmount
    else do
      sendCoins c sender c.warpAddr amount
      let x ← lift (add col amount)
      modify fun s => { s with
        collateral := s.collateral.set tokenId x,
        warpOut := s.warpOut ++ [⟨tokenId, domain, recipient, amount⟩] }

/-- warp (the way back of keeper/msg_server.go:396-407), see `Dollar.warpReceive`. -/
def warpReceive (c : Cfg) (tokenId : Nat) (receiver : Addr) (amount : Int) : M Unit := do
  let s ← get
  match s.collateral.get? tokenId with
  | none => fail .unknownToken
  | some col =>
    if amount ≤ 0 ∨ col < amount then fail .invalidAmount
    else do
      let x ← lift (sub col amount)
      modify fun s => { s with collateral := s.collateral.set tokenId x }
      sendModuleToAccount c c.warpAddr receiver amount

/-! ### x/bank messages and the handlers together -/

/-- x/bank `MsgSend` around keeper/keeper.go:188-292, see `Dollar.bankSend`. -/
def bankSend (c : Cfg) (sender recipient : Addr) (amount : Int) : M Unit :=
  if amount ≤ 0 then fail .invalidAmount
  else if c.blocked recipient then fail .blockedRecipient
  else sendCoins c sender recipient amount

/-- x/bank `MsgMultiSend` around keeper/keeper.go:188-292, see `Dollar.bankMultiSend`. -/
def bankMultiSend (c : Cfg) (sender : Addr) (outs : List (Addr × Int)) : M Unit :=
  if outs = [] then fail .invalidAmount
  else if outs.any (fun o => decide (o.2 ≤ 0)) then fail .invalidAmount
  else if outs.any (fun o => c.blocked o.1) then fail .blockedRecipient
  else multiSend c sender outs

/-- A transfer by another module around keeper/keeper.go:188-292, see `Dollar.keeperSend`. -/
def keeperSend (c : Cfg) (sender recipient : Addr) (amount : Int) : M Unit :=
  if amount < 0 then fail .invalidAmount
  else sendCoins c sender recipient amount

/-- ICS-20 `MsgTransfer` through isc4_wrapper.go:65-80, see `Dollar.userIbcTransfer`. -/
def userIbcTransfer (c : Cfg) (env : Env) (sender : Addr) (channel receiver : String)
    (amount : Int) : M Unit :=
  if amount ≤ 0 then fail .invalidAmount
  else ibcTransfer c env channel sender receiver amount

/-! ### The vaults, with the checked transfers and claims -/

/-- keeper/msg_server_vaults.go:48-154, see `Checked.lock`. -/
def lock (c : Cfg) (env : Env) (signer : String) (vault : Int) (amount? : Option Int) : M Unit := do
  let s ← get
  if vault = FLEXIBLE ∧ s.seasonOneEnded = true then fail .actionPaused
  else if s.vPaused = PAUSE_ALL ∨ s.vPaused = PAUSE_LOCK then fail .actionPaused
  else match c.decode signer with
  | none => fail .badAddress
  | some addr =>
    match amount? with
    | none => crash
    | some amount =>
      if amount < c.minLock then fail .invalidAmount
      else if validVault vault = false then fail .invalidVaultType
      else if s.positions.has (addr, vault, env.time) = true then fail .samePositionTime
      else if s.balance addr < amount then fail .invalidAmount
      else do
        newCoin amount
        sendCoins c addr (posAddr c signer vault env.time) amount
        lockBook signer addr vault amount env.time

/-- keeper/msg_server_vaults.go:363-436, see `Checked.claimRewards`. -/
def claimRewards (c : Cfg) (pos : PosEntry) (amount : Int) : M Int := do
  let s ← get
  if s.principalOf c.flexibleAddr ≤ 0 then pure 0
  else do
    let p ← lift (principalDown amount pos.index)
    let r ← lift (walk pos.index s.index p s.rewards 0)
    modify fun s => { s with rewards := r.1 }
    newCoin r.2
    sendCoins c c.flexibleAddr pos.address r.2
    emit (.rewardClaimed pos.address r.2)
    pure r.2

/-- keeper/msg_server_vaults.go:246-279, see `Checked.unlockFlexible`. -/
def unlockFlexible (c : Cfg) (signer : String) (vault : Int) (pos : PosEntry)
    (amount principal : Int) : M Int := do
  let s ← get
  let x ← lift (sub s.totalFlexible principal)
  modify fun s => { s with totalFlexible := x }
  let rewards ← claimRewards c pos amount
  incrementDistributed rewards
  let y ← claimModuleYield c (posAddr c signer vault pos.time)
  if 0 < y then lift (add amount y) else pure amount

/-- keeper/msg_server_vaults.go:246-280, see `Checked.unlockPayout`. -/
def unlockPayout (c : Cfg) (signer : String) (vault : Int) (pos : PosEntry)
    (amount principal : Int) : M Int :=
  if vault = FLEXIBLE then unlockFlexible c signer vault pos amount principal else pure amount

/-- keeper/msg_server_vaults.go:237-321, see `Checked.unlockOne`. -/
def unlockOne (c : Cfg) (signer : String) (addr : Addr) (vault : Int) (pos : PosEntry)
    (remaining : Int) : M (Int × Int) := do
  let amount := amountToRemove pos remaining
  let principal ← lift (principalDown amount pos.index)
  let toSend ← unlockPayout c signer vault pos amount principal
  newCoin toSend
  sendCoins c (posAddr c signer pos.vault pos.time) addr toSend
  updatePosition pos amount principal
  emit (.positionUnlocked signer vault pos.index toSend principal)
  pure (amount, principal)

/-- keeper/msg_server_vaults.go:231-322, see `Checked.unlockLoop`. -/
def unlockLoop (c : Cfg) (signer : String) (addr : Addr) (vault : Int) :
    List PosEntry → Int → Int → M (Int × Int)
  | [], remaining, removed => pure (remaining, removed)
  | pos :: t, remaining, removed =>
    if remaining = 0 then pure (remaining, removed)
    else do
      let r ← unlockOne c signer addr vault pos remaining
      let removed ← lift (add removed r.2)
      let remaining ← lift (sub remaining r.1)
      unlockLoop c signer addr vault t remaining removed

/-- keeper/msg_server_vaults.go:167-339, see `Checked.unlockInner`. -/
def unlockInner (c : Cfg) (signer : String) (vault : Int) (amount? : Option Int) : M Unit :=
  match c.decode signer with
  | none => fail .badAddress
  | some addr =>
    match amount? with
    | none => fail .invalidAmount
    | some amount =>
      if amount ≤ 0 then fail .invalidAmount
      else if validVault vault = false then fail .invalidVaultType
      else do
        let s ← get
        let positions := positionsOf s addr vault
        let total ← lift (sumFrom 0 (positions.map PosEntry.amount))
        if total < amount then fail .invalidAmount
        else if amount < c.minUnlock ∧ total ≠ amount then fail .invalidAmount
        else do
          let r ← unlockLoop c signer addr vault positions amount 0
          if r.1 ≠ 0 then fail .invalidAmount
          else do
            countGoneUser addr vault
            decVaultPrincipal vault r.2

/-- keeper/msg_server_vaults.go:156-165, see `Checked.unlock`. -/
def unlock (c : Cfg) (signer : String) (vault : Int) (amount? : Option Int) : M Unit := do
  let s ← get
  if vault = FLEXIBLE ∧ s.seasonOneEnded = true then fail .actionPaused
  else if s.vPaused = PAUSE_ALL ∨ s.vPaused = PAUSE_UNLOCK then fail .actionPaused
  else unlockInner c signer vault amount?

/-! ### Every message -/

/-- The router of module.go:154-165, see `Dollar.exec`.  The messages that fall through (the settings, a successful
acknowledgement and a new warp token) compute no sum. -/
def exec (c : Cfg) (env : Env) : Msg → M Unit
  | .claimYield signer => claimYield c signer
  | .deliver vaa => deliver c env vaa
  | .transfer signer a chain token recipient => transfer c env signer a chain token recipient
  | .lock signer v a => lock c env signer v a
  | .unlock signer v a => unlock c signer v a
  | .bankSend s r a => bankSend c s r a
  | .bankMultiSend s outs => bankMultiSend c s outs
  | .keeperSend s r a => keeperSend c s r a
  | .ibcTransfer s ch r a => userIbcTransfer c env s ch r a
  | .ibcReceive ch r a => ibcReceive c ch r a
  | .ibcTimeout p => packetFailed c p
  | .ibcAckError p => packetFailed c p
  | .warpTransfer s t d r a => warpSend c t d s r a
  | .warpReceive t r a => warpReceive c t r a
  | m => Dollar.exec c env m

/-- One transaction (module.go:154-165, see `Dollar.step`). -/
def step (c : Cfg) (env : Env) (m : Msg) (s : State) : State := runTx (exec c env m) s

/-- The state after a history (module.go:154-165, see `Dollar.run`). -/
def run (c : Cfg) : History → State → State
  | [], s => s
  | (env, m) :: t, s => run c t (step c env m s)

end Dollar.Checked.Full
