import Verif.Model.Dollar
import Verif.Model.Ntt

/-
keeper/keeper.go (Deliver, HandlePayload), keeper/msg_server_portal.go, keeper/state_portal.go.
-/
namespace Dollar
open MM

/-- Run a byte parser inside the effect monad. -/
def parse {α : Type} (r : PRes α) : M α :=
  match r with
  | .ok a => pure a
  | .err => fail .malformed
  | .panic => crash

/-- `wormhole.ParseAndVerifyVAA` (keeper/keeper.go:345): verification, replay check against the
archive of digests, archiving. -/
def verifyVAA (env : Env) (bz : Bytes) : M VAA :=
  match env.verify bz with
  | none => fail .invalidVAA
  | some v => do
    let s ← get
    if v.digest ∈ s.archive then fail .alreadyDelivered
    else do
      modify fun s => { s with archive := s.archive ++ [v.digest] }
      pure v

/-- `portal.EventsPayload`, keeper/keeper.go:393-397. -/
structure EventsPayload where
  sourceChain : Nat
  sender : Bytes
  messageId : Bytes
  deriving DecidableEq, Repr

/-- keeper/keeper.go:416-448: a token payload.
Simplification: `BytesToString` on the recipient never fails (it fails only on an empty address;
the recipient is the tail of a 32-byte field). -/
def handleToken (c : Cfg) (env : Env) (payload : Sl) (ev : EventsPayload) : M Unit := do
  let p ← parse (decodeToken payload)
  if c.chain ≠ p.chain then fail .wrongChain
  else if c.rawToken ≠ p.token then fail .wrongToken
  else do
    mint c env p.recipient p.amount p.index
    emit (.mTokenReceived ev.sourceChain p.token ev.sender p.recipient p.amount p.index ev.messageId)
    emit (.transferRedeemed ev.messageId)

/-- keeper/keeper.go:449-455: an index payload. -/
def handleIndex (c : Cfg) (env : Env) (payload : Sl) : M Unit := do
  let p ← parse (decodeIndex payload)
  if c.chain ≠ p.2 then fail .wrongChain
  else updateIndex c env p.1

/-- keeper/keeper.go:407-459, `HandlePayload`. -/
def handlePayload (c : Cfg) (env : Env) (payload : Sl) (ev : EventsPayload) : M Unit := do
  let t ← parse (payloadType payload)
  match t with
  | .unknown => pure ()
  | .token => handleToken c env payload ev
  | .index => handleIndex c env payload

/-- keeper/keeper.go:364-403: everything after the peer's transceiver was checked. -/
def deliverPayload (c : Cfg) (env : Env) (peer : Peer) (v : VAA) : M Unit := do
  let t ← parse (parseTransceiver v.payload)
  if peer.manager ≠ t.sourceManager.bytes then fail .invalidPeer
  else if c.paddedManager ≠ t.recipientManager.bytes then fail .invalidMessage
  else do
    let m ← parse (parseManager t.managerPayload)
    handlePayload c env m.payload
      ⟨v.emitterChain, m.sender.bytes, managerDigest c v.emitterChain m.bytes⟩

/-- keeper/keeper.go:340-404, `Keeper.Deliver`. -/
def deliverInner (c : Cfg) (env : Env) (bz : Bytes) : M Unit := do
  let s ← get
  if s.portalPaused then fail .portalPaused
  else do
    let v ← verifyVAA env bz
    match s.peers.get? v.emitterChain with
    | none => fail .invalidPeer
    | some peer =>
      if peer.transceiver ≠ v.emitterAddress then fail .invalidPeer
      else deliverPayload c env peer v

/-- keeper/msg_server_portal.go:48-56, `Deliver`. -/
def deliver (c : Cfg) (env : Env) (bz : Bytes) : M Unit := do
  deliverInner c env bz
  emit (.delivered bz)

/-- keeper/state_portal.go:72-84: return the nonce and store its successor (uint32). -/
def incrementNonce : M Nat := do
  let s ← get
  modify fun s => { s with nonce := (s.nonce + 1) % 2 ^ 32 }
  pure s.nonce

/-- keeper/msg_server_portal.go:96-97: right-align in 32 bytes (`copy` into a slice that starts
at a negative index panics). -/
def leftPad32 (b : Bytes) : PRes Bytes :=
  if b.length ≤ 32 then .ok (List.replicate (32 - b.length) 0 ++ b) else .panic

/-- keeper/msg_server_portal.go:82-126: the message posted for a transfer. -/
def transferMessage (c : Cfg) (peer : Peer) (index : Int) (amount chain : Nat)
    (token recipient rawSender : Bytes) (nonce : Nat) : ManagerMessage Bytes × Bytes :=
  let mm : ManagerMessage Bytes :=
    ⟨List.replicate 28 0 ++ toBE 4 nonce, rawSender,
      encodeNtt ⟨amount, c.rawToken, recipient, chain, encodeAdditional index token⟩⟩
  (mm, encodeTransceiver ⟨c.paddedManager, peer.manager, encodeManager mm, []⟩)

/-- `wormhole.PostMessage`, keeper/msg_server_portal.go:133-141. -/
def postMessage (env : Env) (raw : Bytes) (nonce : Nat) : M Unit :=
  if env.postOk then modify fun s => { s with posted := s.posted ++ [(raw, nonce)] }
  else fail .postFailed

/-- keeper/msg_server_portal.go:92-174: everything after the checks. -/
def transferSend (c : Cfg) (env : Env) (signer : String) (amount : Int) (chain : Nat)
    (token recipient : Bytes) (peer : Peer) : M Unit := do
  let s ← get
  match c.decode signer with
  | none => fail .badAddress
  | some sender => do
    let rawSender ← parse (leftPad32 sender)
    let nonce ← incrementNonce
    let (mm, raw) := transferMessage c peer s.index amount.toNat chain token recipient rawSender nonce
    burn c sender amount
    postMessage env raw nonce
    emit (.usdnTokenSent chain token signer recipient amount s.index (managerDigest c c.chain mm))
    -- `msg.Amount.Int64()` in the event attributes (line 161) panics above 2^63-1
    if 2 ^ 63 ≤ amount then crash
    else do
      emit (.transferSent recipient amount chain nonce)
      emit (.transferSentDigest (managerDigest c c.chain mm))

/-- keeper/msg_server_portal.go:58-174, `Transfer`.  `amount? = none` is a nil `math.Int`;
`Amount.Uint64()` (line 85) panics on nil and outside the uint64 range. -/
def transfer (c : Cfg) (env : Env) (signer : String) (amount? : Option Int) (chain : Nat)
    (token recipient : Bytes) : M Unit := do
  let s ← get
  if s.portalPaused then fail .portalPaused
  else match s.peers.get? chain with
  | none => fail .invalidPeer
  | some peer =>
    if s.paths.has (chain, token) = false then fail .invalidBridgePath
    else if recipient.length ≠ 32 then fail .invalidRecipient
    else match amount? with
      | none => crash
      | some amount =>
        if amount < 0 ∨ 2 ^ 64 ≤ amount then crash
        else transferSend c env signer amount chain token recipient peer

/-- keeper/msg_server_portal.go:296-307, `EnsureOwner`. -/
def ensureOwner (signer : String) : M Unit := do
  let s ← get
  if s.owner = "" then fail .noOwner
  else if signer ≠ s.owner then fail .notOwner
  else pure ()

/-- keeper/msg_server_portal.go:176-190, `SetPausedState`. -/
def portalSetPaused (signer : String) (paused : Bool) : M Unit := do
  ensureOwner signer
  modify fun s => { s with portalPaused := paused }
  emit (.portalPausedSet paused)

/-- 32 zero bytes (keeper/msg_server_portal.go:205, 252). -/
def zero32 : Bytes := List.replicate 32 0

/-- keeper/msg_server_portal.go:192-237, `SetPeer`. -/
def setPeer (c : Cfg) (signer : String) (chain : Nat) (transceiver manager : Bytes) : M Unit := do
  ensureOwner signer
  let s ← get
  if chain = 0 then fail .invalidPeer
  else if chain = c.chain then fail .invalidPeer
  else if transceiver.length ≠ 32 then fail .invalidPeer
  else if transceiver = zero32 then fail .invalidPeer
  else if manager.length ≠ 32 then fail .invalidPeer
  else if manager = zero32 then fail .invalidPeer
  else do
    modify fun s => { s with peers := s.peers.set chain ⟨transceiver, manager⟩ }
    emit (.peerUpdated chain (s.peers.get? chain) ⟨transceiver, manager⟩)

/-- keeper/msg_server_portal.go:239-271, `SetBridgingPath`. -/
def setBridgingPath (c : Cfg) (signer : String) (chain : Nat) (token : Bytes)
    (supported : Bool) : M Unit := do
  ensureOwner signer
  if chain = c.chain then fail .invalidBridgePath
  else if token.length ≠ 32 then fail .invalidBridgePath
  else if token = zero32 then fail .invalidBridgePath
  else do
    modify fun s => { s with paths := s.paths.set (chain, token) supported }
    emit (.bridgingPathSet chain token supported)

/-- keeper/msg_server_portal.go:273-293, `TransferOwnership`. -/
def transferOwnership (c : Cfg) (signer newOwner : String) : M Unit := do
  ensureOwner signer
  match c.decode newOwner with
  | none => fail .badAddress
  | some _ =>
    if newOwner = signer then fail .sameOwner
    else do
      modify fun s => { s with owner := newOwner }
      emit (.ownershipTransferred signer newOwner)

end Dollar
