import Verif.Model.Dollar
import Verif.Model.GoInt

/-
isc4_wrapper.go and ibc_middleware.go.
-/
namespace Dollar
open MM

/-- `transfertypes.FungibleTokenPacketData` (the memo is not used). -/
structure PacketData where
  denom : String
  amount : String
  sender : String
  receiver : String
  deriving DecidableEq, Repr

/-- `math.NewIntFromString` (used at ibc_middleware.go:74, genesis.go:57).
Simplification: the refusal of numbers of more than 256 bits is left out (C82 bounds all amounts far below). -/
def intOfString (s : String) : Option Int := GoInt.parse (s.toList.map Char.toNat)

/-- isc4_wrapper.go:65-80, `SendPacket`: `decoded` is the result of decoding the packet as ICS-20
data, `next` the wrapped `SendPacket`. -/
def sendPacket (c : Cfg) (channel : String) (decoded : Option PacketData) (next : M Unit) : M Unit :=
  match decoded with
  | none => next
  | some d => do
    let s ← get
    if d.denom = c.denom ∧ hasYieldRecipient s IBC channel = false then fail .ibcDisabled
    else next

/-- ibc_middleware.go:64-87, `AddAmountToRetry`. -/
def addAmountToRetry (c : Cfg) (port channel : String) (decoded : Option PacketData) : M Unit :=
  match decoded with
  | none => pure ()
  | some d =>
    if d.denom = c.denom then
      if d.sender = c.encode (c.escrow port channel) then
        match intOfString d.amount with
        | none => pure ()
        | some a => incrementRetry IBC channel a
      else pure ()
    else pure ()

/-- ibc_middleware.go:117-128, `OnAcknowledgementPacket`.  `ack` is the decoded acknowledgement:
`none` undecodable, `some b` decoded with `Success() = b`. -/
def onAck (c : Cfg) (port channel : String) (decoded : Option PacketData) (ack : Option Bool)
    (next : M Unit) : M Unit :=
  match ack with
  | none => next
  | some true => next
  | some false => do
    addAmountToRetry c port channel decoded
    next

/-- ibc_middleware.go:130-134, `OnTimeoutPacket`. -/
def onTimeout (c : Cfg) (port channel : String) (decoded : Option PacketData) (next : M Unit) :
    M Unit := do
  addAmountToRetry c port channel decoded
  next

/-! ### ICS-20 transfer application (dependency), reduced to USDN packets on port "transfer" -/

/-- The packet data ibc-go builds for a USDN transfer. -/
def packetData (c : Cfg) (p : IbcOut) : PacketData :=
  ⟨c.denom, toString p.amount, c.encode p.sender, p.receiver⟩

/-- ibc-go `refundPacketToken`: return escrowed coins to the sender. The packet's vouchers no
longer exist on the counterparty. -/
def refund (c : Cfg) (p : IbcOut) : M Unit := do
  sendCoins c (c.escrowAddr p.channel) p.sender p.amount
  modify fun s => { s with
    inflight := s.inflight.erase p,
    vouchers := s.vouchers.set p.channel (s.vouchersOf p.channel - p.amount) }

/-- ibc-go: a successful acknowledgement only removes the packet commitment. -/
def ackSuccess (p : IbcOut) : M Unit := modify fun s => { s with inflight := s.inflight.erase p }

/-- IBC core + middleware stack: a packet without commitment is ignored; the counterparty cannot
have spent the vouchers of a packet it did not receive. -/
def packetFailed (c : Cfg) (p : IbcOut) (timeout : Bool) : M Unit := do
  let s ← get
  if p ∉ s.inflight then fail .transferFailed
  else if s.vouchersOf p.channel < p.amount then fail .transferFailed
  else if timeout then onTimeout c "transfer" p.channel (some (packetData c p)) (refund c p)
  else onAck c "transfer" p.channel (some (packetData c p)) (some false) (refund c p)

/-- IBC core + middleware stack: acknowledgement of a delivered packet. -/
def packetAcked (c : Cfg) (p : IbcOut) : M Unit := do
  let s ← get
  if p ∉ s.inflight then fail .transferFailed
  else onAck c "transfer" p.channel (some (packetData c p)) (some true) (ackSuccess p)

/-- ibc-go `OnRecvPacket` of returning USDN vouchers (ibc_middleware.go:113-115 passes it on):
unescrow to the receiver.  The counterparty can only return vouchers it was sent. -/
def ibcReceive (c : Cfg) (channel : String) (receiver : Addr) (amount : Int) : M Unit := do
  let s ← get
  if amount ≤ 0 ∨ s.vouchersOf channel < amount then fail .transferFailed
  else if c.blocked receiver then fail .blockedRecipient
  else do
    sendCoins c (c.escrowAddr channel) receiver amount
    modify fun s => { s with vouchers := s.vouchers.set channel (s.vouchersOf channel - amount) }

/-! ### Hyperlane warp application (dependency), reduced to USDN collateral tokens -/

/-- A user sends USDN over a warp route: coins to the warp account, collateral up. -/
def warpSend (c : Cfg) (tokenId domain : Nat) (sender : Addr) (recipient : Bytes) (amount : Int) :
    M Unit := do
  let s ← get
  match s.collateral.get? tokenId with
  | none => fail .unknownToken
  | some col =>
    if amount ≤ 0 then fail .invalidAmount
    else do
      sendCoins c sender c.warpAddr amount
      modify fun s => { s with
        collateral := s.collateral.set tokenId (col + amount),
        warpOut := s.warpOut ++ [⟨tokenId, domain, recipient, amount⟩] }

/-- USDN returns over a warp route: collateral down, coins from the warp account. -/
def warpReceive (c : Cfg) (tokenId : Nat) (receiver : Addr) (amount : Int) : M Unit := do
  let s ← get
  match s.collateral.get? tokenId with
  | none => fail .unknownToken
  | some col =>
    if amount ≤ 0 ∨ col < amount then fail .invalidAmount
    else do
      modify fun s => { s with collateral := s.collateral.set tokenId (col - amount) }
      sendModuleToAccount c c.warpAddr receiver amount

/-- A new USDN collateral token is created. -/
def warpCreate (tokenId : Nat) : M Unit := modify fun s =>
  if s.collateral.has tokenId then s else { s with collateral := s.collateral.set tokenId 0 }

end Dollar
