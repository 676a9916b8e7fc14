import Verif.Model.PacketJson
import Verif.Model.GenesisJson

/-
The bytes of an acknowledgement: ibc-go's `channeltypes.Acknowledgement` (a oneof of `result` and `error`), read by
`transfertypes.ModuleCdc.UnmarshalJSON` in the middleware (ibc_middleware.go:118-119) and once more in the transfer
application it wraps (ibc_middleware.go:120, 127).  The text is a sequence of Unicode characters.
-/
namespace Dollar
open MM

/-- `channeltypes.Acknowledgement`.  `empty` is the message without a response.
Simplification: `result` without bytes is written `null` when the slice is nil; here it is the empty slice. -/
inductive Ack where
  | result (bytes : Bytes)
  | error (text : String)
  | empty
  deriving DecidableEq, Repr

namespace Ack

/-- ibc-go `Acknowledgement.Success` (ibc_middleware.go:123). -/
def success : Ack → Bool
  | .result _ => true
  | _ => false

/-- `ModuleCdc.MarshalJSON`: bytes as base64. -/
def text : Ack → List Char
  | .result b => Json.object [("result", String.ofList (Json.b64 b))]
  | .error e => Json.object [("error", e)]
  | .empty => Json.object []

/-- The last member of a name (encoding/json into a map: a later member replaces an earlier one). -/
def last (name : String) (l : List (List Char × List Char)) : Option (List Char) :=
  (l.reverse.find? fun e => String.ofList e.1 = name).map Prod.snd

/-- jsonpb on the members of an acknowledgement.  An unknown name is an error.  The members of the oneof are assigned
in the order in which Go iterates over a map (`StructProperties.OneofTypes`), and the one assigned last stays;
`errorLast` says which one that is when both are there. -/
def assign (errorLast : Bool) (l : List (List Char × List Char)) : Option Ack :=
  if l.all (fun e => String.ofList e.1 = "result" || String.ofList e.1 = "error") then
    match last "result" l, last "error" l with
    | none, none => some .empty
    | none, some e => some (.error (String.ofList e))
    | some r, none => (Json.unb64 r).map .result
    | some r, some e => (Json.unb64 r).map fun b => if errorLast then .error (String.ofList e) else .result b
  else none

/-- `ModuleCdc.UnmarshalJSON` into an empty acknowledgement (ibc_middleware.go:118-119). -/
def read (errorLast : Bool) (l : List Char) : Option Ack := (Json.readObject l).bind (assign errorLast)

end Ack

/-- What the wrapped transfer application looks at.  In ibc-go v8.7.0 (go.mod) both are checked. -/
structure TransferApp where
  /-- the acknowledgement must be spelled the way it is written (`bytes.Equal` with the marshalled acknowledgement) -/
  checksBytes : Bool
  /-- an acknowledgement without response is an error -/
  refusesEmpty : Bool

/-- ibc-go v8.7.0. -/
def TransferApp.pinned : TransferApp := ⟨true, true⟩

/-- ibc-go `transfer.IBCModule.OnAcknowledgementPacket`, reduced to packets of USDN (dependency). -/
def transferAck (app : TransferApp) (c : Cfg) (p : IbcOut) (errorLast : Bool) (ack : List Char) : M Unit :=
  match Ack.read errorLast ack with
  | none => fail .transferFailed
  | some a =>
    if app.checksBytes = true ∧ a.text ≠ ack then fail .transferFailed
    else match a with
      | .result _ => ackSuccess p
      | .error _ => refund c p
      | .empty => if app.refusesEmpty then fail .transferFailed else ackSuccess p

/-- ibc_middleware.go:117-128, `OnAcknowledgementPacket` on bytes.  `order` is the order of the decoding at line 119. -/
def onAckText (c : Cfg) (port channel : String) (data : List Char) (order : Bool) (ack : List Char)
    (next : M Unit) : M Unit :=
  onAck c port channel ((Packet.read data).map Packet.toPacketData) ((Ack.read order ack).map Ack.success) next

/-- IBC core + middleware stack: the acknowledgement of a packet arrives as bytes.  IBC core has proved that the
counterparty wrote them; it does not look at what they say.  `order` and `order'` are the orders of the two decodings. -/
def packetAckText (app : TransferApp) (c : Cfg) (p : IbcOut) (memo : String) (order order' : Bool)
    (ack : List Char) : M Unit := do
  let s ← get
  if p ∉ s.inflight then fail .transferFailed
  else
    onAckText c "transfer" p.channel (Packet.mk (packetData c p) memo).text order ack
      (transferAck app c p order' ack)

end Dollar
