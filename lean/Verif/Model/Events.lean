import Verif.Model.GenesisJson

/-
How events leave the chain.  `EventManager.Emit` (the SDK's `EmitTypedEvent`) turns an event message into a type and
attributes, whose values are the JSON of the fields; `EmitKV` takes the attributes as given.  The fields are those of
types/events.pb.go, types/v2/events.pb.go, types/vaults/events.pb.go and types/portal/events.pb.go.
The attribute `msg_index` that baseapp adds to every event of a transaction is left out.
-/
namespace Dollar.Json

/-! ### UTF-8 (package unicode/utf8) -/

/-- `utf8.AppendRune`. -/
def encodeRune (c : Char) : Bytes :=
  let n := c.toNat
  if n < 0x80 then [UInt8.ofNat n]
  else if n < 0x800 then [UInt8.ofNat (0xc0 + n / 64), UInt8.ofNat (0x80 + n % 64)]
  else if n < 0x10000 then
    [UInt8.ofNat (0xe0 + n / 4096), UInt8.ofNat (0x80 + n / 64 % 64), UInt8.ofNat (0x80 + n % 64)]
  else
    [UInt8.ofNat (0xf0 + n / 262144), UInt8.ofNat (0x80 + n / 4096 % 64), UInt8.ofNat (0x80 + n / 64 % 64),
      UInt8.ofNat (0x80 + n % 64)]

/-- The bytes of a text. -/
def utf8 (l : List Char) : Bytes := l.flatMap encodeRune

/-- The six bits of a continuation byte. -/
def cont (b : UInt8) : Option Nat := if 0x80 ≤ b.toNat ∧ b.toNat < 0xc0 then some (b.toNat - 0x80) else none

/-- A character between two bounds that is not a surrogate. -/
def charIn (lo hi n : Nat) : Option Char :=
  if lo ≤ n ∧ n < hi ∧ ¬ (0xd800 ≤ n ∧ n < 0xe000) then some (Char.ofNat n) else none

/-- `utf8.DecodeRune`: the first character of a text and its width; bytes that are not one are replaced one at a time by
U+FFFD.  Simplification: the bounds are put on the character, where the code puts them on its first two bytes. -/
def decodeRune (b : UInt8) (t : Bytes) : Char × Bytes :=
  let n := b.toNat
  let bad := (Char.ofNat 0xfffd, t)
  if n < 0x80 then (Char.ofNat n, t)
  else if n < 0xc0 then bad
  else if n < 0xe0 then
    match t with
    | x :: r =>
      match (cont x).bind fun x => charIn 0x80 0x800 ((n - 0xc0) * 64 + x) with
      | some c => (c, r)
      | none => bad
    | _ => bad
  else if n < 0xf0 then
    match t with
    | x :: y :: r =>
      match (cont x).bind fun x => (cont y).bind fun y => charIn 0x800 0x10000 ((n - 0xe0) * 4096 + x * 64 + y) with
      | some c => (c, r)
      | none => bad
    | _ => bad
  else
    match t with
    | x :: y :: z :: r =>
      match (cont x).bind fun x => (cont y).bind fun y => (cont z).bind fun z =>
        charIn 0x10000 0x110000 ((n - 0xf0) * 262144 + x * 4096 + y * 64 + z) with
      | some c => (c, r)
      | none => bad
    | _ => bad

/-- The characters of a Go string, as encoding/json writes them; every character takes at least one byte, so the length is
enough fuel. -/
def runesN : Nat → Bytes → List Char
  | 0, _ => []
  | _ + 1, [] => []
  | n + 1, b :: t =>
    let x := decodeRune b t
    x.1 :: runesN n x.2

def runes (b : Bytes) : List Char := runesN b.length b

/-! ### Typed events -/

/-- types/v2/dollar.pb.go:36-39, `Provider_name`. -/
def providerNames : List (Int × String) := [(0, "IBC"), (1, "HYPERLANE")]

/-- `proto.EnumName`: the name, or the number if it has none (keeper/msg_server_vaults.go:149, 310, 359). -/
def enumText (names : List (Int × String)) (x : Int) : String :=
  match names.lookup x with
  | some n => n
  | none => toString x

/-- A field of type `bytes` that may be absent, which is written as `null` (keeper/msg_server_portal.go:230-236, where the
previous peer may not exist). -/
def J.ofOld (b : Bytes) : J := if b = [] then .null else .ofBytes b

/-- The message of a typed event: its full name and its fields with their original names.
types/events.pb.go:31-162, types/v2/events.pb.go:26-34, types/vaults/events.pb.go:30-208,
types/portal/events.pb.go:30-523. -/
def typedFields (c : Cfg) : Event → Option (String × List (String × J))
  | .yieldClaimed a x => some ("noble.dollar.v1.YieldClaimed", [("account", .ofString a), ("amount", .ofBig x)])
  | .indexUpdated o n p y => some ("noble.dollar.v1.IndexUpdated",
      [("old_index", .ofBig o), ("new_index", .ofBig n), ("total_principal", .ofBig p), ("yield_accrued", .ofBig y)])
  | .pausedSet b => some (if b then "noble.dollar.v1.Paused" else "noble.dollar.v1.Unpaused", [])
  | .mTokenReceived ch t f r x i m => some ("noble.dollar.portal.v1.MTokenReceived",
      [("source_chain_id", .ofNum ch), ("destination_token", .ofBytes t), ("sender", .ofBytes f),
       ("recipient", .ofString (c.encode r)), ("amount", .ofBig x), ("index", .ofBig i), ("message_id", .ofBytes m)])
  | .transferRedeemed d => some ("noble.dollar.portal.v1.TransferRedeemed", [("digest", .ofBytes d)])
  | .delivered v => some ("noble.dollar.portal.v1.Delivered", [("vaa", .ofBytes v)])
  | .usdnTokenSent ch t f r x i m => some ("noble.dollar.portal.v1.USDNTokenSent",
      [("source_token", .str (runes c.rawToken)), ("destination_chain_id", .ofNum ch), ("destination_token", .ofBytes t),
       ("sender", .ofString f), ("recipient", .ofBytes r), ("amount", .ofBig x), ("index", .ofBig i),
       ("message_id", .ofBytes m)])
  | .portalPausedSet b => some (if b then "noble.dollar.portal.v1.Paused" else "noble.dollar.portal.v1.Unpaused", [])
  | .peerUpdated ch o n => some ("noble.dollar.portal.v1.PeerUpdated",
      [("chain", .ofNum ch), ("old_transceiver", .ofOld ((o.map Peer.transceiver).getD [])),
       ("new_transceiver", .ofBytes n.transceiver), ("old_manager", .ofOld ((o.map Peer.manager).getD [])),
       ("new_manager", .ofBytes n.manager)])
  | .bridgingPathSet ch t b => some ("noble.dollar.portal.v1.BridgingPathSet",
      [("destination_chain_id", .ofNum ch), ("destination_token", .ofBytes t), ("supported", .bool b)])
  | .ownershipTransferred o n => some ("noble.dollar.portal.v1.OwnershipTransferred",
      [("previous_owner", .ofString o), ("new_owner", .ofString n)])
  | .yieldRecipientSet p i r => some ("noble.dollar.v2.YieldRecipientSet",
      [("provider", .ofEnum providerNames p), ("identifier", .ofString i), ("recipient", .ofString r)])
  | .positionLocked a v i x p => some ("noble.dollar.vaults.v1.PositionLocked",
      [("account", .ofString a), ("vault_type", .ofString (enumText vaultNames v)), ("index", .ofBig i),
       ("amount", .ofBig x), ("principal", .ofBig p)])
  | .positionUnlocked a v i x p => some ("noble.dollar.vaults.v1.PositionUnlocked",
      [("account", .ofString a), ("vault_type", .ofString (enumText vaultNames v)), ("index", .ofBig i),
       ("amount", .ofBig x), ("principal", .ofBig p)])
  | .rewardClaimed a x => some ("noble.dollar.vaults.v1.RewardClaimed",
      [("account", .ofString (c.encode a)), ("amount", .ofBig x)])
  | .vaultsPausedSet p => some ("noble.dollar.vaults.v1.PausedStateUpdated",
      [("paused", .ofString (enumText pausedNames p))])
  | .transferSent .. | .transferSentDigest _ => none

/-- An ABCI event. -/
structure Abci where
  kind : String
  attrs : List (String × Bytes)
  deriving DecidableEq

/-- The attributes of an event that is emitted as keys and values.  keeper/msg_server_portal.go:156-173. -/
def plainFields : Event → List (String × Bytes)
  | .transferSent r x ch n =>
    [("recipient", r), ("refund_address", []), ("amount", utf8 (toString x).toList), ("fee", []),
     ("recipient_chain", utf8 (toString ch).toList), ("msg_sequence", utf8 (toString n).toList)]
  | .transferSentDigest d => [("digest", d)]
  | _ => []

/-- The SDK's `TypedEventToEvent` (one attribute for every field, in the order of the keys) and `EmitKV`. -/
def abci (c : Cfg) (e : Event) : Abci :=
  match typedFields c e with
  | some (kind, fs) => ⟨kind, goMap (fs.map fun f => (f.1, utf8 f.2.text))⟩
  | none => ⟨"transfer_sent", plainFields e⟩

/-- What a client of the JSON API of a node is shown of an attribute: a JSON string. -/
def shown (a : Abci) : String × List (String × List Char) := (a.kind, a.attrs.map fun f => (f.1, quote (runes f.2)))

/-! ### Reading typed events back (the SDK's `ParseTypedEvent`) -/

/-- A field of an event. -/
def attr (a : Abci) (name : String) (read : J → Option α) : Option α :=
  (a.attrs.lookup name).bind fun v => (J.read (runes v)).bind read

/-- The number of a name. -/
def enumOf (names : List (Int × String)) (j : J) : Option Int :=
  j.toStr.bind fun s => (names.find? fun e => e.2 = s).map Prod.fst

/-- An account. -/
def accountOf (c : Cfg) (j : J) : Option Addr := j.toStr.bind c.decode

/-- 64-bit, 32-bit and unbounded numbers. -/
def int64 : J → Option Int := J.toNum (-2 ^ 63) (2 ^ 63)
def uint32 (j : J) : Option Nat := (J.toNum 0 (2 ^ 32) j).map Int.toNat

/-- The previous peer; a peer always has a transceiver (keeper/msg_server_portal.go:199-221). -/
def oldPeer (t m : Bytes) : Option Peer := if t = [] ∧ m = [] then none else some ⟨t, m⟩

/-- The event that a typed ABCI event stands for. -/
def readTyped (c : Cfg) (a : Abci) : Option Event :=
  if a.kind = "noble.dollar.v1.YieldClaimed" then do
    pure (.yieldClaimed (← attr a "account" J.toStr) (← attr a "amount" J.toBig))
  else if a.kind = "noble.dollar.v1.IndexUpdated" then do
    pure (.indexUpdated (← attr a "old_index" int64) (← attr a "new_index" int64) (← attr a "total_principal" J.toBig)
      (← attr a "yield_accrued" J.toBig))
  else if a.kind = "noble.dollar.v1.Paused" then some (.pausedSet true)
  else if a.kind = "noble.dollar.v1.Unpaused" then some (.pausedSet false)
  else if a.kind = "noble.dollar.portal.v1.MTokenReceived" then do
    pure (.mTokenReceived (← attr a "source_chain_id" uint32) (← attr a "destination_token" J.toBytes)
      (← attr a "sender" J.toBytes) (← attr a "recipient" (accountOf c)) (← attr a "amount" J.toBig)
      (← attr a "index" int64) (← attr a "message_id" J.toBytes))
  else if a.kind = "noble.dollar.portal.v1.TransferRedeemed" then do pure (.transferRedeemed (← attr a "digest" J.toBytes))
  else if a.kind = "noble.dollar.portal.v1.Delivered" then do pure (.delivered (← attr a "vaa" J.toBytes))
  else if a.kind = "noble.dollar.portal.v1.USDNTokenSent" then do
    pure (.usdnTokenSent (← attr a "destination_chain_id" J.toUint16) (← attr a "destination_token" J.toBytes)
      (← attr a "sender" J.toStr) (← attr a "recipient" J.toBytes) (← attr a "amount" J.toBig)
      (← attr a "index" int64) (← attr a "message_id" J.toBytes))
  else if a.kind = "noble.dollar.portal.v1.Paused" then some (.portalPausedSet true)
  else if a.kind = "noble.dollar.portal.v1.Unpaused" then some (.portalPausedSet false)
  else if a.kind = "noble.dollar.portal.v1.PeerUpdated" then do
    pure (.peerUpdated (← attr a "chain" J.toUint16)
      (oldPeer (← attr a "old_transceiver" J.toBytes) (← attr a "old_manager" J.toBytes))
      ⟨← attr a "new_transceiver" J.toBytes, ← attr a "new_manager" J.toBytes⟩)
  else if a.kind = "noble.dollar.portal.v1.BridgingPathSet" then do
    pure (.bridgingPathSet (← attr a "destination_chain_id" J.toUint16) (← attr a "destination_token" J.toBytes)
      (← attr a "supported" J.toBool))
  else if a.kind = "noble.dollar.portal.v1.OwnershipTransferred" then do
    pure (.ownershipTransferred (← attr a "previous_owner" J.toStr) (← attr a "new_owner" J.toStr))
  else if a.kind = "noble.dollar.v2.YieldRecipientSet" then do
    pure (.yieldRecipientSet (← attr a "provider" (J.toEnum providerNames)) (← attr a "identifier" J.toStr)
      (← attr a "recipient" J.toStr))
  else if a.kind = "noble.dollar.vaults.v1.PositionLocked" then do
    pure (.positionLocked (← attr a "account" J.toStr) (← attr a "vault_type" (enumOf vaultNames)) (← attr a "index" int64)
      (← attr a "amount" J.toBig) (← attr a "principal" J.toBig))
  else if a.kind = "noble.dollar.vaults.v1.PositionUnlocked" then do
    pure (.positionUnlocked (← attr a "account" J.toStr) (← attr a "vault_type" (enumOf vaultNames)) (← attr a "index" int64)
      (← attr a "amount" J.toBig) (← attr a "principal" J.toBig))
  else if a.kind = "noble.dollar.vaults.v1.RewardClaimed" then do
    pure (.rewardClaimed (← attr a "account" (accountOf c)) (← attr a "amount" J.toBig))
  else if a.kind = "noble.dollar.vaults.v1.PausedStateUpdated" then do
    pure (.vaultsPausedSet (← attr a "paused" (enumOf pausedNames)))
  else none

end Dollar.Json
