import Verif.Model.Proto
import Verif.Model.System

/-
The protobuf schemas of the stored values and of the messages, and the conversion between the generated
structures and those of the model.  Go strings are byte strings; a string of the model stands for the
bytes its characters are the codes of (`ascii` of Model/Store.lean).
-/
namespace Dollar.Proto

/-! ### Stored values -/

/-- `vaults.Reward` (types/vaults/vaults.pb.go:436-466). -/
def rewardSchema : Schema := [(1, .i64), (2, .int), (3, .int)]
/-- `vaults.Position` (types/vaults/vaults.pb.go:484-519). -/
def positionSchema : Schema := [(1, .int), (2, .i64), (3, .int), (4, .time)]
/-- `vaults.Stats` (types/vaults/vaults.pb.go:651-697). -/
def vstatsSchema : Schema := [(1, .int), (2, .u64), (3, .int), (4, .int), (5, .u64)]
/-- `v2.Stats` (types/v2/dollar.pb.go:148-179). -/
def statsSchema : Schema := [(1, .u64), (2, .int), (3, .int)]
/-- `types.Stats` (types/dollar.pb.go:119-151), the statistics as version 1 stored them. -/
def statsV1Schema : Schema := [(1, .u64), (2, .int), (3, .int)]
/-- `portal.Peer` (types/portal/portal.pb.go:177-196). -/
def peerSchema : Schema := [(1, .bytes), (2, .bytes)]

/-- The fields of a list of values, numbered from one. -/
def Fields.ofList (l : List FVal) : Fields := fun n =>
  match n with
  | 0 => .num 0
  | n + 1 => (l[n]?).getD (.num 0)

/-- Accessors of a decoded message; a nil `math.Int` reads as zero. -/
def FVal.getInt : FVal → Int
  | .int x => x.getD 0
  | _ => 0
/-- The `math.Int` of a field, nil kept apart. -/
def FVal.getInt? : FVal → Option Int
  | .int x => x
  | _ => none
/-- The bytes of a field. -/
def FVal.getBytes : FVal → Bytes
  | .bs b => b
  | _ => []
/-- The seconds of a time. -/
def FVal.getSec : FVal → Int
  | .time s _ => s
  | _ => 0

/-- Encoding of a reward (types/vaults/vaults.pb.go:436-466). -/
def encReward (r : Reward) : Bytes :=
  marshal rewardSchema (Fields.ofList [.num r.index, .int (some r.total), .int (some r.rewards)])
/-- Decoding of a reward (types/vaults/vaults.pb.go:809-944). -/
def decReward (T : IntText) (b : Bytes) : PRes Reward := do
  let m ← unmarshal T rewardSchema b
  .ok ⟨(m 1).getNum, (m 2).getInt, (m 3).getInt⟩

/-- Encoding of a position (types/vaults/vaults.pb.go:484-519).  The model keeps whole seconds; the nanoseconds
of the block time are a parameter. -/
def encPosition (p : Position) (nanos : Int) : Bytes :=
  marshal positionSchema (Fields.ofList
    [.int (some p.principal), .num p.index, .int (some p.amount), .time p.time nanos])
/-- Decoding of a position (types/vaults/vaults.pb.go:946-1113). -/
def decPosition (T : IntText) (b : Bytes) : PRes Position := do
  let m ← unmarshal T positionSchema b
  .ok ⟨(m 1).getInt, (m 2).getNum, (m 3).getInt, (m 4).getSec⟩

/-- Encoding of the vault statistics (types/vaults/vaults.pb.go:651-697). -/
def encVStats (v : VStats) : Bytes :=
  marshal vstatsSchema (Fields.ofList [.int (some v.flexPrincipal), .num v.flexUsers, .int (some v.flexDistributed),
    .int (some v.stakedPrincipal), .num v.stakedUsers])
/-- Decoding of the vault statistics (types/vaults/vaults.pb.go:1457-1646). -/
def decVStats (T : IntText) (b : Bytes) : PRes VStats := do
  let m ← unmarshal T vstatsSchema b
  .ok ⟨(m 1).getInt, (m 2).getNum.toNat, (m 3).getInt, (m 4).getInt, (m 5).getNum.toNat⟩

/-- Encoding of the statistics (types/v2/dollar.pb.go:148-179): holders, total principal, total yield. -/
def encStats (holders : Nat) (principal yield : Int) : Bytes :=
  marshal statsSchema (Fields.ofList [.num holders, .int (some principal), .int (some yield)])
/-- Decoding of the statistics (types/v2/dollar.pb.go:214-350). -/
def decStats (T : IntText) (b : Bytes) : PRes (Nat × Int × Int) := do
  let m ← unmarshal T statsSchema b
  .ok ((m 1).getNum.toNat, (m 2).getInt, (m 3).getInt)

/-- Encoding of the version 1 statistics (types/dollar.pb.go:119-151). -/
def encStatsV1 (holders : Nat) (principal yield : Int) : Bytes :=
  marshal statsV1Schema (Fields.ofList [.num holders, .int (some principal), .int (some yield)])
/-- Decoding of the version 1 statistics (types/dollar.pb.go:185-321). -/
def decStatsV1 (T : IntText) (b : Bytes) : PRes (Nat × Int × Int) := do
  let m ← unmarshal T statsV1Schema b
  .ok ((m 1).getNum.toNat, (m 2).getInt, (m 3).getInt)

/-- Encoding of a peer (types/portal/portal.pb.go:177-196). -/
def encPeer (p : Peer) : Bytes := marshal peerSchema (Fields.ofList [.bs p.transceiver, .bs p.manager])
/-- Decoding of a peer (types/portal/portal.pb.go:284-401). -/
def decPeer (T : IntText) (b : Bytes) : PRes Peer := do
  let m ← unmarshal T peerSchema b
  .ok ⟨(m 1).getBytes, (m 2).getBytes⟩

/-- `collections.BoolValue` (keeper/keeper.go:142, 151). -/
def encBool (v : Bool) : Bytes := if v then [1] else [0]
/-- `collections.BoolValue`, decoding: one byte, 0 or 1. -/
def decBool (b : Bytes) : Option Bool :=
  if b = [0] then some false else if b = [1] then some true else none
/-- `collections.Uint32Value` (keeper/keeper.go:154): four bytes, big endian. -/
def encUint32 (n : Nat) : Bytes := toBE 4 n
/-- `collections.Uint32Value`, decoding. -/
def decUint32 (b : Bytes) : Option Nat := if b.length = 4 then some (beNat b) else none
/-- `sdk.IntValue` (keeper/keeper.go:144-148, 162): decimal text. -/
def encInt (x : Int) : Bytes := decText x
/-- `sdk.IntValue`, decoding: empty text is the nil `math.Int`, more than 256 bits are an error. -/
def decInt (T : IntText) (b : Bytes) : PRes FVal := parsePayload T .int b (.int none)

/-! ### Messages -/

/-- The messages of the four services (module.go:154-165). -/
inductive MsgType
  | claimYield | setPaused | setYieldRecipient
  | deliver | transfer | portalSetPaused | setPeer | setBridgingPath | transferOwnership
  | lock | unlock | vaultsSetPaused
  deriving DecidableEq, Repr

/-- Field numbers and kinds (types/tx.pb.go:354-374, 407-431, types/v2/tx.pb.go:243-275,
types/portal/tx.pb.go:848-867, 908-948, 990-1012, 1053-1085, 1125-1160, 1200-1220,
types/vaults/tx.pb.go:481-509, 549-577, 617-634). -/
def MsgType.schema : MsgType → Schema
  | .claimYield => [(1, .bytes)]
  | .setPaused => [(1, .bytes), (2, .bool)]
  | .setYieldRecipient => [(1, .bytes), (2, .i32), (3, .bytes), (4, .bytes)]
  | .deliver => [(1, .bytes), (2, .bytes)]
  | .transfer => [(1, .bytes), (2, .int), (3, .u16), (4, .bytes), (5, .bytes)]
  | .portalSetPaused => [(1, .bytes), (2, .bool)]
  | .setPeer => [(1, .bytes), (2, .u16), (3, .bytes), (4, .bytes)]
  | .setBridgingPath => [(1, .bytes), (2, .u16), (3, .bytes), (4, .bool)]
  | .transferOwnership => [(1, .bytes), (2, .bytes)]
  | .lock => [(1, .bytes), (2, .i32), (3, .int)]
  | .unlock => [(1, .bytes), (2, .i32), (3, .int)]
  | .vaultsSetPaused => [(1, .bytes), (2, .i32)]

/-- The string whose characters have the given codes. -/
def str (b : Bytes) : String := String.ofList (b.map fun x => Char.ofNat x.toNat)

/-- A truth value as a field. -/
def FVal.ofBool (v : Bool) : FVal := .num (if v then 1 else 0)
/-- A field as a truth value. -/
def FVal.getBool (v : FVal) : Bool := decide (v.getNum ≠ 0)

/-- The message a handler is called with, from the decoded fields (the structures of types/tx.pb.go,
types/v2/tx.pb.go, types/portal/tx.pb.go and types/vaults/tx.pb.go). -/
def MsgType.toMsg (m : Fields) : MsgType → Msg
  | .claimYield => .claimYield (str (m 1).getBytes)
  | .setPaused => .setPaused (str (m 1).getBytes) (m 2).getBool
  | .setYieldRecipient => .setYieldRecipient (str (m 1).getBytes) (m 2).getNum (str (m 3).getBytes) (str (m 4).getBytes)
  | .deliver => .deliver (m 2).getBytes
  | .transfer => .transfer (str (m 1).getBytes) (m 2).getInt? (m 3).getNum.toNat (m 4).getBytes (m 5).getBytes
  | .portalSetPaused => .portalSetPaused (str (m 1).getBytes) (m 2).getBool
  | .setPeer => .setPeer (str (m 1).getBytes) (m 2).getNum.toNat (m 3).getBytes (m 4).getBytes
  | .setBridgingPath => .setBridgingPath (str (m 1).getBytes) (m 2).getNum.toNat (m 3).getBytes (m 4).getBool
  | .transferOwnership => .transferOwnership (str (m 1).getBytes) (str (m 2).getBytes)
  | .lock => .lock (str (m 1).getBytes) (m 2).getNum (m 3).getInt?
  | .unlock => .unlock (str (m 1).getBytes) (m 2).getNum (m 3).getInt?
  | .vaultsSetPaused => .vaultsSetPaused (str (m 1).getBytes) (m 2).getNum

/-- `Unmarshal` of a message (types/tx.pb.go:519, 651, types/v2/tx.pb.go:350, types/portal/tx.pb.go:1439, 1605,
1858, 2010, 2229, 2434, types/vaults/tx.pb.go:756, 941, 1126). -/
def decodeMsg (T : IntText) (t : MsgType) (b : Bytes) : PRes Msg := do
  let m ← unmarshal T t.schema b
  .ok (t.toMsg m)

/-- A message as a client writes it: its type and its fields (same files).  `MsgDeliver` also carries the address
of whoever relays it. -/
def wireFields (relayer : String) : Msg → Option (MsgType × List FVal)
  | .claimYield s => some (.claimYield, [.bs (ascii s)])
  | .setPaused s p => some (.setPaused, [.bs (ascii s), .ofBool p])
  | .setYieldRecipient s p i r => some (.setYieldRecipient, [.bs (ascii s), .num p, .bs (ascii i), .bs (ascii r)])
  | .deliver vaa => some (.deliver, [.bs (ascii relayer), .bs vaa])
  | .transfer s a chain token recipient =>
    some (.transfer, [.bs (ascii s), .int a, .num chain, .bs token, .bs recipient])
  | .portalSetPaused s p => some (.portalSetPaused, [.bs (ascii s), .ofBool p])
  | .setPeer s chain t m => some (.setPeer, [.bs (ascii s), .num chain, .bs t, .bs m])
  | .setBridgingPath s chain token b => some (.setBridgingPath, [.bs (ascii s), .num chain, .bs token, .ofBool b])
  | .transferOwnership s o => some (.transferOwnership, [.bs (ascii s), .bs (ascii o)])
  | .lock s v a => some (.lock, [.bs (ascii s), .num v, .int a])
  | .unlock s v a => some (.unlock, [.bs (ascii s), .num v, .int a])
  | .vaultsSetPaused s p => some (.vaultsSetPaused, [.bs (ascii s), .num p])
  | _ => none

/-- `Marshal` of the fields of a message. -/
def encodeFields (t : MsgType) (l : List FVal) : Bytes := marshal t.schema (Fields.ofList l)

end Dollar.Proto
