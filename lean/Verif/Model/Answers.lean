import Verif.Model.Wire

/-
types/query.pb.go, types/{v2,vaults,portal}/query.pb.go: requests and answers without slices, messages
or maps.
-/
namespace Dollar.Proto

/-- A message with one field, of number 1 (types/query.pb.go:757-772, 1209-1292; the others are generated alike). -/
def encOne (k : Kind) (v : FVal) : Bytes := marshal [(1, k)] (Fields.ofList [v])

/-- Reading such a message (types/query.pb.go:1209-1292). -/
def decOne (T : IntText) (k : Kind) (b : Bytes) : PRes FVal := do
  let m ← unmarshal T [(1, k)] b
  .ok (m 1)

/-- The answers `Principal`, `Yield` (types/query.pb.go:876-891, 939-954), `RetryAmount` (types/v2/query.pb.go:1198-1213),
`PendingRewards` (types/vaults/query.pb.go:908-923) and `Index`, whose `LegacyDec` is written as the decimal text of the number times
10^18 (types/query.pb.go:757-772).  `none` is the nil integer.  Simplification: a `LegacyDec` may have 315 bits, here 256. -/
def encAmount (x : Option Int) : Bytes := encOne .int (.int x)
@[inherit_doc encAmount]
def decAmount (T : IntText) (b : Bytes) : PRes Int := do
  let v ← decOne T .int b
  .ok v.getInt

/-- The answers `Paused` (types/query.pb.go:813-829; portal alike). -/
def encFlag (x : Bool) : Bytes := encOne .bool (.ofBool x)
@[inherit_doc encFlag]
def decFlag (T : IntText) (b : Bytes) : PRes Bool := do
  let v ← decOne T .bool b
  .ok v.getBool

/-- The answer `Paused` of the vaults (types/vaults/query.pb.go:857-868), an enumeration. -/
def encEnum (x : Int) : Bytes := encOne .i32 (.num x)
@[inherit_doc encEnum]
def decEnum (T : IntText) (b : Bytes) : PRes Int := do
  let v ← decOne T .i32 b
  .ok v.getNum

/-- The answers `Owner` (types/portal/query.pb.go:766-778) and `YieldRecipient` (types/v2/query.pb.go:1068-1080), and the
requests that name an account (types/query.pb.go:846-858). -/
def encText (x : Bytes) : Bytes := encOne .bytes (.bs x)
@[inherit_doc encText]
def decText1 (T : IntText) (b : Bytes) : PRes Bytes := do
  let v ← decOne T .bytes b
  .ok v.getBytes

/-- The answer `Nonce` and the request `DestinationTokens` (types/portal/query.pb.go:905-931, 988-1014, 1097-1106, 1133-1142): a `uint32`
is written as the same varint as a `uint64`. -/
def encWord (x : Nat) : Bytes := encOne .u64 (.num x)
/-- Reading them (types/portal/query.pb.go:1618-1687, 1819-1888): up to 64 bits are read, 32 are kept (lines 1661, 1862). -/
def decWord (T : IntText) (b : Bytes) : PRes Nat := do
  let v ← decOne T .u64 b
  .ok (v.getNum.toNat % 2 ^ 32)

/-- The chain that a request `DestinationTokens` asks for (keeper/query_server_portal.go:78): 16 bits are kept. -/
def decChain (T : IntText) (b : Bytes) : PRes Nat := do
  let n ← decWord T b
  .ok (n % 2 ^ 16)

/-- The requests `YieldRecipient` and `RetryAmount` (types/v2/query.pb.go:1033-1050, 1163-1180). -/
def routeSchema : Schema := [(1, .i32), (2, .bytes)]
@[inherit_doc routeSchema]
def encRoute (provider : Int) (identifier : Bytes) : Bytes :=
  marshal routeSchema (Fields.ofList [.num provider, .bs identifier])
@[inherit_doc routeSchema]
def decRoute (T : IntText) (b : Bytes) : PRes (Int × Bytes) := do
  let m ← unmarshal T routeSchema b
  .ok ((m 1).getNum, (m 2).getBytes)

end Dollar.Proto
