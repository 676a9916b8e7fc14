import Verif.Model.Answers
import Verif.Model.Proto2
import Verif.Model.RestJson
import Verif.Model.Store

/-
The gRPC interface of the queries: requests and answers as bytes.  types/query.pb.go, types/{v2,portal,vaults}/query.pb.go.
-/
namespace Dollar.Grpc
open Proto Rest

/-- The full names of the methods (types/query.pb.go:609-681, types/v2/query.pb.go:708-780, types/portal/query.pb.go:618-690,
types/vaults/query.pb.go:642-714), as the generated clients call them. -/
def method : Query → String
  | .index => "/noble.dollar.v1.Query/Index"
  | .paused => "/noble.dollar.v1.Query/Paused"
  | .principal _ => "/noble.dollar.v1.Query/Principal"
  | .yield _ => "/noble.dollar.v1.Query/Yield"
  | .stats => "/noble.dollar.v1.Query/Stats"
  | .statsV2 => "/noble.dollar.v2.Query/Stats"
  | .yieldRecipients => "/noble.dollar.v2.Query/YieldRecipients"
  | .yieldRecipient _ _ => "/noble.dollar.v2.Query/YieldRecipient"
  | .retryAmounts => "/noble.dollar.v2.Query/RetryAmounts"
  | .retryAmount _ _ => "/noble.dollar.v2.Query/RetryAmount"
  | .owner => "/noble.dollar.portal.v1.Query/Owner"
  | .portalPaused => "/noble.dollar.portal.v1.Query/Paused"
  | .peers => "/noble.dollar.portal.v1.Query/Peers"
  | .destinationTokens _ => "/noble.dollar.portal.v1.Query/DestinationTokens"
  | .nonce => "/noble.dollar.portal.v1.Query/Nonce"
  | .positions _ => "/noble.dollar.vaults.v1.Query/PositionsByProvider"
  | .pendingRewards => "/noble.dollar.vaults.v1.Query/PendingRewards"
  | .pendingRewardsBy _ => "/noble.dollar.vaults.v1.Query/PendingRewardsByProvider"
  | .vaultsPaused => "/noble.dollar.vaults.v1.Query/Paused"
  | .vaultsStats => "/noble.dollar.vaults.v1.Query/Stats"

/-- The request that a generated client writes: types/query.pb.go:846-858 (an account), types/v2/query.pb.go:1033-1050, 1163-1180 (a route),
types/portal/query.pb.go:920-931 (a chain); the other requests have no fields. -/
def encRequest : Query → Bytes
  | .principal a | .yield a | .positions a | .pendingRewardsBy a => encText (ascii a)
  | .yieldRecipient p i | .retryAmount p i => encRoute p (ascii i)
  | .destinationTokens n => encWord n
  | _ => []

/-- A request without fields: unknown fields are skipped (types/query.pb.go:1159-1208). -/
def decEmpty (T : IntText) (q : Query) (b : Bytes) : PRes Query := do
  let _ ← unmarshal T [] b
  .ok q
/-- A request that names an account (types/query.pb.go:1413-1494). -/
def decAccount (T : IntText) (q : String → Query) (b : Bytes) : PRes Query := do
  let a ← decText1 T b
  .ok (q (str a))
/-- A request that names a route (types/v2/query.pb.go:2049-2149, 2459-2559). -/
def decPath (T : IntText) (q : Int → String → Query) (b : Bytes) : PRes Query := do
  let r ← decRoute T b
  .ok (q r.1 (str r.2))

/-- The handlers of the services (types/query.pb.go:599-715 and the `_Query_…_Handler`s of the other packages): the request is read as the
type of the method; `none` is a method that no service has. -/
def decRequest (T : IntText) (m : String) (b : Bytes) : Option (PRes Query) :=
  if m = "/noble.dollar.v1.Query/Index" then some (decEmpty T .index b)
  else if m = "/noble.dollar.v1.Query/Paused" then some (decEmpty T .paused b)
  else if m = "/noble.dollar.v1.Query/Principal" then some (decAccount T .principal b)
  else if m = "/noble.dollar.v1.Query/Yield" then some (decAccount T .yield b)
  else if m = "/noble.dollar.v1.Query/Stats" then some (decEmpty T .stats b)
  else if m = "/noble.dollar.v2.Query/Stats" then some (decEmpty T .statsV2 b)
  else if m = "/noble.dollar.v2.Query/YieldRecipients" then some (decEmpty T .yieldRecipients b)
  else if m = "/noble.dollar.v2.Query/YieldRecipient" then some (decPath T .yieldRecipient b)
  else if m = "/noble.dollar.v2.Query/RetryAmounts" then some (decEmpty T .retryAmounts b)
  else if m = "/noble.dollar.v2.Query/RetryAmount" then some (decPath T .retryAmount b)
  else if m = "/noble.dollar.portal.v1.Query/Owner" then some (decEmpty T .owner b)
  else if m = "/noble.dollar.portal.v1.Query/Paused" then some (decEmpty T .portalPaused b)
  else if m = "/noble.dollar.portal.v1.Query/Peers" then some (decEmpty T .peers b)
  else if m = "/noble.dollar.portal.v1.Query/DestinationTokens" then some (do let n ← decWord T b; .ok (.destinationTokens n))
  else if m = "/noble.dollar.portal.v1.Query/Nonce" then some (decEmpty T .nonce b)
  else if m = "/noble.dollar.vaults.v1.Query/PositionsByProvider" then some (decAccount T .positions b)
  else if m = "/noble.dollar.vaults.v1.Query/PendingRewards" then some (decEmpty T .pendingRewards b)
  else if m = "/noble.dollar.vaults.v1.Query/PendingRewardsByProvider" then some (decAccount T .pendingRewardsBy b)
  else if m = "/noble.dollar.vaults.v1.Query/Paused" then some (decEmpty T .vaultsPaused b)
  else if m = "/noble.dollar.vaults.v1.Query/Stats" then some (decEmpty T .vaultsStats b)
  else none

/-- The bytes of an answer: the `Marshal`s of Model/Answers, Model/Proto2 and Model/Wire; the answers `Stats` have the fields of the stored
statistics (types/query.pb.go:995-1026, types/vaults/query.pb.go:1041-1088).  Maps are written in the order of the list; Go may choose another (C106).
`nanos` are the nanoseconds of the times. -/
def encAnswer (nanos : PosEntry → Nat) : Answer → Bytes
  | .index d => encAmount (some d)
  | .flag b => encFlag b
  | .amount x => encAmount (some x)
  | .stats x => encStats x.1 x.2.1 x.2.2
  | .statsV2 x ext => encStatsV2 x.1 x.2.1 x.2.2 (ext.map fun e => (ascii e.1, ascii e.2.1, e.2.2))
  | .texts l => encStringMap (l.map fun e => (ascii e.1, ascii e.2))
  | .text s => encText (ascii s)
  | .peers l => encPeers l
  | .tokens l => encTokens l
  | .nonce n => encWord n
  | .positions l => encPositions (l.map fun p => (p, (nanos p : Int)))
  | .pending t l => encPending t l
  | .pausing x => encEnum x
  | .vaultsStats v => encVStats v

/-- What a generated client reads from the bytes of an answer (the `Unmarshal`s of Model/Answers, Model/Proto2 and Model/Wire;
types/query.pb.go:1795-1931, types/vaults/query.pb.go:1904-2093 for `Stats`). -/
def decAnswer (T : IntText) (b : Bytes) : Query → PRes Answer
  | .index => do let x ← decAmount T b; .ok (.index x)
  | .paused | .portalPaused => do let x ← decFlag T b; .ok (.flag x)
  | .principal _ | .yield _ | .retryAmount _ _ | .pendingRewards => do let x ← decAmount T b; .ok (.amount x)
  | .stats => do let x ← decStats T b; .ok (.stats x)
  | .statsV2 => do
    let x ← decStatsV2 T b
    .ok (.statsV2 (x.1, x.2.1, x.2.2.1) (x.2.2.2.map fun e => (str e.1, str e.2.1, e.2.2)))
  | .yieldRecipients | .retryAmounts => do let x ← decStringMap T b; .ok (.texts (x.map fun e => (str e.1, str e.2)))
  | .yieldRecipient _ _ | .owner => do let x ← decText1 T b; .ok (.text (str x))
  | .peers => do let x ← decPeers T b; .ok (.peers x)
  | .destinationTokens _ => do let x ← decTokens T b; .ok (.tokens x)
  | .nonce => do let x ← decWord T b; .ok (.nonce x)
  | .positions _ => do let x ← decPositions T b; .ok (.positions x)
  | .pendingRewardsBy _ => do let x ← decPending T b; .ok (.pending x.1 x.2)
  | .vaultsPaused => do let x ← decEnum T b; .ok (.pausing x)
  | .vaultsStats => do let x ← decVStats T b; .ok (.vaultsStats x)

/-- One call: the request is decoded, the query server answers (keeper/query_server.go:42-107, query_server_v2.go:51-136,
query_server_portal.go:42-104, query_server_vaults.go:44-175), the answer is encoded.  `none` is a call that fails. -/
def call (T : IntText) (c : Cfg) (env : Env) (client : String → Client) (nanos : PosEntry → Nat) (s : State) (m : String) (b : Bytes) :
    Option Bytes :=
  match decRequest T m b with
  | some (.ok q) => (answer c env client s q).map (encAnswer nanos)
  | _ => none

end Dollar.Grpc
