import Verif.Model.Rest
import Verif.Model.GenesisJson

/-
The answers of the REST interface: what the query servers return (keeper/query_server.go, query_server_v2.go,
query_server_portal.go, query_server_vaults.go), written as JSON by the gateway that module.go:91-106 registers.  The
gateway's marshaller is gogoproto's jsonpb with original field names and defaults written out, as for the genesis file
(Model/GenesisJson); the fields are those of types/query.pb.go, types/v2/query.pb.go, types/portal/query.pb.go and
types/vaults/query.pb.go.  Left out: pagination, HTTP headers, and the JSON of errors.
-/
namespace Dollar.Rest
open Json

/-- What the twenty queries answer.  types/query.pb.go, types/{v2,portal,vaults}/query.pb.go, `Query…Response`. -/
inductive Answer where
  /-- `Index`: the decimal times 10^18 -/
  | index (d : Int)
  /-- `Paused` of the dollar and of the portal -/
  | flag (b : Bool)
  /-- `Principal`, `Yield`, `RetryAmount` and `PendingRewards` -/
  | amount (x : Int)
  /-- `Stats`: holders, principal, yield -/
  | stats (x : Nat × Int × Int)
  /-- `Stats` of version 2: also chain and amount by route -/
  | statsV2 (x : Nat × Int × Int) (ext : List (String × String × Int))
  /-- `YieldRecipients` and `RetryAmounts` -/
  | texts (l : List (String × String))
  /-- `YieldRecipient` and `Owner` -/
  | text (s : String)
  | peers (l : List (Nat × Peer))
  | tokens (l : List Bytes)
  | nonce (n : Nat)
  | positions (l : List PosEntry)
  /-- `PendingRewardsByProvider`: the total, then amount and rewards of each position -/
  | pending (total : Int) (l : List (Int × Int))
  /-- `Paused` of the vaults -/
  | pausing (x : Int)
  | vaultsStats (v : VStats)
  deriving DecidableEq, Repr

/-- keeper/query_server.go:42-107, query_server_v2.go:51-136, query_server_portal.go:42-104 and
query_server_vaults.go:44-175; `none` is an error (an account that cannot be decoded, a route without a recipient) or the panic of
a query.  A nil principal is sent as 0 (types/query.pb.go:876-891). -/
def answer (c : Cfg) (env : Env) (client : String → Client) (s : State) : Query → Option Answer
  | .index => some (.index (queryIndex s))
  | .paused => some (.flag (queryPaused s))
  | .principal a => (queryPrincipal c s a).map fun x => .amount (x.getD 0)
  | .yield a => (queryYield c s a).map .amount
  | .stats => some (.stats (queryStats s))
  | .statsV2 => (queryStatsV2 c env client s).map fun x => .statsV2 (x.1, x.2.1, x.2.2.1) x.2.2.2
  | .yieldRecipients => some (.texts (queryYieldRecipients s))
  | .yieldRecipient p i => (queryYieldRecipient s p i).map .text
  | .retryAmounts => some (.texts (queryRetryAmounts s))
  | .retryAmount p i => some (.amount (queryRetryAmount s p i))
  | .owner => some (.text (queryOwner s))
  | .portalPaused => some (.flag (queryPortalPaused s))
  | .peers => some (.peers (queryPeers s))
  | .destinationTokens n => some (.tokens (queryDestinationTokens s n))
  | .nonce => some (.nonce (queryNonce s))
  | .positions a => (queryPositions c s a).map .positions
  | .pendingRewards => some (.amount (queryPendingRewards s))
  | .pendingRewardsBy a => (queryPendingByProvider c s a).map fun x => .pending x.1 x.2
  | .vaultsPaused => some (.pausing (queryVaultsPaused s))
  | .vaultsStats => some (.vaultsStats (queryVaultsStats s))

/-- cosmossdk.io/math `LegacyDec.String`, as `MarshalJSON` writes it (types/query.pb.go:757-772, `QueryIndexResponse.Index`). -/
def decText (d : Int) : List Char :=
  let t := Nat.toDigits 10 (d.natAbs / 10 ^ 18) ++ '.' :: digits 18 (d.natAbs % 10 ^ 18)
  if d < 0 then '-' :: t else t

/-- types/v2/query.pb.go, `QueryStatsResponse.TotalExternalYield`: a map from routes to chain and amount. -/
def ofExternal (l : List (String × String × Int)) : J :=
  .obj (l.map fun e => (e.1.toList, .ofFields [("chain_id", .ofString e.2.1), ("amount", .ofBig e.2.2)]))

/-- The name under which a query has its only value (the `json` tags of types/query.pb.go, types/v2/query.pb.go,
types/portal/query.pb.go and types/vaults/query.pb.go). -/
def fieldName : Query → String
  | .index => "index"
  | .paused | .portalPaused | .vaultsPaused => "paused"
  | .principal _ => "principal"
  | .yield _ => "claimable_amount"
  | .yieldRecipients => "yield_recipients"
  | .yieldRecipient _ _ => "yield_recipient"
  | .retryAmounts => "retry_amounts"
  | .retryAmount _ _ => "retry_amount"
  | .owner => "owner"
  | .peers => "peers"
  | .destinationTokens _ => "destination_tokens"
  | .nonce => "nonce"
  | .positions _ => "positions"
  | .pendingRewards | .pendingRewardsBy _ => "pending_rewards"
  | .stats | .statsV2 | .vaultsStats => ""

/-- jsonpb for an answer; `name` is the name of the only field.  Simplification: the members of a map are written in the
order of the answer (jsonpb sorts them by key; C120_read holds for every order). -/
def ofAnswer (nanos : PosEntry → Nat) (name : String) : Answer → J
  | .index d => .ofFields [(name, .str (decText d))]
  | .flag b => .ofFields [(name, .bool b)]
  | .amount x => .ofFields [(name, .ofBig x)]
  | .stats x => .ofStats x
  | .statsV2 x ext =>
    .ofFields [("total_holders", .ofBig x.1), ("total_principal", .ofBig x.2.1), ("total_yield_accrued", .ofBig x.2.2),
      ("total_external_yield", ofExternal ext)]
  | .texts l => .ofFields [(name, .ofStrings l)]
  | .text s => .ofFields [(name, .ofString s)]
  | .peers l => .ofFields [(name, .obj (l.map fun e => ((toString e.1).toList, .ofPeer e.2)))]
  | .tokens l => .ofFields [(name, .arr (l.map .ofBytes))]
  | .nonce n => .ofFields [(name, .ofNum n)]
  | .positions l => .ofFields [(name, .arr (l.map (J.ofPosition nanos)))]
  | .pending total l =>
    .ofFields [(name, .ofBig total),
      ("positions_rewards", .arr (l.map fun e => .ofFields [("amount", .ofBig e.1), ("pending_rewards", .ofBig e.2)]))]
  | .pausing x => .ofFields [(name, .ofEnum pausedNames x)]
  | .vaultsStats v => .ofVStats v

/-- A GET request (module.go:91-106): the body of the answer; `none` is any status other than 200. -/
def get (c : Cfg) (env : Env) (client : String → Client) (nanos : PosEntry → Nat) (s : State) (path : String) :
    Option (List Char) :=
  match request path with
  | .query q => (answer c env client s q).map fun a => (ofAnswer nanos (fieldName q) a).text
  | _ => none

end Dollar.Rest
