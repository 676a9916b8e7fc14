import Verif.Model.Queries

/-
keeper/query_server_v2.go:51-92, 138-164: the v2 `Stats` query with the chain ids.
-/
namespace Dollar

/-- The client state behind an IBC channel, as the type switch of keeper/query_server_v2.go:141-148
sees it: `none` also stands for a channel that does not exist. -/
inductive Client where
  | soloMachine (diversifier : String)
  | tendermint (chainId : String)
  | other
  | none
  deriving DecidableEq

/-- keeper/query_server_v2.go:138-149, `getIBCChainId`; `client` is `GetChannelClientState` on the
transfer port. -/
def ibcChainId (client : String → Client) (channelId : String) : String :=
  match client channelId with
  | .soloMachine d => d
  | .tendermint i => i
  | _ => "UNKNOWN"

/-- keeper/query_server_v2.go:151-164, `getHyperlaneChainId`, with the router lookup of
keeper/msg_server_v2.go:94-114. -/
def hypChainId (c : Cfg) (env : Env) (identifier : String) : String :=
  match c.hexAddr identifier with
  | none => "UNKNOWN"
  | some raw =>
    match env.routers (c.internalId raw) with
    | [d] => toString d
    | _ => "UNKNOWN"

/-- keeper/query_server_v2.go:66-82: one entry of the map. -/
def statsEntry (c : Cfg) (env : Env) (client : String → Client) (e : String × String) :
    Option (String × String × Int) :=
  match parseRecipientKey e.1 with
  | .ok (provider, identifier) =>
    some (e.1, if provider = 0 then ibcChainId client identifier
      else if provider = 1 then hypChainId c env identifier else "UNKNOWN", (intOfString e.2).getD 0)
  | _ => none

/-- keeper/query_server_v2.go:51-92: `Stats`; the external yield by key, with the chain id.  `none`
is the panic of `ParseYieldRecipientKey`. -/
def queryStatsV2 (c : Cfg) (env : Env) (client : String → Client) (s : State) :
    Option (Nat × Int × Int × List (String × String × Int)) :=
  ((goMap (s.extYield.map fun e => (recipientKey e.1, toString e.2))).mapM (statsEntry c env client)).map
    fun l => (s.holders, s.totalPrincipal, s.totalYield, l)

end Dollar
