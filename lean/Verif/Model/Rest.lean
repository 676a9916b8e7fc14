import Verif.Model.Queries
import Verif.Model.Stats2
import Verif.Model.GoInt

/-
The REST interface: types/query.pb.gw.go, types/v2/query.pb.gw.go, types/portal/query.pb.gw.go,
types/vaults/query.pb.gw.go, registered by module.go:91-106, on top of the pattern matcher of
github.com/grpc-ecosystem/grpc-gateway v1.16.0 (runtime/mux.go, runtime/pattern.go, runtime/convert.go), which is modelled
as known from its published source (not available here, so unchecked).  Only GET requests are modelled; a path is what `URL.Path` holds, percent-decoded.  The router in
front of the gateway (which redirects paths with empty segments) and other modules' routes are left out; the JSON of the answers is in Model/RestJson.
-/
namespace Dollar.Rest

/-- The requests of the four query services.  proto/noble/dollar/{v1,v2,portal/v1,vaults/v1}/query.proto. -/
inductive Query where
  | index
  | paused
  | principal (account : String)
  | yield (account : String)
  | stats
  | statsV2
  | yieldRecipients
  | yieldRecipient (provider : Int) (identifier : String)
  | retryAmounts
  | retryAmount (provider : Int) (identifier : String)
  | owner
  | portalPaused
  | peers
  | destinationTokens (chainId : Nat)
  | nonce
  | positions (provider : String)
  | pendingRewards
  | pendingRewardsBy (provider : String)
  | vaultsPaused
  | vaultsStats
  deriving DecidableEq, Repr

/-! ### Patterns (runtime/pattern.go) -/

/-- A compiled pattern: the operations with their operands, and the pool of texts.  None of the patterns has a verb and all are
built with `AssumeColonVerbOpt(false)`. -/
structure Pattern where
  ops : List (Nat × Nat)
  pool : List String

/-- `strings.Join` with a slash. -/
def joinSlash : List (List Char) → List Char
  | [] => []
  | [x] => x
  | x :: y :: t => x ++ '/' :: joinSlash (y :: t)

/-- runtime/pattern.go `Pattern.Match`: the loop over the operations (1 is `OpPush`, 2 `OpLitPush`, 4 `OpConcatN`,
5 `OpCapture`; the patterns have no others).  The stack has its top first. -/
def matchOps (pool : List String) :
    List (Nat × Nat) → List (List Char) → List (List Char) → List (String × List Char) → Option (List (String × List Char))
  | [], [], _, cap => some cap
  | [], _ :: _, _, _ => none
  | (code, k) :: ops, cs, st, cap =>
    if code = 1 then
      match cs with
      | [] => none
      | c :: cs => matchOps pool ops cs (c :: st) cap
    else if code = 2 then
      match cs with
      | [] => none
      | c :: cs => if (pool.getD k "").toList = c then matchOps pool ops cs (c :: st) cap else none
    else if code = 4 then matchOps pool ops cs (joinSlash (st.take k).reverse :: st.drop k) cap
    else if code = 5 then
      match st with
      | [] => none
      | x :: st => matchOps pool ops cs st (cap ++ [(pool.getD k "", x)])
    else matchOps pool ops cs st cap

/-- runtime/pattern.go `Pattern.Match`: a verb goes back to the last segment, because the pattern has none. -/
def putVerb : List (List Char) → List Char → List (List Char)
  | cs, [] => cs
  | [], v => [':' :: v]
  | [c], v => [c ++ ':' :: v]
  | c :: d :: t, v => c :: putVerb (d :: t) v

/-- runtime/pattern.go `Pattern.Match`. -/
def Pattern.match (p : Pattern) (cs : List (List Char)) (verb : List Char) : Option (List (String × List Char)) :=
  matchOps p.pool p.ops (putVerb cs verb) [] []

/-! ### Parameters (runtime/convert.go) -/

/-- `runtime.Uint32`, that is `strconv.ParseUint(val, 0, 32)`: it reads the same numerals as the parser of `math/big`. -/
def uint32 (t : List Char) : Option Nat :=
  match GoInt.whole (GoInt.scanNat (t.map Char.toNat)) with
  | some n => if n < 2 ^ 32 then some n else none
  | none => none

/-- `runtime.Int32`, that is `strconv.ParseInt(val, 0, 32)`. -/
def int32 (t : List Char) : Option Int :=
  match GoInt.parse (t.map Char.toNat) with
  | some n => if -(2 ^ 31) ≤ n ∧ n < 2 ^ 31 then some n else none
  | none => none

/-- types/v2/dollar.pb.go:41-44, `Provider_value`. -/
def providerNumbers : List (String × Int) := [("IBC", 0), ("HYPERLANE", 1)]

/-- `runtime.Enum`: a name, or the number of a name. -/
def enum (t : List Char) (values : List (String × Int)) : Option Int :=
  match values.lookup (String.ofList t) with
  | some e => some e
  | none =>
    match int32 t with
    | some i => if i ∈ values.map Prod.snd then some i else none
    | none => none

/-- The outcome of routing: no route, bad parameters, or a request to the query service. -/
inductive Routed where
  | notFound
  | invalid
  | query (q : Query)
  deriving DecidableEq, Repr

def Routed.of : Option Query → Routed
  | some q => .query q
  | none => .invalid

/-- The request built from the parameters of the path. -/
abbrev Build := List (String × List Char) → Option Query

/-- `pathParams[name]` and `runtime.String`. -/
def text (ps : List (String × List Char)) (name : String) : Option String := (ps.lookup name).map String.ofList

/-- types/v2/query.pb.gw.go:71-107, 171-207: provider and identifier. -/
def routeArgs (q : Int → String → Query) : Build := fun ps => do
  let p ← (ps.lookup "provider").bind fun t => enum t providerNumbers
  let i ← text ps "identifier"
  some (q p i)

/-- types/query.pb.gw.go:464-472 (patterns), 33-176 (requests). -/
def routesV1 : List (Pattern × Build) :=
  [(⟨[(2, 0), (2, 1), (2, 2), (2, 3)], ["noble", "dollar", "v1", "index"]⟩, fun _ => some .index),
   (⟨[(2, 0), (2, 1), (2, 2), (2, 3)], ["noble", "dollar", "v1", "paused"]⟩, fun _ => some .paused),
   (⟨[(2, 0), (2, 1), (2, 2), (2, 3), (1, 0), (4, 1), (5, 4)], ["noble", "dollar", "v1", "principal", "account"]⟩,
     fun ps => (text ps "account").map .principal),
   (⟨[(2, 0), (2, 1), (2, 2), (2, 3), (1, 0), (4, 1), (5, 4)], ["noble", "dollar", "v1", "yield", "account"]⟩,
     fun ps => (text ps "account").map .yield),
   (⟨[(2, 0), (2, 1), (2, 2), (2, 3)], ["noble", "dollar", "v1", "stats"]⟩, fun _ => some .stats)]

/-- types/v2/query.pb.gw.go:520-528 (patterns), 34-250 (requests). -/
def routesV2 : List (Pattern × Build) :=
  [(⟨[(2, 0), (2, 1), (2, 2), (2, 3)], ["noble", "dollar", "v2", "stats"]⟩, fun _ => some .statsV2),
   (⟨[(2, 0), (2, 1), (2, 2), (2, 3)], ["noble", "dollar", "v2", "yield_recipients"]⟩, fun _ => some .yieldRecipients),
   (⟨[(2, 0), (2, 1), (2, 2), (2, 3), (1, 0), (4, 1), (5, 4), (1, 0), (4, 1), (5, 5)],
      ["noble", "dollar", "v2", "yield_recipient", "provider", "identifier"]⟩, routeArgs .yieldRecipient),
   (⟨[(2, 0), (2, 1), (2, 2), (2, 3)], ["noble", "dollar", "v2", "retry_amounts"]⟩, fun _ => some .retryAmounts),
   (⟨[(2, 0), (2, 1), (2, 2), (2, 3), (1, 0), (4, 1), (5, 4), (1, 0), (4, 1), (5, 5)],
      ["noble", "dollar", "v2", "retry_amount", "provider", "identifier"]⟩, routeArgs .retryAmount)]

/-- types/portal/query.pb.gw.go:428-436 (patterns), 34-160 (requests). -/
def routesPortal : List (Pattern × Build) :=
  [(⟨[(2, 0), (2, 1), (2, 2), (2, 3), (2, 4)], ["noble", "dollar", "portal", "v1", "owner"]⟩, fun _ => some .owner),
   (⟨[(2, 0), (2, 1), (2, 2), (2, 3), (2, 4)], ["noble", "dollar", "portal", "v1", "paused"]⟩, fun _ => some .portalPaused),
   (⟨[(2, 0), (2, 1), (2, 2), (2, 3), (2, 4)], ["noble", "dollar", "portal", "v1", "peers"]⟩, fun _ => some .peers),
   (⟨[(2, 0), (2, 1), (2, 2), (2, 3), (2, 4), (1, 0), (4, 1), (5, 5)],
      ["noble", "dollar", "portal", "v1", "destination_tokens", "chain_id"]⟩,
     fun ps => ((ps.lookup "chain_id").bind uint32).map .destinationTokens),
   (⟨[(2, 0), (2, 1), (2, 2), (2, 3), (2, 4)], ["noble", "dollar", "portal", "v1", "nonce"]⟩, fun _ => some .nonce)]

/-- types/vaults/query.pb.gw.go:464-472 (patterns), 34-190 (requests). -/
def routesVaults : List (Pattern × Build) :=
  [(⟨[(2, 0), (2, 1), (2, 2), (2, 3), (2, 4), (1, 0), (4, 1), (5, 5)],
      ["noble", "dollar", "vaults", "v1", "positions", "provider"]⟩, fun ps => (text ps "provider").map .positions),
   (⟨[(2, 0), (2, 1), (2, 2), (2, 3), (2, 4)], ["noble", "dollar", "vaults", "v1", "pending_rewards"]⟩,
     fun _ => some .pendingRewards),
   (⟨[(2, 0), (2, 1), (2, 2), (2, 3), (2, 4), (1, 0), (4, 1), (5, 5)],
      ["noble", "dollar", "vaults", "v1", "pending_rewards", "provider"]⟩,
     fun ps => (text ps "provider").map .pendingRewardsBy),
   (⟨[(2, 0), (2, 1), (2, 2), (2, 3), (2, 4)], ["noble", "dollar", "vaults", "v1", "paused"]⟩, fun _ => some .vaultsPaused),
   (⟨[(2, 0), (2, 1), (2, 2), (2, 3), (2, 4)], ["noble", "dollar", "vaults", "v1", "stats"]⟩, fun _ => some .vaultsStats)]

/-- module.go:91-106, in the order of registration. -/
def routes : List (Pattern × Build) := routesV1 ++ routesV2 ++ routesPortal ++ routesVaults

/-! ### The multiplexer (runtime/mux.go `ServeMux.ServeHTTP`) -/

/-- `strings.Split(path, "/")`. -/
def splitPath : List Char → List (List Char)
  | [] => [[]]
  | c :: t =>
    if c = '/' then [] :: splitPath t
    else
      match splitPath t with
      | [] => [[c]]
      | x :: r => (c :: x) :: r

/-- `strings.LastIndex(c, ":")`: what is before and what is after the last colon. -/
def lastColon : List Char → Option (List Char × List Char)
  | [] => none
  | c :: t =>
    match lastColon t with
    | some (a, b) => some (c :: a, b)
    | none => if c = ':' then some ([], t) else none

/-- The last segment is cut at its last colon; `none` if the colon is its first character. -/
def cutVerb : List (List Char) → Option (List (List Char) × List Char)
  | [] => some ([], [])
  | [c] =>
    match lastColon c with
    | none => some ([c], [])
    | some ([], _) => none
    | some (a :: r, v) => some ([a :: r], v)
  | c :: d :: t => (cutVerb (d :: t)).map fun x => (c :: x.1, x.2)

/-- The first route that matches. -/
def firstMatch (cs : List (List Char)) (verb : List Char) : List (Pattern × Build) → Routed
  | [] => .notFound
  | (p, b) :: rs =>
    match p.match cs verb with
    | some ps => .of (b ps)
    | none => firstMatch cs verb rs

/-- runtime/mux.go `ServeMux.ServeHTTP`. -/
def serve (rs : List (Pattern × Build)) : List Char → Routed
  | '/' :: path =>
    match cutVerb (splitPath path) with
    | some (cs, verb) => firstMatch cs verb rs
    | none => .notFound
  | _ => .notFound

/-- A GET request to the module. -/
def request (path : String) : Routed := serve routes path.toList

end Dollar.Rest
