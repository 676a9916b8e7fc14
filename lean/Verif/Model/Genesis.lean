import Verif.Model.Vaults
import Verif.Model.IBC

/-
genesis.go, types/v2/provider.go, keeper/migrations.go.
-/
namespace Dollar
open MM

/-- types/v2/dollar.pb.go:36-48: the enum name; unknown values print as a number. -/
def providerName (p : Int) : String :=
  if p = 0 then "IBC" else if p = 1 then "HYPERLANE" else toString p

/-- `Provider_value[name]`, zero for an unknown name (types/v2/provider.go:27). -/
def providerValue (name : String) : Int := if name = "HYPERLANE" then 1 else 0

/-- `strings.Split(s, "/")` on the characters of `s`. -/
def splitSlash : List Char → List (List Char)
  | [] => [[]]
  | c :: t =>
    if c = '/' then [] :: splitSlash t
    else match splitSlash t with
      | [] => [[c]]
      | h :: r => (c :: h) :: r

/-- types/v2/provider.go:25-31, `ParseYieldRecipientKey`: `splitKey[1]` panics without a slash. -/
def parseRecipientKey (key : String) : PRes (Int × String) :=
  match splitSlash key.toList with
  | p :: i :: _ => .ok (providerValue (String.ofList p), String.ofList i)
  | _ => .panic

/-- keeper/state.go:156, 170, 208: the key under which a route is exported. -/
def recipientKey (k : Int × String) : String := providerName k.1 ++ "/" ++ k.2

/-- `v2.GenesisState`.  A Go map is a list of entries with distinct keys, in iteration order. -/
structure Genesis where
  paused : Bool
  index : Int
  principal : List (String × String)
  holders : Nat
  totalPrincipal : Int
  totalYield : Int
  extYield : List (String × String)
  recipients : List (String × String)
  retry : List (String × String)
  owner : String
  portalPaused : Bool
  peers : List (Nat × Peer)
  paths : List (Nat × Bytes)
  nonce : Nat
  positions : List PosEntry
  rewards : List Reward
  vPaused : Int
  seasonOneEnded : Bool
  collector : String
  vstats : VStats
  totalFlexible : Int
  deriving DecidableEq, Repr

/-- A loop whose body may abort with a panic (the only failure in `InitGenesis`). -/
def foldPanic {α β : Type} (f : β → α → Option β) : β → List α → Option β
  | b, [] => some b
  | b, a :: t => match f b a with
    | none => none
    | some b' => foldPanic f b' t

/-- genesis.go:51-66. -/
def initPrincipal (c : Cfg) (m : KV Addr Int) (e : String × String) : Option (KV Addr Int) :=
  match c.decode e.1, intOfString e.2 with
  | some a, some p => some (m.set a p)
  | _, _ => none

/-- genesis.go:73-85 and 97-110. -/
def initAmount (m : KV (Int × String) Int) (e : String × String) : Option (KV (Int × String) Int) :=
  match parseRecipientKey e.1, intOfString e.2 with
  | .ok k, some a => some (m.set k a)
  | _, _ => none

/-- genesis.go:87-95. -/
def initRecipient (m : KV (Int × String) String) (e : String × String) :
    Option (KV (Int × String) String) :=
  match parseRecipientKey e.1 with
  | .ok k => some (m.set k e.2)
  | _ => none

/-- genesis.go:139-148. -/
def initPosition (m : KV (Addr × Int × Int) Position) (p : PosEntry) :
    KV (Addr × Int × Int) Position :=
  m.set (p.address, p.vault, p.time) ⟨p.principal, p.index, p.amount, p.time⟩

/-- genesis.go:38-183, `InitGenesis` on a state whose module stores are empty; `none` is a panic.
`base` carries what other modules hold. -/
def initGenesis (c : Cfg) (g : Genesis) (base : State) : Option State :=
  match foldPanic (initPrincipal c) base.principal g.principal with
  | none => none
  | some principal =>
  match foldPanic initAmount base.extYield g.extYield with
  | none => none
  | some extYield =>
  match foldPanic initRecipient base.recipients g.recipients with
  | none => none
  | some recipients =>
  match foldPanic initAmount base.retry g.retry with
  | none => none
  | some retry =>
  match c.decode g.collector with
  | none => none
  | some collector =>
    some { base with
      paused := g.paused, index := g.index, principal := principal,
      holders := g.holders, totalPrincipal := g.totalPrincipal, totalYield := g.totalYield,
      extYield := extYield, recipients := recipients, retry := retry,
      owner := g.owner, portalPaused := g.portalPaused,
      peers := g.peers.foldl (fun m e => m.set e.1 e.2) base.peers,
      paths := g.paths.foldl (fun m e => m.set e true) base.paths,
      nonce := g.nonce,
      positions := g.positions.foldl initPosition base.positions,
      rewards := g.rewards.foldl (fun m r => m.set r.index r) base.rewards,
      vPaused := g.vPaused, seasonOneEnded := g.seasonOneEnded, collector := collector,
      vstats := g.vstats, totalFlexible := g.totalFlexible }

/-- Go map built by assigning the entries in order. -/
def goMap {V : Type} (entries : List (String × V)) : KV String V :=
  entries.foldl (fun m e => m.set e.1 e.2) []

/-- genesis.go:185-233, `ExportGenesis` with the getters of keeper/state.go:40-54, 150-175,
204-213, keeper/state_portal.go:39-69 and keeper/state_vaults.go:93-115, 168-187. -/
def exportGenesis (c : Cfg) (s : State) : Genesis where
  paused := s.paused
  index := s.index
  principal := goMap (s.principal.map fun e => (c.encode e.1, toString e.2))
  holders := s.holders
  totalPrincipal := s.totalPrincipal
  totalYield := s.totalYield
  extYield := goMap (s.extYield.map fun e => (recipientKey e.1, toString e.2))
  recipients := goMap (s.recipients.map fun e => (recipientKey e.1, e.2))
  retry := goMap (s.retry.map fun e => (recipientKey e.1, toString e.2))
  owner := s.owner
  portalPaused := s.portalPaused
  peers := s.peers
  paths := (s.paths.filter fun e => e.2).map Prod.fst
  nonce := s.nonce
  positions := allPositions s
  rewards := s.rewards.map Prod.snd
  vPaused := s.vPaused
  seasonOneEnded := s.seasonOneEnded
  collector := c.encode s.collector
  vstats := s.vstats
  totalFlexible := s.totalFlexible

/-- types/v2/genesis.go:23-27, `DefaultGenesisState`.
Simplification: nil `math.Int` statistics are zero. -/
def defaultGenesis : Genesis where
  paused := false
  index := 1000000000000
  principal := []
  holders := 0
  totalPrincipal := 0
  totalYield := 0
  extYield := []
  recipients := []
  retry := []
  owner := ""
  portalPaused := false
  peers := []
  paths := []
  nonce := 0
  positions := []
  rewards := []
  vPaused := 0
  seasonOneEnded := false
  collector := ""
  vstats := ⟨0, 0, 0, 0, 0⟩
  totalFlexible := 0

/-- `types.Stats` (types/dollar.pb.go:29-33), the version 1 statistics. -/
structure StatsV1 where
  holders : Nat
  totalPrincipal : Int
  totalYield : Int
  deriving DecidableEq, Repr

/-- keeper/migrations.go:50-68, `Migrate1to2`; `v1 = none` when no statistics are stored. -/
def migrate1to2 (v1 : Option StatsV1) : M Unit :=
  match v1 with
  | none => fail .malformed
  | some v => modify fun s =>
    { s with holders := v.holders, totalPrincipal := v.totalPrincipal, totalYield := v.totalYield }

end Dollar
