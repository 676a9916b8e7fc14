import Verif.Model.Wire

/-
What the store of the module holds in a given state, byte by byte, and how the collections read it back
(keeper/keeper.go:142-165).  Key codecs and prefixes are those of Model/Store, value codecs those of Model/Wire.
-/
namespace Dollar
open Proto

/-- The module's store: keys and values are bytes. -/
abbrev Disk := KV Bytes Bytes

/-- All entries of the module's store (keeper/keeper.go:142-165, keeper/state_vaults.go:38-61).  `nanos` gives the
nanoseconds of the time of a position, which the model of positions leaves out. -/
def stored (nanos : PosKey → Int) (s : State) : List (SKey × Bytes) :=
  [(.paused, encBool s.paused), (.index, encInt64 s.index),
   (.stats, encStats s.holders s.totalPrincipal s.totalYield),
   (.owner, ascii s.owner), (.portalPaused, encBool s.portalPaused), (.nonce, encUint32 s.nonce),
   (.vPaused, encInt32 s.vPaused), (.seasonOneEnded, encBool s.seasonOneEnded), (.collector, s.collector),
   (.totalFlexible, encInt s.totalFlexible), (.vstats, encVStats s.vstats)] ++
  s.principal.map (fun e => (.principal e.1, encInt e.2)) ++
  s.extYield.map (fun e => (.extYield e.1.1 (ascii e.1.2), encInt e.2)) ++
  s.recipients.map (fun e => (.recipient e.1.1 (ascii e.1.2), ascii e.2)) ++
  s.retry.map (fun e => (.retry e.1.1 (ascii e.1.2), encInt e.2)) ++
  s.peers.map (fun e => (.peer e.1, encPeer e.2)) ++
  s.paths.map (fun e => (.path e.1.1 e.1.2, encBool e.2)) ++
  s.positions.map (fun e => (.position e.1, encPosition e.2 (nanos e.1))) ++
  s.positions.map (fun e => (.byProvider e.1, [])) ++
  s.positions.map (fun e => (.byPair e.1, [])) ++
  s.rewards.map (fun e => (.reward e.1, encReward e.2))

/-- The store of the module in a state. -/
def disk (nanos : PosKey → Int) (s : State) : Disk :=
  (stored nanos s).foldl (fun d e => d.set e.1.bytes e.2) []

/-- `sdk.IntValue`, decoding to a present integer. -/
def readInt (T : IntText) (b : Bytes) : PRes Int := do
  let v ← decInt T b
  match v.getInt? with
  | some x => .ok x
  | none => .err

/-- A decoder that answers with an option. -/
def readOpt : Option α → PRes α
  | some x => .ok x
  | none => .err

/-- `Item.Get`: the value of an item (keeper/state.go:34-37, 83-90, keeper/state_portal.go:33-36,
keeper/state_vaults.go:69-91, 190-196). -/
def Disk.item (d : Disk) (k : SKey) (dec : Bytes → PRes α) : PRes α :=
  match d.get? k.bytes with
  | some b => dec b
  | none => .err

/-- The entries of a collection one after the other, decoded into a map. -/
def readEntries [DecidableEq K] [KeyOrd K] (dec : Bytes → Bytes → PRes (K × V)) (n : Nat) :
    List (Bytes × Bytes) → KV K V → PRes (KV K V)
  | [], m => .ok m
  | e :: t, m => do
    let kv ← dec (e.1.drop n) e.2
    readEntries dec n t (m.set kv.1 kv.2)

/-- `Map.Walk` over a whole collection (keeper/state.go:40-54, 150-175, 204-213, keeper/state_portal.go:39-69,
keeper/state_vaults.go:93-115, 168-187): all keys behind the prefix. -/
def Disk.walk [DecidableEq K] [KeyOrd K] (d : Disk) (c : Coll) (dec : Bytes → Bytes → PRes (K × V)) : PRes (KV K V) :=
  readEntries dec c.pre.length (d.filter fun e => c.pre.isPrefixOf e.1) []

/-- Key of a pair of provider and identifier. -/
def readRoute (b : Bytes) : PRes (Int × String) :=
  match decInt32 b with
  | some (p, id) => .ok (p, str id)
  | none => .err

/-- Key of a chain, and what follows it. -/
def readChain (b : Bytes) : PRes (Nat × Bytes) :=
  if 2 ≤ b.length then .ok (beNat (b.take 2), b.drop 2) else .err

/-- The state after a restart: what the module needs is read from its store; `rest` has the state of the other
modules (bank, wormhole, hyperlane, IBC). -/
def restart (T : IntText) (rest : State) (d : Disk) : PRes State := do
  let paused ← d.item .paused fun b => readOpt (decBool b)
  let index ← d.item .index fun b => readOpt ((decInt64 b).map Prod.fst)
  let stats ← d.item .stats (decStats T)
  let owner ← d.item .owner fun b => .ok (str b)
  let portalPaused ← d.item .portalPaused fun b => readOpt (decBool b)
  let nonce ← d.item .nonce fun b => readOpt (decUint32 b)
  let vPaused ← d.item .vPaused fun b => readOpt ((decInt32 b).map Prod.fst)
  let seasonOneEnded ← d.item .seasonOneEnded fun b => readOpt (decBool b)
  let collector ← d.item .collector fun b => .ok b
  let totalFlexible ← d.item .totalFlexible (readInt T)
  let vstats ← d.item .vstats (decVStats T)
  let principal ← d.walk .principal fun k v => do .ok (k, ← readInt T v)
  let extYield ← d.walk .extYield fun k v => do .ok (← readRoute k, ← readInt T v)
  let recipients ← d.walk .recipient fun k v => do .ok (← readRoute k, str v)
  let retry ← d.walk .retry fun k v => do .ok (← readRoute k, ← readInt T v)
  let peers ← d.walk .peer fun k v => do .ok ((← readChain k).1, ← decPeer T v)
  let paths ← d.walk .path fun k v => do .ok (← readChain k, ← readOpt (decBool v))
  let positions ← d.walk .position fun k v => do .ok (← readOpt (decPos k), ← decPosition T v)
  let rewards ← d.walk .reward fun k v => do .ok (← readOpt ((decInt64 k).map Prod.fst), ← decReward T v)
  .ok { rest with
    paused := paused, index := index, holders := stats.1, totalPrincipal := stats.2.1, totalYield := stats.2.2,
    owner := owner, portalPaused := portalPaused, nonce := nonce, vPaused := vPaused,
    seasonOneEnded := seasonOneEnded, collector := collector, totalFlexible := totalFlexible, vstats := vstats,
    principal := principal, extYield := extYield, recipients := recipients, retry := retry, peers := peers,
    paths := paths, positions := positions, rewards := rewards }

/-- `Migrate1to2` on the store (keeper/migrations.go:40-68): both versions of the statistics have the same key
(types/keys.go:42, keeper/migrations.go:45, keeper/keeper.go:147). -/
def migrateDisk (T : IntText) (d : Disk) : PRes Disk := do
  let v ← d.item .stats (decStatsV1 T)
  .ok (d.set SKey.stats.bytes (encStats v.1 v.2.1 v.2.2))

end Dollar
