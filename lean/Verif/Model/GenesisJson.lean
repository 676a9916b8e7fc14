import Verif.Model.Json
import Verif.Model.Genesis

/-
The genesis file: `AppModule.InitGenesis`, `ExportGenesis`, `ValidateGenesis` and `DefaultGenesis` (module.go:108-119,
142-152) read and write `v2.GenesisState` with the SDK's JSON codec.  The codec is gogoproto's jsonpb with original
field names and defaults written out; the fields and their types are those of
types/v2/genesis.pb.go, types/portal/genesis.pb.go, types/vaults/genesis.pb.go, types/vaults/vaults.pb.go,
types/portal/portal.pb.go and types/v2/dollar.pb.go.
-/
namespace Dollar.Json

/-! ### Base64 (encoding/base64 `StdEncoding`, for fields of type `bytes`) -/

/-- The character of six bits. -/
def b64Char (n : Nat) : Char :=
  if n < 26 then Char.ofNat (65 + n)
  else if n < 52 then Char.ofNat (71 + n)
  else if n < 62 then Char.ofNat (n - 4)
  else if n = 62 then '+' else '/'

/-- The six bits of a character. -/
def b64Val (c : Char) : Option Nat :=
  let n := c.toNat
  if 65 ≤ n ∧ n ≤ 90 then some (n - 65)
  else if 97 ≤ n ∧ n ≤ 122 then some (n - 71)
  else if 48 ≤ n ∧ n ≤ 57 then some (n + 4)
  else if c = '+' then some 62 else if c = '/' then some 63 else none

/-- `StdEncoding.EncodeToString`. -/
def b64 : Bytes → List Char
  | a :: b :: c :: t =>
    let n := a.toNat * 65536 + b.toNat * 256 + c.toNat
    b64Char (n / 262144) :: b64Char (n / 4096 % 64) :: b64Char (n / 64 % 64) :: b64Char (n % 64) :: b64 t
  | [a, b] =>
    let n := a.toNat * 65536 + b.toNat * 256
    [b64Char (n / 262144), b64Char (n / 4096 % 64), b64Char (n / 64 % 64), '=']
  | [a] =>
    let n := a.toNat * 65536
    [b64Char (n / 262144), b64Char (n / 4096 % 64), '=', '=']
  | [] => []

/-- Four characters without padding. -/
def b64Quad (a b c d : Char) : Option Bytes := do
  let a ← b64Val a
  let b ← b64Val b
  let c ← b64Val c
  let d ← b64Val d
  let n := a * 262144 + b * 4096 + c * 64 + d
  pure [UInt8.ofNat (n / 65536), UInt8.ofNat (n / 256 % 256), UInt8.ofNat (n % 256)]

/-- `StdEncoding.Decode` of a text without line breaks; the last group may be padded. -/
def unb64Groups : List Char → Option Bytes
  | [] => some []
  | [a, b, '=', '='] => (b64Quad a b 'A' 'A').map fun l => l.take 1
  | [a, b, c, '='] => (b64Quad a b c 'A').map fun l => l.take 2
  | a :: b :: c :: d :: t => do
    let l ← b64Quad a b c d
    let r ← unb64Groups t
    pure (l ++ r)
  | _ => none

/-- `StdEncoding.Decode`, which passes over line breaks. -/
def unb64 (l : List Char) : Option Bytes := unb64Groups (l.filter fun c => c ≠ '\r' && c ≠ '\n')

/-! ### Dates (package time, for `google.protobuf.Timestamp`) -/

/-- A leap year of the Gregorian calendar. -/
def isLeap (y : Nat) : Bool := y % 4 = 0 && (y % 100 ≠ 0 || y % 400 = 0)

/-- The days of a year before the first of month `m`. -/
def daysToMonth (leap : Bool) (m : Nat) : Nat :=
  [0, 31, 59, 90, 120, 151, 181, 212, 243, 273, 304, 334, 365].getD (m - 1) 0 + (if leap ∧ 2 < m then 1 else 0)

/-- The days from 1 January 0001 to 1 January of year `y`. -/
def daysToYear (y : Nat) : Nat := 365 * (y - 1) + (y - 1) / 4 - (y - 1) / 100 + (y - 1) / 400

/-- Year and day of the year (from 0) of a day counted from 1 January 0001. -/
def yearDay (d : Nat) : Nat × Nat :=
  let r := d % 146097
  let c := min (r / 36524) 3
  let r4 := r - c * 36524
  let q := r4 / 1461
  let r1 := r4 % 1461
  let a := min (r1 / 365) 3
  (400 * (d / 146097) + 100 * c + 4 * q + a + 1, r1 - a * 365)

/-- The month of a day of the year. -/
def monthOf (leap : Bool) (doy : Nat) : Nat :=
  ((List.range 12).filter fun i => daysToMonth leap (i + 1) ≤ doy).length

/-- Exactly `k` decimal digits of `n`. -/
def digits : Nat → Nat → List Char
  | 0, _ => []
  | k + 1, n => digits k (n / 10) ++ [Nat.digitChar (n % 10)]

/-- The fraction of a second: none, three, six or nine digits (jsonpb `marshalObject`). -/
def fraction (nanos : Nat) : List Char :=
  if nanos = 0 then []
  else if nanos % 1000000 = 0 then '.' :: digits 3 (nanos / 1000000)
  else if nanos % 1000 = 0 then '.' :: digits 6 (nanos / 1000)
  else '.' :: digits 9 nanos

/-- Seconds from 1 January 0001 to 1970. -/
def epoch : Int := 62135596800

/-- The RFC 3339 text of a time, always in UTC (jsonpb `marshalObject` for a Timestamp). -/
def timeText (sec : Int) (nanos : Nat) : List Char :=
  let n := (sec + epoch).toNat
  let (y, doy) := yearDay (n / 86400)
  let m := monthOf (isLeap y) doy
  digits 4 y ++ '-' :: (digits 2 m ++ '-' :: (digits 2 (doy - daysToMonth (isLeap y) m + 1) ++
    'T' :: (digits 2 (n % 86400 / 3600) ++ ':' :: (digits 2 (n % 3600 / 60) ++ ':' :: (digits 2 (n % 60) ++
      (fraction nanos ++ ['Z']))))))

/-- `k` decimal digits at the front of a text. -/
def readDigits : Nat → Nat → List Char → Option (Nat × List Char)
  | 0, n, l => some (n, l)
  | k + 1, n, c :: t => if c.isDigit then readDigits k (n * 10 + (c.toNat - 48)) t else none
  | _ + 1, _, [] => none

/-- One given character. -/
def expect (c : Char) : List Char → Option (List Char)
  | x :: t => if x = c then some t else none
  | [] => none

/-- A fraction of a second, passed over: the module uses whole seconds. -/
def skipFraction : List Char → Option (List Char)
  | '.' :: c :: t => if c.isDigit then some (t.dropWhile Char.isDigit) else none
  | l => some l

/-- The zone: `Z`, or an offset in hours and minutes. -/
def readZone : List Char → Option Int
  | ['Z'] => some 0
  | s :: t =>
    if s = '+' ∨ s = '-' then do
      let (h, t) ← readDigits 2 0 t
      let t ← expect ':' t
      let (m, t) ← readDigits 2 0 t
      if t = [] ∧ h ≤ 24 ∧ m < 60 then
        let off : Int := h * 3600 + m * 60
        some (if s = '+' then off else -off)
      else none
    else none
  | [] => none

/-- `time.Parse(time.RFC3339Nano, …)` and the bounds of a protobuf timestamp, in seconds. -/
def readTime (l : List Char) : Option Int := do
  let (y, l) ← readDigits 4 0 l
  let l ← expect '-' l
  let (m, l) ← readDigits 2 0 l
  let l ← expect '-' l
  let (d, l) ← readDigits 2 0 l
  let l ← expect 'T' l
  let (h, l) ← readDigits 2 0 l
  let l ← expect ':' l
  let (i, l) ← readDigits 2 0 l
  let l ← expect ':' l
  let (s, l) ← readDigits 2 0 l
  let l ← skipFraction l
  let off ← readZone l
  if 1 ≤ y ∧ 1 ≤ m ∧ m ≤ 12 ∧ 1 ≤ d ∧ d ≤ daysToMonth (isLeap y) (m + 1) - daysToMonth (isLeap y) m ∧
      h < 24 ∧ i < 60 ∧ s < 60 then
    let t : Int := ((daysToYear y + daysToMonth (isLeap y) m + (d - 1)) * 86400 + h * 3600 + i * 60 + s : Nat)
    let sec := t - off - epoch
    if -62135596800 ≤ sec ∧ sec < 253402300800 then some sec else none
  else none

/-! ### Scalars -/

/-- An integer literal of JSON. -/
def isLiteral (l : List Char) : Bool :=
  let d := if l.head? = some '-' then l.tail else l
  d = ['0'] || (d ≠ [] && d.head? ≠ some '0' && d.all Char.isDigit)

/-- encoding/json into an integer type with the given range; a type without negative numbers takes no sign. -/
def readLit (lo hi : Int) (l : List Char) : Option Int :=
  if isLiteral l = true ∧ ¬ (lo = 0 ∧ l.head? = some '-') then
    (GoInt.parse (l.map Char.toNat)).bind fun x => if lo ≤ x ∧ x < hi then some x else none
  else none

/-- A number without quotes: 32 bits and less (jsonpb `marshalValue`). -/
def J.ofNum (x : Int) : J := .num (toString x).toList

/-- A number in quotes: 64 bits (jsonpb `marshalValue`), and `math.Int.MarshalJSON`. -/
def J.ofBig (x : Int) : J := .str (toString x).toList

/-- A string field. -/
def J.ofString (s : String) : J := .str s.toList

/-- A field of type `bytes`.  Simplification: an absent slice is written as `null`, and read as the empty one. -/
def J.ofBytes (b : Bytes) : J := .str (b64 b)

/-- An enumeration: its name, or its number if it has none. -/
def J.ofEnum (names : List (Int × String)) (x : Int) : J :=
  match names.lookup x with
  | some n => .ofString n
  | none => .ofNum x

/-- jsonpb: a bool; `null` leaves the default. -/
def J.toBool : J → Option Bool
  | .bool b => some b
  | .null => some false
  | _ => none

/-- jsonpb: an integer, in quotes or not; `null` leaves the default. -/
def J.toNum (lo hi : Int) : J → Option Int
  | .num t => readLit lo hi t
  | .str t => readLit lo hi t
  | .null => some 0
  | _ => none

/-- jsonpb: a `uint16` (a cast type) is not unquoted. -/
def J.toUint16 : J → Option Nat
  | .num t => (readLit 0 65536 t).map Int.toNat
  | .null => some 0
  | _ => none

/-- `math.Int.UnmarshalJSON`: a string, at most 256 bits. -/
def J.toBig : J → Option Int
  | .str t => (GoInt.parse (t.map Char.toNat)).bind fun x => if x.natAbs < 2 ^ 256 then some x else none
  | _ => none

/-- jsonpb: a string; `null` leaves the default. -/
def J.toStr : J → Option String
  | .str s => some (String.ofList s)
  | .null => some ""
  | _ => none

/-- jsonpb: bytes; `null` leaves the default. -/
def J.toBytes : J → Option Bytes
  | .str s => unb64 s
  | .null => some []
  | _ => none

/-- jsonpb: an enumeration, by name or by number. -/
def J.toEnum (names : List (Int × String)) : J → Option Int
  | .str s => (names.find? fun e => e.2 = String.ofList s).map Prod.fst
  | .num t => readLit (-2 ^ 31) (2 ^ 31) t
  | .null => some 0
  | _ => none

/-- A timestamp. -/
def J.toTime : J → Option Int
  | .str s => readTime s
  | _ => none

/-! ### Messages -/

/-- The members of a message; `null` has none. -/
def J.members : J → Option (List (List Char × J))
  | .obj l => some l
  | .null => some []
  | _ => none

/-- The last member of a name. -/
def lastOf (l : List (List Char × J)) (name : String) : Option J :=
  (l.reverse.find? fun e => String.ofList e.1 = name).map Prod.snd

/-- jsonpb `consumeField`: both names are accepted, the second one (lowerCamelCase) wins; a field that is not there
keeps its default. -/
def fieldOr (l : List (List Char × J)) (orig camel : String) (read : J → Option α) (dflt : α) : Option α :=
  match lastOf l camel with
  | some j => read j
  | none =>
    match lastOf l orig with
    | some j => read j
    | none => some dflt

/-- jsonpb: a field that no name stands for is an error. -/
def known (l : List (List Char × J)) (names : List String) : Bool :=
  l.all fun e => names.contains (String.ofList e.1)

/-- jsonpb: a repeated field. -/
def J.toList (read : J → Option α) : J → Option (List α)
  | .arr l => l.mapM read
  | .null => some []
  | _ => none

/-- jsonpb: a map; the keys are read before the values. -/
def J.toMap {κ α : Type} (key : List Char → Option κ) (read : J → Option α) : J → Option (List (κ × α))
  | .obj l => l.mapM fun e => do
    let k ← key e.1
    let v ← read e.2
    pure (k, v)
  | .null => some []
  | _ => none

/-- types/vaults/vaults.pb.go:43-47, `VaultType_name`. -/
def vaultNames : List (Int × String) := [(0, "UNSPECIFIED"), (1, "STAKED"), (2, "FLEXIBLE")]

/-- types/vaults/vaults.pb.go:74-79, `PausedType_name`. -/
def pausedNames : List (Int × String) := [(0, "NONE"), (1, "LOCK"), (2, "UNLOCK"), (3, "ALL")]

/-- An object of named values. -/
def J.ofFields (l : List (String × J)) : J := .obj (l.map fun e => (e.1.toList, e.2))

/-- A map from strings to strings. -/
def J.ofStrings (l : List (String × String)) : J := .obj (l.map fun e => (e.1.toList, .ofString e.2))

/-- A map from strings to strings, as a Go map. -/
def J.toStrings (j : J) : Option (List (String × String)) :=
  (j.toMap (fun k => some (String.ofList k)) J.toStr).map goMap

/-- `portal.Peer`. -/
def J.ofPeer (p : Peer) : J := .ofFields [("transceiver", .ofBytes p.transceiver), ("manager", .ofBytes p.manager)]

/-- `portal.Peer`. -/
def J.toPeer (j : J) : Option Peer := do
  let l ← j.members
  let t ← fieldOr l "transceiver" "transceiver" J.toBytes []
  let m ← fieldOr l "manager" "manager" J.toBytes []
  if known l ["transceiver", "manager"] then pure ⟨t, m⟩ else none

/-- `portal.BridgingPath`. -/
def J.ofPath (p : Nat × Bytes) : J :=
  .ofFields [("destination_chain_id", .ofNum p.1), ("destination_token", .ofBytes p.2)]

/-- `portal.BridgingPath`. -/
def J.toPath (j : J) : Option (Nat × Bytes) := do
  let l ← j.members
  let c ← fieldOr l "destination_chain_id" "destinationChainId" J.toUint16 0
  let t ← fieldOr l "destination_token" "destinationToken" J.toBytes []
  if known l ["destination_chain_id", "destinationChainId", "destination_token", "destinationToken"] then
    pure (c, t) else none

/-- `vaults.PositionEntry`; `nanos` is the part of the time that the module does not use. -/
def J.ofPosition (nanos : PosEntry → Nat) (p : PosEntry) : J :=
  .ofFields [("address", .ofBytes p.address), ("vault", .ofEnum vaultNames p.vault), ("principal", .ofBig p.principal),
    ("index", .ofBig p.index), ("amount", .ofBig p.amount), ("time", .str (timeText p.time (nanos p)))]

/-- `vaults.PositionEntry`.  Simplification: amounts and the time must be there (without them the Go value holds a nil
`Int` or the zero time). -/
def J.toPosition (j : J) : Option PosEntry := do
  let l ← j.members
  let a ← fieldOr l "address" "address" J.toBytes []
  let v ← fieldOr l "vault" "vault" (J.toEnum vaultNames) 0
  let p ← (lastOf l "principal").bind J.toBig
  let i ← fieldOr l "index" "index" (J.toNum (-2 ^ 63) (2 ^ 63)) 0
  let x ← (lastOf l "amount").bind J.toBig
  let t ← (lastOf l "time").bind J.toTime
  if known l ["address", "vault", "principal", "index", "amount", "time"] then pure ⟨a, v, p, i, x, t⟩ else none

/-- `vaults.Reward`. -/
def J.ofReward (r : Reward) : J :=
  .ofFields [("index", .ofBig r.index), ("total", .ofBig r.total), ("rewards", .ofBig r.rewards)]

/-- `vaults.Reward`; a nil amount counts as zero. -/
def J.toReward (j : J) : Option Reward := do
  let l ← j.members
  let i ← fieldOr l "index" "index" (J.toNum (-2 ^ 63) (2 ^ 63)) 0
  let t ← fieldOr l "total" "total" J.toBig 0
  let r ← fieldOr l "rewards" "rewards" J.toBig 0
  if known l ["index", "total", "rewards"] then pure ⟨i, t, r⟩ else none

/-- `vaults.Stats`. -/
def J.ofVStats (v : VStats) : J :=
  .ofFields [("flexible_total_principal", .ofBig v.flexPrincipal), ("flexible_total_users", .ofBig v.flexUsers),
    ("flexible_total_distributed_rewards_principal", .ofBig v.flexDistributed),
    ("staked_total_principal", .ofBig v.stakedPrincipal), ("staked_total_users", .ofBig v.stakedUsers)]

/-- `vaults.Stats`; a nil amount counts as zero. -/
def J.toVStats (j : J) : Option VStats := do
  let l ← j.members
  let a ← fieldOr l "flexible_total_principal" "flexibleTotalPrincipal" J.toBig 0
  let b ← fieldOr l "flexible_total_users" "flexibleTotalUsers" (J.toNum 0 (2 ^ 64)) 0
  let c ← fieldOr l "flexible_total_distributed_rewards_principal" "flexibleTotalDistributedRewardsPrincipal" J.toBig 0
  let d ← fieldOr l "staked_total_principal" "stakedTotalPrincipal" J.toBig 0
  let e ← fieldOr l "staked_total_users" "stakedTotalUsers" (J.toNum 0 (2 ^ 64)) 0
  if known l ["flexible_total_principal", "flexibleTotalPrincipal", "flexible_total_users", "flexibleTotalUsers",
      "flexible_total_distributed_rewards_principal", "flexibleTotalDistributedRewardsPrincipal",
      "staked_total_principal", "stakedTotalPrincipal", "staked_total_users", "stakedTotalUsers"] then
    pure ⟨a, b.toNat, c, d, e.toNat⟩ else none

/-- `v2.Stats`: holders, principal and yield. -/
def J.ofStats (s : Nat × Int × Int) : J :=
  .ofFields [("total_holders", .ofBig s.1), ("total_principal", .ofBig s.2.1), ("total_yield_accrued", .ofBig s.2.2)]

/-- `v2.Stats`; a nil amount counts as zero. -/
def J.toStats (j : J) : Option (Nat × Int × Int) := do
  let l ← j.members
  let a ← fieldOr l "total_holders" "totalHolders" (J.toNum 0 (2 ^ 64)) 0
  let b ← fieldOr l "total_principal" "totalPrincipal" J.toBig 0
  let c ← fieldOr l "total_yield_accrued" "totalYieldAccrued" J.toBig 0
  if known l ["total_holders", "totalHolders", "total_principal", "totalPrincipal", "total_yield_accrued",
      "totalYieldAccrued"] then pure (a.toNat, b, c) else none

/-- The part of a genesis state in `portal.GenesisState`. -/
structure PortalGenesis where
  owner : String
  paused : Bool
  peers : List (Nat × Peer)
  paths : List (Nat × Bytes)
  nonce : Nat

/-- The part of a genesis state in `vaults.GenesisState`. -/
structure VaultsGenesis where
  positions : List PosEntry
  rewards : List Reward
  totalFlexible : Int
  paused : Int
  stats : VStats
  seasonOneEnded : Bool
  collector : String

/-- `portal.GenesisState`. -/
def J.ofPortal (g : PortalGenesis) : J :=
  .ofFields [("owner", .ofString g.owner), ("paused", .bool g.paused),
    ("peers", .obj (g.peers.map fun e => ((toString e.1).toList, .ofPeer e.2))),
    ("bridging_paths", .arr (g.paths.map .ofPath)), ("nonce", .ofNum g.nonce)]

/-- `portal.GenesisState`. -/
def J.toPortal (j : J) : Option PortalGenesis := do
  let l ← j.members
  let o ← fieldOr l "owner" "owner" J.toStr ""
  let p ← fieldOr l "paused" "paused" J.toBool false
  let q ← fieldOr l "peers" "peers" (J.toMap (fun k => (readLit 0 65536 k).map Int.toNat) J.toPeer) []
  let b ← fieldOr l "bridging_paths" "bridgingPaths" (J.toList J.toPath) []
  let n ← fieldOr l "nonce" "nonce" (J.toNum 0 (2 ^ 32)) 0
  if known l ["owner", "paused", "peers", "bridging_paths", "bridgingPaths", "nonce"] then
    pure ⟨o, p, q.foldl (fun m e => KV.set m e.1 e.2) [], b, n.toNat⟩ else none

/-- `vaults.GenesisState`. -/
def J.ofVaults (nanos : PosEntry → Nat) (g : VaultsGenesis) : J :=
  .ofFields [("positions", .arr (g.positions.map (J.ofPosition nanos))), ("rewards", .arr (g.rewards.map .ofReward)),
    ("total_flexible_principal", .ofBig g.totalFlexible), ("paused", .ofEnum pausedNames g.paused),
    ("stats", .ofVStats g.stats), ("season_one_ended", .bool g.seasonOneEnded),
    ("season_two_yield_collector", .ofString g.collector)]

/-- `vaults.GenesisState`. -/
def J.toVaults (j : J) : Option VaultsGenesis := do
  let l ← j.members
  let p ← fieldOr l "positions" "positions" (J.toList J.toPosition) []
  let r ← fieldOr l "rewards" "rewards" (J.toList J.toReward) []
  let t ← fieldOr l "total_flexible_principal" "totalFlexiblePrincipal" J.toBig 0
  let a ← fieldOr l "paused" "paused" (J.toEnum pausedNames) 0
  let v ← fieldOr l "stats" "stats" J.toVStats ⟨0, 0, 0, 0, 0⟩
  let s ← fieldOr l "season_one_ended" "seasonOneEnded" J.toBool false
  let c ← fieldOr l "season_two_yield_collector" "seasonTwoYieldCollector" J.toStr ""
  if known l ["positions", "rewards", "total_flexible_principal", "totalFlexiblePrincipal", "paused", "stats",
      "season_one_ended", "seasonOneEnded", "season_two_yield_collector", "seasonTwoYieldCollector"] then
    pure ⟨p, r, t, a, v, s, c⟩ else none

/-- The portal part of a genesis state. -/
def portalOf (g : Genesis) : PortalGenesis := ⟨g.owner, g.portalPaused, g.peers, g.paths, g.nonce⟩

/-- The vaults part of a genesis state. -/
def vaultsOf (g : Genesis) : VaultsGenesis :=
  ⟨g.positions, g.rewards, g.totalFlexible, g.vPaused, g.vstats, g.seasonOneEnded, g.collector⟩

/-- module.go:149-152: the exported genesis. -/
def J.ofGenesis (nanos : PosEntry → Nat) (g : Genesis) : J :=
  .ofFields [("portal", .ofPortal (portalOf g)), ("vaults", .ofVaults nanos (vaultsOf g)), ("paused", .bool g.paused),
    ("index", .ofBig g.index), ("principal", .ofStrings g.principal),
    ("stats", .ofStats (g.holders, g.totalPrincipal, g.totalYield)), ("total_external_yield", .ofStrings g.extYield),
    ("yield_recipients", .ofStrings g.recipients), ("retry_amounts", .ofStrings g.retry)]

/-- module.go:112-119, 142-147: a genesis state from a JSON value. -/
def J.toGenesis (j : J) : Option Genesis := do
  let l ← j.members
  let p ← fieldOr l "portal" "portal" J.toPortal ⟨"", false, [], [], 0⟩
  let v ← fieldOr l "vaults" "vaults" J.toVaults ⟨[], [], 0, 0, ⟨0, 0, 0, 0, 0⟩, false, ""⟩
  let a ← fieldOr l "paused" "paused" J.toBool false
  let i ← fieldOr l "index" "index" (J.toNum (-2 ^ 63) (2 ^ 63)) 0
  let q ← fieldOr l "principal" "principal" J.toStrings []
  let s ← fieldOr l "stats" "stats" J.toStats (0, 0, 0)
  let e ← fieldOr l "total_external_yield" "totalExternalYield" J.toStrings []
  let r ← fieldOr l "yield_recipients" "yieldRecipients" J.toStrings []
  let t ← fieldOr l "retry_amounts" "retryAmounts" J.toStrings []
  if known l ["portal", "vaults", "paused", "index", "principal", "stats", "total_external_yield",
      "totalExternalYield", "yield_recipients", "yieldRecipients", "retry_amounts", "retryAmounts"] then
    pure {
      paused := a, index := i, principal := q, holders := s.1, totalPrincipal := s.2.1, totalYield := s.2.2,
      extYield := e, recipients := r, retry := t,
      owner := p.owner, portalPaused := p.paused, peers := p.peers, paths := p.paths, nonce := p.nonce,
      positions := v.positions, rewards := v.rewards, vPaused := v.paused, seasonOneEnded := v.seasonOneEnded,
      collector := v.collector, vstats := v.stats, totalFlexible := v.totalFlexible }
  else none

end Dollar.Json

namespace Dollar
open Json

/-- module.go:149-152, `AppModule.ExportGenesis`: the genesis file of a state. -/
def exportText (c : Cfg) (nanos : PosEntry → Nat) (s : State) : List Char :=
  (J.ofGenesis nanos (exportGenesis c s)).text

/-- module.go:112-119: the genesis state in a file. -/
def readGenesis (l : List Char) : Option Genesis := (J.read l).bind J.toGenesis

/-- module.go:142-147, `AppModule.InitGenesis`; `none` is a panic.  The order in which the import goes through the maps
is `order` (any permutation of each map). -/
def initText (c : Cfg) (order : Genesis → Genesis) (l : List Char) (base : State) : Option State :=
  (readGenesis l).bind fun g => initGenesis c (order g) base

/-- module.go:112-119 and types/v2/genesis.go:29-31, `ValidateGenesis`: any file that can be read is valid. -/
def validateText (l : List Char) : Bool := (readGenesis l).isSome

end Dollar
