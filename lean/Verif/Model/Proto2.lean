import Verif.Model.Wire
import Verif.Model.Queries

/-
The generated protobuf code of the answers to queries (types/v2/query.pb.go, types/vaults/query.pb.go,
types/portal/query.pb.go): messages with repeated fields, nested messages and maps.  As in Model/Proto the
template is modelled once, with the fields of a message as a parameter (`Schema2`).

Not modelled: the answers whose fields are all scalar have the schemas of Model/Proto; `LegacyDec` (the answer of
the `Index` query) is left out.
-/
namespace Dollar.Proto

/-- What a repeated field or a map holds: strings or bytes, or messages (whose fields are scalar in this code). -/
inductive Elem
  | bytes
  | msg (sch : Schema)
  deriving DecidableEq, Repr

/-- An element of a repeated field, or a value of a map. -/
inductive EVal
  | bs (b : Bytes)
  | msg (m : Fields)

/-- The keys of a map: `string`, or `uint16` (cast from a 32-bit field). -/
inductive KeyKind
  | str | u16
  deriving DecidableEq, Repr

/-- The Go types of fields: a scalar, a slice, a map. -/
inductive Kind2
  | one (k : Kind)
  | rep (e : Elem)
  | map (key : KeyKind) (e : Elem)
  deriving DecidableEq, Repr

/-- The value of a field.  A Go map is the list of its entries in the order in which a loop over it meets them. -/
inductive FVal2
  | one (v : FVal)
  | rep (l : List EVal)
  | map (l : List (FVal × EVal))

/-- Field numbers and kinds of a message. -/
abbrev Schema2 := List (Nat × Kind2)

/-- A message: the values of its fields by number. -/
abbrev Fields2 := Nat → FVal2

/-- The wire type a field is written with: slices and maps are length-delimited (types/v2/query.pb.go:1557,
types/portal/query.pb.go:1483, types/vaults/query.pb.go:1347). -/
def Kind2.wire : Kind2 → Nat
  | .one k => k.wire
  | .rep _ | .map _ _ => 2

/-- The zero value: nil slices and maps are empty. -/
def Kind2.zero : Kind2 → FVal2
  | .one k => .one k.zero
  | .rep _ => .rep []
  | .map _ _ => .map []

/-- Kind of a field number. -/
def Schema2.kind (sch : Schema2) (n : Int) : Option Kind2 :=
  (sch.find? fun e => decide ((e.1 : Int) = n)).map Prod.snd

/-- The zero value of a message. -/
def Schema2.zero (sch : Schema2) : Fields2 := fun n =>
  match sch.kind n with
  | some k => k.zero
  | none => .one (.num 0)

/-- The scalar of a field. -/
def FVal2.getOne : FVal2 → FVal
  | .one v => v
  | _ => .num 0
/-- The elements of a repeated field. -/
def FVal2.getRep : FVal2 → List EVal
  | .rep l => l
  | _ => []
/-- The entries of a map. -/
def FVal2.getMap : FVal2 → List (FVal × EVal)
  | .map l => l
  | _ => []
/-- The bytes of an element. -/
def EVal.getBytes : EVal → Bytes
  | .bs b => b
  | .msg _ => []
/-- The message of an element. -/
def EVal.getMsg : EVal → Fields
  | .bs _ => fun _ => .num 0
  | .msg m => m

/-! ### Unmarshal -/

/-- types/v2/query.pb.go:1560-1584: read a length at `j`; where the payload begins and where it ends. -/
def readLen (b : Bytes) (j : Int) : PRes (Int × Int) := do
  let (len, j) ← readVarint b j
  if toInt64 len < 0 then .err
  else if wrap64 (j + toInt64 len) < 0 then .err
  else if (b.length : Int) < wrap64 (j + toInt64 len) then .err
  else .ok (j, wrap64 (j + toInt64 len))

/-- The payload of an element, read into a fresh value (types/portal/query.pb.go:1745-1746,
types/vaults/query.pb.go:1375-1378, types/v2/query.pb.go:1663-1666). -/
def parseElem (T : IntText) (e : Elem) (p : Bytes) : PRes EVal :=
  match e with
  | .bytes => .ok (.bs p)
  | .msg sch => do
    let m ← unmarshal T sch p
    .ok (.msg m)

/-- types/v2/query.pb.go:1609-1636 and types/portal/query.pb.go:1535-1548: the key of a map entry.  A number is or-ed
onto what was read before (the variable is not reset). -/
def readKey (kk : KeyKind) (b : Bytes) (old : FVal) (j : Int) : PRes (FVal × Int) :=
  match kk with
  | .str => do
    let (i, post) ← readLen b j
    let p ← sub b i post
    .ok (.bs p, post)
  | .u16 => do
    let (acc, j) ← readVarint b j
    .ok (.num ((old.getNum.toNat ||| acc % 2 ^ 32 : Nat) : Int), j)

/-- The key under which the entry is stored (types/portal/query.pb.go:1595, `uint16(mapkey)`). -/
def KeyKind.final : KeyKind → FVal → FVal
  | .str, v => v
  | .u16, v => .num ((v.getNum.toNat % 2 ^ 16 : Nat) : Int)

/-- The variables a map entry is read into, before it is read (types/v2/query.pb.go:1588-1589,
types/portal/query.pb.go:1514-1515). -/
def KeyKind.zero : KeyKind → FVal
  | .str => .bs []
  | .u16 => .num 0
/-- See `KeyKind.zero`. -/
def Elem.zero : Elem → EVal
  | .bytes => .bs []
  | .msg sch => .msg sch.zero

/-- types/v2/query.pb.go:1669-1680: skip an unknown field of a map entry that ends at `post`. -/
def skipEntry (b : Bytes) (i post : Int) : PRes Int := do
  let rest ← sub b i b.length
  let n ← skip rest
  if n < 0 ∨ wrap64 (i + n) < 0 then .err
  else if post < wrap64 (i + n) then .err
  else .ok (wrap64 (i + n))

/-- types/v2/query.pb.go:1590-1682: the loop over the fields of a map entry that ends at `post`.  Keys and values are
read from the whole message (only `l`, its end, is checked), wire types are ignored.  Running out of `fuel` counts
as a panic. -/
def readEntry (T : IntText) (kk : KeyKind) (e : Elem) (b : Bytes) (post : Int) :
    Nat → Int → FVal → EVal → PRes (FVal × EVal)
  | 0, _, _, _ => .panic
  | fuel + 1, i, key, val =>
    if i < post then do
      let (wire, j) ← readVarint b i
      if toInt32 (wire >>> 3) = 1 then do
        let (key, j) ← readKey kk b key j
        readEntry T kk e b post fuel j key val
      else if toInt32 (wire >>> 3) = 2 then do
        let (s, t) ← readLen b j
        let p ← sub b s t
        let v ← parseElem T e p
        readEntry T kk e b post fuel t key v
      else do
        let j ← skipEntry b i post
        readEntry T kk e b post fuel j key val
    else .ok (key, val)

/-- `m[k] = v` (types/v2/query.pb.go:1683): the entry of the key is replaced. -/
def mapPut (l : List (FVal × EVal)) (k : FVal) (v : EVal) : List (FVal × EVal) :=
  l.filter (fun e => decide (e.1 ≠ k)) ++ [(k, v)]

/-- One field of a known number and kind whose tag ends at `j`: a scalar (types/v2/query.pb.go:1470-1555), an element
that is appended (types/vaults/query.pb.go:1346-1380), a map entry (types/v2/query.pb.go:1556-1684). -/
def readField2 (T : IntText) (b : Bytes) (k : Kind2) (old : FVal2) (j : Int) : PRes (FVal2 × Int) :=
  match k with
  | .one k => do
    let (v, j) ← readField (parsePayload T) b k old.getOne j
    .ok (.one v, j)
  | .rep e => do
    let (s, t) ← readLen b j
    let p ← sub b s t
    let v ← parseElem T e p
    .ok (.rep (old.getRep ++ [v]), t)
  | .map kk e => do
    let (s, t) ← readLen b j
    let (key, v) ← readEntry T kk e b t (b.length + 1) s kk.zero e.zero
    .ok (.map (mapPut old.getMap (kk.final key) v), t)

/-- types/v2/query.pb.go:1440-1705, `Unmarshal`: the loop over the fields. -/
def unmarshalLoop2 (T : IntText) (sch : Schema2) (b : Bytes) : Nat → Int → Fields2 → PRes Fields2
  | 0, _, _ => .panic
  | fuel + 1, i, m =>
    if (b.length : Int) ≤ i then if (b.length : Int) < i then .err else .ok m
    else do
      let (wire, j) ← readVarint b i
      if wire &&& 7 = 4 then .err
      else if toInt32 (wire >>> 3) ≤ 0 then .err
      else match sch.kind (toInt32 (wire >>> 3)) with
        | none => do
          let j ← skipField b i
          unmarshalLoop2 T sch b fuel j m
        | some k =>
          if wire &&& 7 ≠ k.wire then .err
          else do
            let (v, j) ← readField2 T b k (m (toInt32 (wire >>> 3)).toNat) j
            unmarshalLoop2 T sch b fuel j fun n => if n = (toInt32 (wire >>> 3)).toNat then v else m n

/-- `Unmarshal` of a message into its zero value. -/
def unmarshal2 (T : IntText) (sch : Schema2) (b : Bytes) : PRes Fields2 :=
  unmarshalLoop2 T sch b (b.length + 1) 0 sch.zero

/-! ### Marshal -/

/-- The bytes of an element. -/
def elemBytes : Elem → EVal → Bytes
  | .bytes, v => v.getBytes
  | .msg sch, v => marshal sch v.getMsg

/-- The key of a map entry; it is always written (types/v2/query.pb.go:875-879, types/portal/query.pb.go:895-897). -/
def keyBytes : FVal → Bytes
  | .num x => tag 1 0 ++ varint (toUint64 x)
  | v => marshalLen 1 v.getBytes

/-- A map entry (types/v2/query.pb.go:861-883): key, value. -/
def entryBytes (e : Elem) (p : FVal × EVal) : Bytes := keyBytes p.1 ++ marshalLen 2 (elemBytes e p.2)

/-- One field: scalars as in Model/Proto; the elements of a slice in order (types/vaults/query.pb.go:802-815,
types/portal/query.pb.go:953-961); the entries of a map, in an order the Go runtime chooses
(types/v2/query.pb.go:861-883). -/
def marshalField2 (n : Nat) (k : Kind2) (v : FVal2) : Bytes :=
  match k with
  | .one _ => marshalField n v.getOne
  | .rep e => v.getRep.flatMap fun x => marshalLen n (elemBytes e x)
  | .map _ e => v.getMap.flatMap fun x => marshalLen n (entryBytes e x)

/-- `Marshal` (types/v2/query.pb.go:841-911). -/
def marshal2 (sch : Schema2) (m : Fields2) : Bytes := sch.flatMap fun e => marshalField2 e.1 e.2 (m e.1)

/-- The size of an element (types/v2/query.pb.go:1261-1274). -/
def sizeElem : Elem → EVal → Nat
  | .bytes, v => v.getBytes.length
  | .msg sch, v => size sch v.getMsg

/-- The size of a key without its tag. -/
def sizeKey : FVal → Nat
  | .num x => sov (toUint64 x)
  | v => v.getBytes.length + sov v.getBytes.length

/-- `mapEntrySize` (types/v2/query.pb.go:1254, types/portal/query.pb.go:1090). -/
def sizeEntry (e : Elem) (p : FVal × EVal) : Nat :=
  1 + sizeKey p.1 + 1 + sizeElem e p.2 + sov (sizeElem e p.2)

/-- The size of one field (types/v2/query.pb.go:1236-1259, types/vaults/query.pb.go:1113-1127). -/
def sizeField2 (k : Kind2) (v : FVal2) : Nat :=
  match k with
  | .one _ => sizeField v.getOne
  | .rep e => (v.getRep.map fun x => 1 + sizeElem e x + sov (sizeElem e x)).sum
  | .map _ e => (v.getMap.map fun x => sizeEntry e x + 1 + sov (sizeEntry e x)).sum

/-- `Size` (types/v2/query.pb.go:1236-1259). -/
def size2 (sch : Schema2) (m : Fields2) : Nat := (sch.map fun e => sizeField2 e.2 (m e.1)).sum

/-! ### The answers -/

/-- `vaults.PositionEntry` (types/vaults/vaults.pb.go:583-635). -/
def posEntrySchema : Schema := [(1, .bytes), (2, .i32), (3, .int), (4, .i64), (5, .int), (6, .time)]
/-- `vaults.PositionRewards` (types/vaults/vaults.pb.go:540-566). -/
def posRewardsSchema : Schema := [(1, .int), (2, .int)]
/-- `v2.QueryStatsResponse_ExternalYield` (types/v2/query.pb.go:928-953). -/
def extYieldSchema : Schema := [(1, .bytes), (2, .int)]

/-- `vaults.QueryPositionsByProviderResponse` (types/vaults/query.pb.go:797-817). -/
def positionsSchema : Schema2 := [(1, .rep (.msg posEntrySchema))]
/-- `vaults.QueryPendingRewardsByProviderResponse` (types/vaults/query.pb.go:971-1003). -/
def pendingSchema : Schema2 := [(1, .one .int), (2, .rep (.msg posRewardsSchema))]
/-- `portal.QueryDestinationTokensResponse` (types/portal/query.pb.go:948-963); the field has number 2. -/
def tokensSchema : Schema2 := [(2, .rep .bytes)]
/-- `portal.QueryPeersResponse` (types/portal/query.pb.go:875-903). -/
def peersSchema : Schema2 := [(1, .map .u16 (.msg peerSchema))]
/-- `v2.QueryYieldRecipientsResponse` (types/v2/query.pb.go:991-1015) and `v2.QueryRetryAmountsResponse`
(lines 1121-1145). -/
def stringMapSchema : Schema2 := [(1, .map .str .bytes)]
/-- `v2.QueryStatsResponse` (types/v2/query.pb.go:856-911). -/
def statsV2Schema : Schema2 :=
  [(1, .one .u64), (2, .one .int), (3, .one .int), (4, .map .str (.msg extYieldSchema))]

/-- The fields of a list of values, numbered from one. -/
def Fields2.ofList (l : List FVal2) : Fields2 := fun n =>
  match n with
  | 0 => .one (.num 0)
  | n + 1 => (l[n]?).getD (.one (.num 0))

/-- The fields of the answer of `PositionsByProvider` (types/vaults/query.pb.go:797-817). -/
def positionsFields (l : List (PosEntry × Int)) : Fields2 :=
  Fields2.ofList [.rep (l.map fun p => .msg (Fields.ofList
    [.bs p.1.address, .num p.1.vault, .int (some p.1.principal), .num p.1.index, .int (some p.1.amount),
      .time p.1.time p.2]))]
/-- Encoding of the answer of `PositionsByProvider` (types/vaults/query.pb.go:797-817); the times are whole seconds and nanoseconds. -/
def encPositions (l : List (PosEntry × Int)) : Bytes := marshal2 positionsSchema (positionsFields l)
/-- Decoding of it (types/vaults/query.pb.go:1317-1401). -/
def decPositions (T : IntText) (b : Bytes) : PRes (List PosEntry) := do
  let m ← unmarshal2 T positionsSchema b
  .ok ((m 1).getRep.map fun v => ⟨(v.getMsg 1).getBytes, (v.getMsg 2).getNum, (v.getMsg 3).getInt,
    (v.getMsg 4).getNum, (v.getMsg 5).getInt, (v.getMsg 6).getSec⟩)

/-- The fields of the answer of `PendingRewardsByProvider` (types/vaults/query.pb.go:971-1003). -/
def pendingFields (total : Int) (l : List (Int × Int)) : Fields2 :=
  Fields2.ofList [.one (.int (some total)),
    .rep (l.map fun p => .msg (Fields.ofList [.int (some p.1), .int (some p.2)]))]
/-- Encoding of the answer of `PendingRewardsByProvider` (types/vaults/query.pb.go:971-1003): the total, amounts and rewards. -/
def encPending (total : Int) (l : List (Int × Int)) : Bytes := marshal2 pendingSchema (pendingFields total l)
/-- Decoding of it (types/vaults/query.pb.go:1736-1853). -/
def decPending (T : IntText) (b : Bytes) : PRes (Int × List (Int × Int)) := do
  let m ← unmarshal2 T pendingSchema b
  .ok ((m 1).getOne.getInt, (m 2).getRep.map fun v => ((v.getMsg 1).getInt, (v.getMsg 2).getInt))

/-- The fields of the answer of `DestinationTokens` (types/portal/query.pb.go:948-963). -/
def tokensFields (l : List Bytes) : Fields2 :=
  Fields2.ofList [.one (.num 0), .rep (l.map .bs)]
/-- Encoding of the answer of `DestinationTokens` (types/portal/query.pb.go:948-963). -/
def encTokens (l : List Bytes) : Bytes := marshal2 tokensSchema (tokensFields l)
/-- Decoding of it (types/portal/query.pb.go:1687-1768). -/
def decTokens (T : IntText) (b : Bytes) : PRes (List Bytes) := do
  let m ← unmarshal2 T tokensSchema b
  .ok ((m 2).getRep.map EVal.getBytes)

/-- The fields of the answer of `Peers` (types/portal/query.pb.go:875-903). -/
def peersFields (l : List (Nat × Peer)) : Fields2 :=
  Fields2.ofList [.map (l.map fun p =>
    (.num p.1, .msg (Fields.ofList [.bs p.2.transceiver, .bs p.2.manager])))]
/-- Encoding of the answer of `Peers` (types/portal/query.pb.go:875-903); the list is the map in the order a loop meets its entries. -/
def encPeers (l : List (Nat × Peer)) : Bytes := marshal2 peersSchema (peersFields l)
/-- Decoding of it (types/portal/query.pb.go:1453-1617). -/
def decPeers (T : IntText) (b : Bytes) : PRes (List (Nat × Peer)) := do
  let m ← unmarshal2 T peersSchema b
  .ok ((m 1).getMap.map fun p => (p.1.getNum.toNat, ⟨(p.2.getMsg 1).getBytes, (p.2.getMsg 2).getBytes⟩))

/-- The fields of the answers of `YieldRecipients` and `RetryAmounts` (types/v2/query.pb.go:991-1015, 1121-1145). -/
def stringMapFields (l : List (Bytes × Bytes)) : Fields2 :=
  Fields2.ofList [.map (l.map fun p => (.bs p.1, .bs p.2))]
/-- Encoding of the answers of `YieldRecipients` and `RetryAmounts` (types/v2/query.pb.go:991-1015, 1121-1145); the list is the map in the order a loop meets
its entries. -/
def encStringMap (l : List (Bytes × Bytes)) : Bytes := marshal2 stringMapSchema (stringMapFields l)
/-- Decoding of them (types/v2/query.pb.go:1872-2048, 2282-2458). -/
def decStringMap (T : IntText) (b : Bytes) : PRes (List (Bytes × Bytes)) := do
  let m ← unmarshal2 T stringMapSchema b
  .ok ((m 1).getMap.map fun p => (p.1.getBytes, p.2.getBytes))

/-- The fields of the answer of `Stats` (types/v2/query.pb.go:856-911). -/
def statsV2Fields (holders : Nat) (principal yield : Int) (l : List (Bytes × Bytes × Int)) : Fields2 :=
  Fields2.ofList [.one (.num holders), .one (.int (some principal)),
    .one (.int (some yield)), .map (l.map fun p => (.bs p.1, .msg (Fields.ofList [.bs p.2.1, .int (some p.2.2)])))]
/-- Encoding of the answer of `Stats` (types/v2/query.pb.go:856-911): holders, principal, yield and, by key, chain id and amount. -/
def encStatsV2 (holders : Nat) (principal yield : Int) (l : List (Bytes × Bytes × Int)) : Bytes := marshal2 statsV2Schema (statsV2Fields holders principal yield l)
/-- Decoding of it (types/v2/query.pb.go:1440-1705). -/
def decStatsV2 (T : IntText) (b : Bytes) : PRes (Nat × Int × Int × List (Bytes × Bytes × Int)) := do
  let m ← unmarshal2 T statsV2Schema b
  .ok ((m 1).getOne.getNum.toNat, (m 2).getOne.getInt, (m 3).getOne.getInt,
    (m 4).getMap.map fun p => (p.1.getBytes, (p.2.getMsg 1).getBytes, (p.2.getMsg 2).getInt))

end Dollar.Proto
