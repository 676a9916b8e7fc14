import Verif.Model.Types
import Verif.Model.Store

/-
The protobuf code that gogoproto generated into the repository (types/dollar.pb.go, types/tx.pb.go,
types/v2/*.pb.go, types/vaults/*.pb.go, types/portal/*.pb.go): `Marshal`, `Size`, `Unmarshal` and the
`skip` functions.  All of it is generated from one template; the template is modelled once, with the
field numbers and kinds of a message as a parameter (`Schema`), and the schemas of the stored values and
of the messages follow.

Indices are Go `int`s (64 bits, wrapping).  A byte string of Lean stands for a Go slice whose capacity is its
length, so that any read past the length is a panic here.
-/
namespace Dollar.Proto

/-- A Go `int` after an addition (types/vaults/vaults.pb.go:888, 929): 64 bits, wrapping. -/
def wrap64 (x : Int) : Int := toInt64 (toUint64 x)

/-- `int32(u)` (types/vaults/vaults.pb.go:830). -/
def toInt32 (n : Nat) : Int := if n % 2 ^ 32 < 2 ^ 31 then ((n % 2 ^ 32 : Nat) : Int) else ((n % 2 ^ 32 : Nat) : Int) - 2 ^ 32

/-- `dAtA[i]` (types/vaults/vaults.pb.go:823): a panic outside the slice. -/
def byteAt (b : Bytes) (i : Int) : PRes UInt8 :=
  if i < 0 then .panic
  else match b[i.toNat]? with
    | some x => .ok x
    | none => .panic

/-- `dAtA[i:j]` (types/vaults/vaults.pb.go:895): a panic outside the slice. -/
def sub (b : Bytes) (i j : Int) : PRes Bytes :=
  if 0 ≤ i ∧ i ≤ j ∧ j ≤ b.length then .ok ((b.drop i.toNat).take (j - i).toNat) else .panic

/-! ### Varints -/

/-- types/vaults/vaults.pb.go:699-708, `encodeVarintVaults`: seven bits a byte, low bits first.  (`n` bounds
the number of continuation bytes; nine suffice for 64 bits.) -/
def varintN : Nat → Nat → Bytes
  | 0, v => [UInt8.ofNat v]
  | n + 1, v => if 128 ≤ v then UInt8.ofNat (v % 128 + 128) :: varintN n (v / 128) else [UInt8.ofNat v]

/-- types/vaults/vaults.pb.go:699-708. -/
def varint (v : Nat) : Bytes := varintN 9 v

/-- types/vaults/vaults.pb.go:803-805, `sovVaults`: `(bits.Len64(x|1) + 6) / 7`. -/
def sov (v : Nat) : Nat := ((v ||| 1).log2 + 1 + 6) / 7

/-- types/vaults/vaults.pb.go:815-829: the loop that reads a varint at `i`; `n` rounds are left (the shift
reaches 64 after ten), `acc` holds what was read. -/
def readLoop (b : Bytes) : Nat → Nat → Int → Nat → PRes (Nat × Int)
  | 0, _, _, _ => .err
  | n + 1, shift, i, acc =>
    if (b.length : Int) ≤ i then .err
    else do
      let x ← byteAt b i
      let acc := acc ||| ((x.toNat &&& 0x7f) <<< shift) % 2 ^ 64
      if x.toNat < 0x80 then .ok (acc, i + 1) else readLoop b n (shift + 7) (i + 1) acc

/-- types/vaults/vaults.pb.go:815-829: read a varint at `i`; the value and the index behind it. -/
def readVarint (b : Bytes) (i : Int) : PRes (Nat × Int) := readLoop b 10 0 i 0

/-! ### Skipping unknown fields -/

/-- types/vaults/vaults.pb.go:1665-1731: the index after the field body at `j` of the given wire type, and the
depth of groups. -/
def skipBody (b : Bytes) (wt : Nat) (j : Int) (depth : Nat) : PRes (Int × Nat) :=
  match wt with
  | 0 => do
    let (_, j) ← readVarint b j
    .ok (j, depth)
  | 1 => .ok (wrap64 (j + 8), depth)
  | 2 => do
    let (len, j) ← readVarint b j
    if toInt64 len < 0 then .err else .ok (wrap64 (j + toInt64 len), depth)
  | 3 => .ok (j, depth + 1)
  | 4 => if depth = 0 then .err else .ok (j, depth - 1)
  | 5 => .ok (wrap64 (j + 4), depth)
  | _ => .err

/-- types/vaults/vaults.pb.go:1647-1736, `skipVaults`; `fuel` bounds the rounds of the loop, running out of it
counts as a panic (C74 shows that it does not happen). -/
def skipLoop (b : Bytes) : Nat → Int → Nat → PRes Int
  | 0, _, _ => .panic
  | fuel + 1, i, depth =>
    if (b.length : Int) ≤ i then .err
    else do
      let (wire, j) ← readVarint b i
      let (j, depth) ← skipBody b (wire &&& 7) j depth
      if j < 0 then .err else if depth = 0 then .ok j else skipLoop b fuel j depth

/-- types/vaults/vaults.pb.go:1647-1736. -/
def skip (b : Bytes) : PRes Int := skipLoop b (b.length + 1) 0 0

/-! ### Fields -/

/-- The Go types of fields: `uint64`, `uint16` (cast from a 32-bit field), `int64`, `int32` (enumerations),
`bool`, `string` or `[]byte`, `math.Int`, `time.Time`. -/
inductive Kind
  | u64 | u16 | i64 | i32 | bool | bytes | int | time
  deriving DecidableEq, Repr

/-- The wire type a field is written with (types/vaults/vaults.pb.go:841, 860). -/
def Kind.wire : Kind → Nat
  | .u64 | .u16 | .i64 | .i32 | .bool => 0
  | .bytes | .int | .time => 2

/-- The value of a field.  `none` is the nil `math.Int`. -/
inductive FVal
  | num (n : Int)
  | bs (b : Bytes)
  | int (x : Option Int)
  | time (sec nanos : Int)
  deriving DecidableEq, Repr

/-- Field numbers and kinds of a message. -/
abbrev Schema := List (Nat × Kind)

/-- A message: the values of its fields by number. -/
abbrev Fields := Nat → FVal

/-- The zero value of a kind; of `time.Time` it is the first second of year one. -/
def Kind.zero : Kind → FVal
  | .u64 | .u16 | .i64 | .i32 | .bool => .num 0
  | .bytes => .bs []
  | .int => .int none
  | .time => .time (-62135596800) 0

/-- Kind of a field number. -/
def Schema.kind (sch : Schema) (n : Int) : Option Kind :=
  (sch.find? fun e => decide ((e.1 : Int) = n)).map Prod.snd

/-- The zero value of a message. -/
def Schema.zero (sch : Schema) : Fields := fun n =>
  match sch.kind n with
  | some k => k.zero
  | none => .num 0

/-- Conversion of the varint that was read to the type of the field: the loop adds the shifted bits
with that type (types/vaults/vaults.pb.go:854, types/portal/tx.pb.go:1714, types/tx.pb.go:726). -/
def Kind.conv : Kind → Nat → Int
  | .u16, acc => ((acc % 2 ^ 16 : Nat) : Int)
  | .i64, acc => toInt64 acc
  | .i32, acc => toInt32 acc
  | .bool, acc => if acc = 0 then 0 else 1
  | _, acc => acc

/-- Digits of a natural number, most significant first (`fuel` of them at most). -/
def digits : Nat → Nat → Bytes
  | 0, n => [UInt8.ofNat (48 + n % 10)]
  | fuel + 1, n => if n < 10 then [UInt8.ofNat (48 + n)] else digits fuel (n / 10) ++ [UInt8.ofNat (48 + n % 10)]

/-- `math.Int.Marshal` (types/vaults/vaults.pb.go:440-446 calls it): decimal text. -/
def decText (x : Int) : Bytes :=
  if x < 0 then 45 :: digits x.natAbs x.natAbs else digits x.natAbs x.natAbs

/-- `big.Int.UnmarshalText`: any parser that reads decimal text back (the one of Go, which also accepts other
bases and underscores, is `GoInt.goText`). -/
structure IntText where
  read : Bytes → Option Int
  read_dec : ∀ x, read (decText x) = some x

/-- The bounds of a protobuf timestamp (gogoproto `validateTimestamp`). -/
def timeOk (sec nanos : Int) : Bool :=
  decide (-62135596800 ≤ sec ∧ sec < 253402300800 ∧ 0 ≤ nanos ∧ nanos < 1000000000)

/-- The message `google.protobuf.Timestamp`. -/
def timestampSchema : Schema := [(1, .i64), (2, .i32)]

/-! ### Unmarshal -/

/-- One field of a known number and kind whose tag ends at `j` (types/vaults/vaults.pb.go:839-899), where
`parse` reads the payload of a length-delimited field. -/
def readField (parse : Kind → Bytes → FVal → PRes FVal) (b : Bytes) (k : Kind) (old : FVal) (j : Int) :
    PRes (FVal × Int) :=
  if k.wire = 0 then do
    let (acc, j) ← readVarint b j
    .ok (.num (k.conv acc), j)
  else do
    let (len, j) ← readVarint b j
    if toInt64 len < 0 then .err
    else if wrap64 (j + toInt64 len) < 0 then .err
    else if (b.length : Int) < wrap64 (j + toInt64 len) then .err
    else do
      let payload ← sub b j (wrap64 (j + toInt64 len))
      let v ← parse k payload old
      .ok (v, wrap64 (j + toInt64 len))

/-- types/vaults/vaults.pb.go:932-944: skip an unknown field that starts at `i`. -/
def skipField (b : Bytes) (i : Int) : PRes Int := do
  let rest ← sub b i b.length
  let n ← skip rest
  if n < 0 ∨ wrap64 (i + n) < 0 then .err
  else if (b.length : Int) < wrap64 (i + n) then .err
  else .ok (wrap64 (i + n))

/-- types/vaults/vaults.pb.go:809-944, `Unmarshal`: the loop over the fields.  Running out of `fuel` counts as a
panic (C74 shows that it does not happen). -/
def unmarshalLoop (parse : Kind → Bytes → FVal → PRes FVal) (sch : Schema) (b : Bytes) :
    Nat → Int → Fields → PRes Fields
  | 0, _, _ => .panic
  | fuel + 1, i, m =>
    if (b.length : Int) ≤ i then if (b.length : Int) < i then .err else .ok m
    else do
      let (wire, j) ← readVarint b i
      if wire &&& 7 = 4 then .err
      else if toInt32 (wire >>> 3) ≤ 0 then .err
      else match sch.kind (toInt32 (wire >>> 3)) with
        | none => do
          let j ← skipField b i
          unmarshalLoop parse sch b fuel j m
        | some k =>
          if wire &&& 7 ≠ k.wire then .err
          else do
            let (v, j) ← readField parse b k (m (toInt32 (wire >>> 3)).toNat) j
            unmarshalLoop parse sch b fuel j fun n => if n = (toInt32 (wire >>> 3)).toNat then v else m n

/-- `Timestamp.Unmarshal` has fields of wire type 0 only. -/
def noParse (_ : Kind) (_ : Bytes) (_ : FVal) : PRes FVal := .err

/-- The seconds or nanoseconds of a timestamp message. -/
def FVal.getNum : FVal → Int
  | .num n => n
  | _ => 0

/-- gogoproto `StdTimeUnmarshal` (types/vaults/vaults.pb.go:1091): read a timestamp message, check its bounds. -/
def readTime (b : Bytes) : PRes FVal := do
  let m ← unmarshalLoop noParse timestampSchema b (b.length + 1) 0 timestampSchema.zero
  if timeOk (m 1).getNum (m 2).getNum then .ok (.time (m 1).getNum (m 2).getNum) else .err

/-- The payload of a length-delimited field: bytes are copied, a `math.Int` is parsed (empty text leaves the
old value, more than 256 bits are an error), a time is read as a message
(types/vaults/vaults.pb.go:895, 1091, types/portal/tx.pb.go:1540-1545). -/
def parsePayload (T : IntText) (k : Kind) (b : Bytes) (old : FVal) : PRes FVal :=
  match k with
  | .bytes => .ok (.bs b)
  | .int =>
    if b = [] then .ok old
    else match T.read b with
      | none => .err
      | some x => if x.natAbs < 2 ^ 256 then .ok (.int (some x)) else .err
  | .time => readTime b
  | _ => .err

/-- `Unmarshal` of a message (types/vaults/vaults.pb.go:809-944) into its zero value. -/
def unmarshal (T : IntText) (sch : Schema) (b : Bytes) : PRes Fields :=
  unmarshalLoop (parsePayload T) sch b (b.length + 1) 0 sch.zero

/-! ### Marshal -/

/-- The tag of a field (types/vaults/vaults.pb.go:449, 459, 463). -/
def tag (n wt : Nat) : Bytes := varint (n * 8 + wt)

/-- A varint field, left out when zero (types/vaults/vaults.pb.go:460-464). -/
def marshalNum (n : Nat) (x : Int) : Bytes := if x = 0 then [] else tag n 0 ++ varint (toUint64 x)

/-- A length-delimited field. -/
def marshalLen (n : Nat) (b : Bytes) : Bytes := tag n 2 ++ (varint b.length ++ b)

/-- gogoproto `StdTimeMarshalTo` (types/vaults/vaults.pb.go:489).  (Outside the bounds of `timeOk` the code returns an
error; the theorems assume the bounds.) -/
def marshalTime (sec nanos : Int) : Bytes := marshalNum 1 sec ++ marshalNum 2 nanos

/-- One field (types/vaults/vaults.pb.go:436-466, 484-528, types/portal/tx.pb.go:908-948): bytes are left out
when empty; `math.Int` (nil counts as zero) and times are always written. -/
def marshalField (n : Nat) : FVal → Bytes
  | .num x => marshalNum n x
  | .bs b => if b = [] then [] else marshalLen n b
  | .int x => marshalLen n (decText (x.getD 0))
  | .time s ns => marshalLen n (marshalTime s ns)

/-- `Marshal` (types/vaults/vaults.pb.go:421-466): the fields in the order of their numbers.  The code fills a
buffer of `Size()` bytes from the back; C73 shows that `Size()` is the length of this list. -/
def marshal (sch : Schema) (m : Fields) : Bytes := sch.flatMap fun e => marshalField e.1 (m e.1)

/-- The size of one field (types/vaults/vaults.pb.go:710-742). -/
def sizeField : FVal → Nat
  | .num x => if x = 0 then 0 else 1 + sov (toUint64 x)
  | .bs b => if b = [] then 0 else 1 + b.length + sov b.length
  | .int x => 1 + (decText (x.getD 0)).length + sov (decText (x.getD 0)).length
  | .time s ns => 1 + (marshalTime s ns).length + sov (marshalTime s ns).length

/-- types/vaults/vaults.pb.go:710-742, `Size`. -/
def size (sch : Schema) (m : Fields) : Nat := (sch.map fun e => sizeField (m e.1)).sum

end Dollar.Proto
