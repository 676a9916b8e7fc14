import Verif.Model.IBC

/-
The bytes of an ICS-20 packet: ibc-go's `FungibleTokenPacketData.GetBytes` (sorted JSON without empty fields) and
the reading of them by `transfertypes.ModuleCdc.UnmarshalJSON` (isc4_wrapper.go:67, ibc_middleware.go:66).
The text is a sequence of Unicode characters; their UTF-8 encoding is left out.
-/
namespace Dollar
open MM

/-- `transfertypes.FungibleTokenPacketData` with its memo. -/
structure Packet extends PacketData where
  memo : String
  deriving DecidableEq, Repr

namespace Json

/-! ### Writing (encoding/json with HTML escaping, as `sdk.MustSortJSON` uses it) -/

/-- A lower-case hexadecimal digit. -/
def hexDigit (n : Nat) : Char := Char.ofNat (if n < 10 then 48 + n else 87 + n)

/-- Four hexadecimal digits. -/
def hex4 (n : Nat) : List Char :=
  [hexDigit (n / 4096 % 16), hexDigit (n / 256 % 16), hexDigit (n / 16 % 16), hexDigit (n % 16)]

/-- Characters written as `\uXXXX`: other control characters, `<`, `>`, `&`, U+2028 and U+2029. -/
def escaped (ch : Char) : Bool :=
  ch.toNat < 32 || ch = '<' || ch = '>' || ch = '&' || ch.toNat = 8232 || ch.toNat = 8233

/-- encoding/json `appendString`, one character. -/
def escape (ch : Char) : List Char :=
  if ch = '"' then ['\\', '"']
  else if ch = '\\' then ['\\', '\\']
  else if ch = '\n' then ['\\', 'n']
  else if ch = '\r' then ['\\', 'r']
  else if ch = '\t' then ['\\', 't']
  else if ch.toNat = 8 then ['\\', 'b']
  else if ch.toNat = 12 then ['\\', 'f']
  else if escaped ch then '\\' :: 'u' :: hex4 ch.toNat
  else [ch]

/-- A JSON string. -/
def quote (s : List Char) : List Char := '"' :: (s.flatMap escape ++ ['"'])

/-- One member of an object. -/
def member (e : String × String) : List Char := quote e.1.toList ++ ':' :: quote e.2.toList

/-- The members of an object, separated by commas. -/
def members : List (String × String) → List Char
  | [] => []
  | [e] => member e
  | e :: t => member e ++ ',' :: members t

/-- An object whose values are strings. -/
def object (fields : List (String × String)) : List Char := '{' :: (members fields ++ ['}'])

/-! ### Reading (encoding/json below gogoproto's jsonpb) -/

/-- A piece of a JSON string: a character as it stands, or a `\uXXXX` escape. -/
inductive Piece
  | lit (c : Char)
  | code (n : Nat)
  deriving DecidableEq, Repr

/-- The value of a hexadecimal digit. -/
def hexVal (c : Char) : Option Nat :=
  if 48 ≤ c.toNat ∧ c.toNat ≤ 57 then some (c.toNat - 48)
  else if 97 ≤ c.toNat ∧ c.toNat ≤ 102 then some (c.toNat - 87)
  else if 65 ≤ c.toNat ∧ c.toNat ≤ 70 then some (c.toNat - 55)
  else none

/-- The value of four hexadecimal digits. -/
def hexVal4 (a b c d : Char) : Option Nat := do
  let a ← hexVal a
  let b ← hexVal b
  let c ← hexVal c
  let d ← hexVal d
  pure (((a * 16 + b) * 16 + c) * 16 + d)

/-- The character of a short escape. -/
def short (c : Char) : Option Char :=
  if c = '"' then some '"' else if c = '\\' then some '\\' else if c = '/' then some '/'
  else if c = 'b' then some (Char.ofNat 8) else if c = 'f' then some (Char.ofNat 12)
  else if c = 'n' then some '\n' else if c = 'r' then some '\r' else if c = 't' then some '\t' else none

/-- One piece at the front of the text inside a string; `none` at its end or on an error. -/
def piece : List Char → Option (Piece × List Char)
  | [] => none
  | ch :: t =>
    if ch = '\\' then
      match t with
      | 'u' :: a :: b :: c :: d :: r => (hexVal4 a b c d).map fun n => (.code n, r)
      | e :: r => (short e).map fun x => (.lit x, r)
      | [] => none
    else if ch = '"' then none
    else if ch.toNat < 32 then none
    else some (.lit ch, t)

/-- The inside of a string up to its closing quote, and what follows it. -/
def inside : Nat → List Char → Option (List Piece × List Char)
  | 0, _ => none
  | _ + 1, [] => none
  | n + 1, ch :: t =>
    if ch = '"' then some ([], t)
    else match piece (ch :: t) with
      | none => none
      | some (p, r) => (inside n r).map fun x => (p :: x.1, x.2)

/-- `unicode/utf16.DecodeRune` and the replacement character for a lone surrogate. -/
def join : List Piece → List Char
  | [] => []
  | .lit c :: t => c :: join t
  | [.code n] => [if 55296 ≤ n ∧ n < 57344 then Char.ofNat 65533 else Char.ofNat n]
  | .code n :: .lit c :: t => (if 55296 ≤ n ∧ n < 57344 then Char.ofNat 65533 else Char.ofNat n) :: join (.lit c :: t)
  | .code n :: .code m :: t =>
    if 55296 ≤ n ∧ n < 56320 ∧ 56320 ≤ m ∧ m < 57344 then
      Char.ofNat (65536 + (n - 55296) * 1024 + (m - 56320)) :: join t
    else (if 55296 ≤ n ∧ n < 57344 then Char.ofNat 65533 else Char.ofNat n) :: join (.code m :: t)

/-- White space between tokens. -/
def skip : List Char → List Char
  | [] => []
  | c :: t => if c = ' ' ∨ c = '\n' ∨ c = '\r' ∨ c = '\t' then skip t else c :: t

/-- A string token. -/
def string (l : List Char) : Option (List Char × List Char) :=
  match l with
  | '"' :: t => (inside (t.length + 1) t).map fun x => (join x.1, x.2)
  | _ => none

/-- A value of a string field: a string, or `null` for the empty one.
Simplification: any other value is refused (jsonpb refuses it too). -/
def value (l : List Char) : Option (List Char × List Char) :=
  match l with
  | 'n' :: 'u' :: 'l' :: 'l' :: t => some ([], t)
  | l => string l

/-- The members of an object after its opening brace, one at least. -/
def readMembers : Nat → List Char → Option (List (List Char × List Char))
  | 0, _ => none
  | n + 1, l =>
    match string (skip l) with
    | none => none
    | some (k, r) =>
      match skip r with
      | ':' :: r =>
        match value (skip r) with
        | none => none
        | some (v, r) =>
          match skip r with
          | ',' :: r => (readMembers n r).map fun t => (k, v) :: t
          | '}' :: _ => some [(k, v)]
          | _ => none
      | _ => none

/-- An object with string values; what follows it is not read (`json.Decoder.Decode`). -/
def readObject (l : List Char) : Option (List (List Char × List Char)) :=
  match skip l with
  | '{' :: t =>
    match skip t with
    | '}' :: _ => some []
    | r => readMembers (r.length + 1) r
  | _ => none

end Json

/-- ibc-go `GetBytes`: fields in the order of their names, empty ones left out. -/
def Packet.text (p : Packet) : List Char :=
  Json.object ([("amount", p.amount), ("denom", p.denom), ("memo", p.memo), ("receiver", p.receiver),
    ("sender", p.sender)].filter fun e => e.2 ≠ "")

/-- jsonpb: one field of the packet; an unknown name is an error. -/
def Packet.assign (p : Packet) (name value : String) : Option Packet :=
  if name = "denom" then some { p with denom := value }
  else if name = "amount" then some { p with amount := value }
  else if name = "sender" then some { p with sender := value }
  else if name = "receiver" then some { p with receiver := value }
  else if name = "memo" then some { p with memo := value }
  else none

/-- All fields, a later one of the same name replacing an earlier one. -/
def Packet.assignAll (p : Packet) : List (List Char × List Char) → Option Packet
  | [] => some p
  | (k, v) :: t => (p.assign (String.ofList k) (String.ofList v)).bind fun q => q.assignAll t

/-- `ModuleCdc.UnmarshalJSON` into an empty packet (isc4_wrapper.go:67, ibc_middleware.go:66). -/
def Packet.read (l : List Char) : Option Packet :=
  (Json.readObject l).bind fun fields => Packet.assignAll ⟨⟨"", "", "", ""⟩, ""⟩ fields

/-- isc4_wrapper.go:65-80, `SendPacket` on the bytes of a packet. -/
def sendPacketText (c : Cfg) (channel : String) (data : List Char) (next : M Unit) : M Unit :=
  sendPacket c channel ((Packet.read data).map Packet.toPacketData) next

/-- ibc_middleware.go:64-87, `AddAmountToRetry` on the bytes of a packet. -/
def addAmountToRetryText (c : Cfg) (port channel : String) (data : List Char) : M Unit :=
  addAmountToRetry c port channel ((Packet.read data).map Packet.toPacketData)

end Dollar
