import Verif.Model.Types

/-
The address codec that the module is built with (module.go:386, `address.Codec`; the SDK's `Bech32Codec`): cosmos/btcutil's
bech32 and the SDK's `ConvertAndEncode`, `DecodeAndConvert`, `StringToBytes` and `BytesToString`.  The rest of the model
takes `Cfg.encode` and `Cfg.decode` as given and assumes of them what `Cfg.WF` says (keeper/msg_server.go:75-80,
keeper/msg_server_portal.go:59-63, genesis.go:51-66 and every other place where a signer or an account is a string).
-/
namespace Dollar.Bech32

/-- btcutil/bech32 `charset`. -/
def charset : List Char := "qpzry9x8gf2tvdw0s3jn54khce6mua7l".toList

/-- btcutil/bech32 `gen`. -/
def gen : List Nat := [0x3b6a57b2, 0x26508e6d, 0x1ea119fa, 0x3d4233dd, 0x2a1462b3]

/-- The terms that `bech32Polymod` adds for the five bits that leave the register. -/
def feedback (b : Nat) : List Nat → Nat → Nat
  | [], _ => 0
  | g :: t, i => (if b.testBit i then g else 0) ^^^ feedback b t (i + 1)

/-- The body of the loop of `bech32Polymod`. -/
def polyStep (c v : Nat) : Nat := ((c % 2 ^ 25) * 32 ^^^ v) ^^^ feedback (c / 2 ^ 25) gen 0

/-- btcutil/bech32 `bech32Polymod`. -/
def polymod (l : List Nat) : Nat := l.foldl polyStep 1

/-- btcutil/bech32 `bech32HrpExpand`. -/
def hrpExpand (hrp : List Char) : List Nat := hrp.map (fun c => c.toNat / 32) ++ 0 :: hrp.map (fun c => c.toNat % 32)

/-- Six groups of five bits, the highest first. -/
def sixGroups (n : Nat) : List Nat :=
  [n / 2 ^ 25 % 32, n / 2 ^ 20 % 32, n / 2 ^ 15 % 32, n / 2 ^ 10 % 32, n / 2 ^ 5 % 32, n % 32]

/-- btcutil/bech32 `bech32Checksum`. -/
def checksum (hrp : List Char) (data : List Nat) : List Nat :=
  sixGroups (polymod (hrpExpand hrp ++ data ++ [0, 0, 0, 0, 0, 0]) ^^^ 1)

/-- btcutil/bech32 `bech32VerifyChecksum`. -/
def verified (hrp : List Char) (data : List Nat) : Bool := polymod (hrpExpand hrp ++ data) = 1

/-- btcutil/bech32 `Encode`: the text of groups of five bits. -/
def encode5 (hrp : List Char) (data : List Nat) : List Char :=
  hrp ++ '1' :: (data ++ checksum hrp data).map fun d => charset.getD d 'q'

/-- What is before and after the last `1` (`strings.LastIndexByte`). -/
def splitLast (l : List Char) : Option (List Char × List Char) :=
  match l.reverse.dropWhile (· ≠ '1') with
  | [] => none
  | _ :: h => some (h.reverse, (l.reverse.takeWhile (· ≠ '1')).reverse)

/-- btcutil/bech32 `toBytes`, one character. -/
def groupOf (c : Char) : Option Nat := charset.idxOf? c

/-- btcutil/bech32 `Decode` with the limit 1023 of the SDK (`strings.ToLower` and `ToUpper` see ASCII characters
only). -/
def decode5 (l : List Char) : Option (List Char × List Nat) :=
  if l.length < 8 ∨ 1023 < l.length then none
  else if l.any (fun c => c.toNat < 33 || 126 < c.toNat) then none
  else if l ≠ l.map Char.toLower ∧ l ≠ l.map Char.toUpper then none
  else
    match splitLast (l.map Char.toLower) with
    | none => none
    | some (hrp, text) =>
      if hrp = [] ∨ text.length < 6 then none
      else
        match text.mapM groupOf with
        | none => none
        | some data => if verified hrp data then some (hrp, data.take (data.length - 6)) else none

/-- The lowest `k` bits of a number, the highest first. -/
def bits : Nat → Nat → List Bool
  | 0, _ => []
  | k + 1, n => bits k (n / 2) ++ [decide (n % 2 = 1)]

/-- The number of a list of bits. -/
def ofBits (l : List Bool) : Nat := l.foldl (fun n b => 2 * n + (if b then 1 else 0)) 0

/-- The full groups of `k` bits, and the bits that are left. -/
def groups (k : Nat) : Nat → List Bool → List (List Bool) × List Bool
  | 0, l => ([], l)
  | n + 1, l =>
    if k ≤ l.length then
      let r := groups k n (l.drop k)
      (l.take k :: r.1, r.2)
    else ([], l)

/-- btcutil/bech32 `ConvertBits(data, 8, 5, true)`.
Simplification: the bits are laid out in a list and cut, where the code shifts them through a byte. -/
def to5 (b : Bytes) : List Nat :=
  let l := b.flatMap fun x => bits 8 x.toNat
  let g := groups 5 l.length l
  g.1.map ofBits ++ (if g.2 = [] then [] else [ofBits (g.2 ++ List.replicate (5 - g.2.length) false)])

/-- btcutil/bech32 `ConvertBits(data, 5, 8, false)`: what is left over must be at most four bits, all zero. -/
def to8 (d : List Nat) : Option Bytes :=
  let l := d.flatMap (bits 5)
  let g := groups 8 l.length l
  if 4 < g.2.length ∨ g.2.any id then none else some (g.1.map fun x => UInt8.ofNat (ofBits x))

/-- `Bech32Codec.BytesToString`. -/
def encode (pre : String) (a : Addr) : String := String.ofList (encode5 pre.toList (to5 a))

/-- `Bech32Codec.StringToBytes`: the prefix must be that of the chain and the address has 1 to 255 bytes
(`VerifyAddressFormat`). -/
def decode (pre : String) (s : String) : Option Addr :=
  match decode5 s.toList with
  | none => none
  | some (hrp, data) =>
    match to8 data with
    | none => none
    | some a => if hrp = pre.toList ∧ 1 ≤ a.length ∧ a.length ≤ 255 then some a else none

end Dollar.Bech32
