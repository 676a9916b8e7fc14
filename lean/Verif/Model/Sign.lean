import Verif.Model.GenesisJson
import Verif.Model.System

/-
What a hardware wallet signs (SIGN_MODE_LEGACY_AMINO_JSON): a JSON object with the registered name of the message and its fields.
The names are those of the `amino.name` options of proto/noble/dollar/**/tx.proto and of `RegisterLegacyAminoCodec`
(types/codec.go:33-41, types/v2/codec.go:30-32, types/vaults/codec.go:30-34, types/portal/codec.go:30-37).  Fields that are empty
are left out unless they carry `amino.dont_omitempty`; objects are sorted by name.  The rest of the sign document (fee, memo,
account, chain) belongs to the SDK and is not modelled.
-/
namespace Dollar.Json

/-- A text, left out if empty. -/
def sText (n : String) (s : String) : List (String × J) := if s = "" then [] else [(n, .ofString s)]
/-- Bytes in base64, left out if empty. -/
def sBytes (n : String) (b : Bytes) : List (String × J) := if b = [] then [] else [(n, .ofBytes b)]
/-- A number of 32 bits or an enumeration, left out if zero. -/
def sNum (n : String) (x : Int) : List (String × J) := if x = 0 then [] else [(n, .ofNum x)]
/-- A truth value, left out if false. -/
def sBool (n : String) (b : Bool) : List (String × J) := if b then [(n, .bool true)] else []
/-- An amount, written in quotes even if it is zero or missing (`amino.dont_omitempty`, scalar `cosmos.Int`). -/
def sAmount (n : String) (a : Option Int) : List (String × J) := [(n, .ofBig (a.getD 0))]

/-- The name and the fields of a message; `MsgDeliver` carries the address of whoever relays it.
proto/noble/dollar/v1/tx.proto:20-43, proto/noble/dollar/v2/tx.proto:20-31, proto/noble/dollar/vaults/v1/tx.proto:22-73,
proto/noble/dollar/portal/v1/tx.proto:27-126. -/
def signFields (relayer : String) : Msg → Option (String × List (String × J))
  | .claimYield s => some ("dollar/ClaimYield", sText "signer" s)
  | .setPaused s p => some ("dollar/SetPausedState", sText "signer" s ++ sBool "paused" p)
  | .setYieldRecipient s p i r => some ("dollar/SetYieldRecipient",
      sText "signer" s ++ sNum "provider" p ++ sText "identifier" i ++ sText "recipient" r)
  | .deliver vaa => some ("dollar/portal/Deliver", sText "signer" relayer ++ sBytes "vaa" vaa)
  | .transfer s a ch t r => some ("dollar/portal/Transfer",
      sText "signer" s ++ sAmount "amount" a ++ sNum "destination_chain_id" ch ++ sBytes "destination_token" t ++
        sBytes "recipient" r)
  | .portalSetPaused s p => some ("dollar/portal/SetPausedState", sText "signer" s ++ sBool "paused" p)
  | .setPeer s ch t m => some ("dollar/portal/SetPeer",
      sText "signer" s ++ sNum "chain" ch ++ sBytes "transceiver" t ++ sBytes "manager" m)
  | .setBridgingPath s ch t b => some ("dollar/portal/SetBridgingPath",
      sText "signer" s ++ sNum "destination_chain_id" ch ++ sBytes "destination_token" t ++ sBool "supported" b)
  | .transferOwnership s o => some ("dollar/portal/TransferOwnership", sText "signer" s ++ sText "new_owner" o)
  | .lock s v a => some ("dollar/vaults/Lock", sText "signer" s ++ sNum "vault" v ++ sAmount "amount" a)
  | .unlock s v a => some ("dollar/vaults/Unlock", sText "signer" s ++ sNum "vault" v ++ sAmount "amount" a)
  | .vaultsSetPaused s p => some ("dollar/vaults/SetPausedState", sText "signer" s ++ sNum "paused" p)
  | _ => none

/-- A message in a sign document. -/
def signJson (relayer : String) (m : Msg) : Option J :=
  (signFields relayer m).map fun x => .ofFields [("type", .ofString x.1), ("value", .ofFields (goMap x.2))]

/-- The messages of a sign document, as text. -/
def signText (l : List (String × Msg)) : Option (List Char) :=
  (l.mapM fun x => signJson x.1 x.2).map fun js => (J.arr js).text

end Dollar.Json
