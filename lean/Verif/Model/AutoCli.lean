import Verif.Model.Cli
import Verif.Model.Rest
import Verif.Model.Wire
import Verif.Model.Events
import Verif.Lemmas.GoInt

/-
The generated command line: module.go:173-353, `AutoCLIOptions`, and how cosmossdk.io/client/v2 (v2.0.0-beta.8, autocli) turns
the words of a command into a message or a query.  autocli, cobra, pflag and strconv are modelled as known from their published
source (not available here, so unchecked).  Left out: options (words that begin with a dash; a line with one stands for no
command here), help and version commands, the signing and sending of the transaction, and the printing of answers.
-/
namespace Dollar.AutoCli
open Proto

/-- What the command line finds on the machine it runs on: readable files, the keys of the key ring by name, and the
address the transaction is signed with. -/
structure Machine where
  file : String → Option Bytes
  key : String → Option Addr
  sender : String

/-- `hex.DecodeString`. -/
def unhex : List Char → Option Bytes
  | [] => some []
  | [_] => none
  | a :: b :: t => do
    let x ← Json.hexVal a
    let y ← Json.hexVal b
    let r ← unhex t
    pure (UInt8.ofNat (x * 16 + y) :: r)

/-- client/v2/autocli/flag/binary.go, `parse`: the contents of the file of that name, else hexadecimal, else base64. -/
def readBytes (cl : Machine) (s : String) : Option Bytes :=
  match cl.file s with
  | some b => some b
  | none =>
    match unhex s.toList with
    | some b => some b
    | none => Json.unb64 s.toList

/-- `strconv.ParseBool`. -/
def readBool (s : String) : Option Bool :=
  if s ∈ ["1", "t", "T", "TRUE", "true", "True"] then some true
  else if s ∈ ["0", "f", "F", "FALSE", "false", "False"] then some false
  else none

/-- client/v2/autocli/flag/address.go, `addressValue.Set`: the address of the key of that name, else an address. -/
def readAddr (c : Cfg) (cl : Machine) (s : String) : Option String :=
  match cl.key s with
  | some a => some (c.encode a)
  | none => if (c.decode s).isSome then some s else none

/-- proto/noble/dollar/vaults/v1/vaults.proto, `VaultType`, named as client/v2/autocli/flag/enum.go does: without the prefix,
in kebab case. -/
def vaultNames : List (String × Int) := [("unspecified", 0), ("staked", 1), ("flexible", 2)]
/-- proto/noble/dollar/vaults/v1/vaults.proto, `PausedType`, named in the same way. -/
def pauseNames : List (String × Int) := [("none", 0), ("lock", 1), ("unlock", 2), ("all", 3)]

/-- The kinds of positional arguments, from the type of the field (client/v2/autocli/flag/builder.go, `resolveFlagType`). -/
inductive Arg
  | text
  | u32
  | bytes
  | bool
  | addr
  | name (names : List (String × Int))

/-- The value an argument sets its field to.  An amount is plain text for the command line: it has no scalar type autocli knows. -/
def Arg.read (c : Cfg) (cl : Machine) (s : String) : Arg → Option FVal
  | .text => some (.bs (Json.utf8 s.toList))
  | .u32 => (Rest.uint32 s.toList).map fun n : Nat => .num (n : Int)
  | .bytes => (readBytes cl s).map .bs
  | .bool => (readBool s).map .ofBool
  | .addr => (readAddr c cl s).map fun a => .bs (Json.utf8 a.toList)
  | .name names => (names.lookup s).map .num

/-- A transaction command: the words that name it, its message, and its positional arguments with the field each one sets. -/
structure Cmd where
  path : List String
  msg : MsgType
  args : List (Nat × Arg)

/-- module.go:175-276; field numbers and types from types/tx.pb.go, types/portal/tx.pb.go and types/vaults/tx.pb.go. -/
def commands : List Cmd := [
  ⟨["claim-yield"], .claimYield, []⟩,
  ⟨["set-paused-state"], .setPaused, [(2, .bool)]⟩,
  ⟨["portal", "deliver"], .deliver, [(2, .bytes)]⟩,
  ⟨["portal", "transfer"], .transfer, [(2, .text), (3, .u32), (4, .bytes), (5, .bytes)]⟩,
  ⟨["portal", "set-paused-state"], .portalSetPaused, [(2, .bool)]⟩,
  ⟨["portal", "set-peer"], .setPeer, [(2, .u32), (3, .bytes), (4, .bytes)]⟩,
  ⟨["portal", "set-bridging-path"], .setBridgingPath, [(2, .u32), (3, .bytes), (4, .bool)]⟩,
  ⟨["portal", "transfer-ownership"], .transferOwnership, [(2, .addr)]⟩,
  ⟨["vaults", "lock"], .lock, [(2, .name vaultNames), (3, .text)]⟩,
  ⟨["vaults", "unlock"], .unlock, [(2, .name vaultNames), (3, .text)]⟩,
  ⟨["vaults", "set-paused-state"], .vaultsSetPaused, [(2, .name pauseNames)]⟩]

/-- pflag: a word that begins with a dash is an option, not an argument. -/
def isFlag (s : String) : Bool := s.toList.head? = some '-'

/-- The words after the name of a command (cobra `Command.Find`). -/
def Cmd.rest (cmd : Cmd) (words : List String) : Option (List String) :=
  if words.take cmd.path.length = cmd.path then some (words.drop cmd.path.length) else none

/-- The fields the arguments set, one after the other (client/v2/autocli/flag/builder.go, `messageBinder.Bind`). -/
def readArgs (c : Cfg) (cl : Machine) : List (Nat × Arg) → List String → Option (List (Nat × FVal))
  | [], [] => some []
  | (n, k) :: ks, s :: ss => do
    let v ← k.read c cl s
    let r ← readArgs c cl ks ss
    pure ((n, v) :: r)
  | _, _ => none

/-- The message of a transaction: the fields of the arguments and, in the signer field (number 1 in every message of the
module), the address of the signing key (client/v2/autocli/msg.go, `BuildMsgMethodCommand`). -/
def Cmd.fields (c : Cfg) (cl : Machine) (cmd : Cmd) (args : List String) : Option Fields :=
  if args.any isFlag then none
  else (readArgs c cl cmd.args args).map fun l n =>
    if n = 1 then .bs (Json.utf8 cl.sender.toList) else (l.lookup n).getD (.num 0)

/-- The message that is put into the transaction: its type and its bytes. -/
def sent (c : Cfg) (cl : Machine) (words : List String) : Option (MsgType × Bytes) :=
  commands.findSome? fun cmd =>
    (cmd.rest words).bind fun args => (cmd.fields c cl args).map fun f => (cmd.msg, marshal cmd.msg.schema f)

/-- The message that the chain decodes from the bytes (C75). -/
def received (x : MsgType × Bytes) : Option Msg :=
  match decodeMsg GoInt.goText x.1 x.2 with
  | .ok m => some m
  | _ => none

/-- The message that the chain receives.  `set-yield-recipient` is the hand-written command of client/cli/tx.go, which the generated
ones leave in place (`EnhanceCustomCommand`, module.go:277). -/
def message (c : Cfg) (cl : Machine) (words : List String) : Option Msg :=
  match words with
  | [] => none
  | w :: args =>
    if w = "set-yield-recipient" then (if args.any isFlag then none else cliSetRecipient cl.sender args)
    else (sent c cl words).bind received

/-- A query command: its words and how its arguments make a query (module.go:279-351).  `paused` of the version 1 service is not listed
there and gets the generated name; `Stats` of version 1 is skipped; the commands of client/cli/query.go:50-182 stay. -/
def queryOf (c : Cfg) (cl : Machine) : List String → Option Rest.Query
  | ["index"] => some .index
  | ["paused"] => some .paused
  | ["principal", a] => (readAddr c cl a).map .principal
  | ["yield", a] => (readAddr c cl a).map .yield
  | ["stats"] => some .statsV2
  | ["yield-recipients"] => some .yieldRecipients
  | ["yield-recipient", p, i] => (parseProvider p).map fun p => .yieldRecipient p i
  | ["retry-amounts"] => some .retryAmounts
  | ["retry-amount", p, i] => (parseProvider p).map fun p => .retryAmount p i
  | ["portal", "owner"] => some .owner
  | ["portal", "paused"] => some .portalPaused
  | ["portal", "peers"] => some .peers
  | ["portal", "destination-tokens", n] => (Rest.uint32 n.toList).map .destinationTokens
  | ["portal", "nonce"] => some .nonce
  | ["vaults", "paused"] => some .vaultsPaused
  | ["vaults", "pending-rewards"] => some .pendingRewards
  | ["vaults", "pending-rewards-by-provider", a] => some (.pendingRewardsBy a)
  | ["vaults", "positions-by-provider", a] => some (.positions a)
  | ["vaults", "stats"] => some .vaultsStats
  | _ => none

/-- The query a command line makes. -/
def query (c : Cfg) (cl : Machine) (words : List String) : Option Rest.Query :=
  if words.any isFlag then none else queryOf c cl words

end Dollar.AutoCli
