import Verif.Model.AutoCli
import Verif.Spec.Rest
import Verif.Spec.Numbers

/-
What the words of a command line mean: the usage texts of module.go:173-353, and the ways of writing an argument.
-/
namespace Dollar.Spec.Shell

open AutoCli

/-- A text of characters with codes below 128. -/
def Ascii (s : String) : Prop := ∀ c ∈ s.toList, c.toNat < 128

/-- A word that is not taken for an option. -/
def Word (w : String) : Prop := w.toList.head? ≠ some '-'

instance (w : String) : Decidable (Word w) := inferInstanceAs (Decidable (w.toList.head? ≠ some '-'))
instance (s : String) : Decidable (Ascii s) := inferInstanceAs (Decidable (∀ c ∈ s.toList, c.toNat < 128))

/-- A truth value. -/
def TruthText (w : String) (b : Bool) : Prop :=
  (b = true ∧ w ∈ ["1", "t", "T", "true", "TRUE", "True"]) ∨ (b = false ∧ w ∈ ["0", "f", "F", "false", "FALSE", "False"])

/-- The two hexadecimal digits of every byte, in lower case. -/
def hexOf (b : Bytes) : List Char :=
  b.flatMap fun x => ["0123456789abcdef".toList.getD (x.toNat / 16) ' ', "0123456789abcdef".toList.getD (x.toNat % 16) ' ']

/-- Bytes in hexadecimal, in upper or lower case. -/
def HexText (w : String) (b : Bytes) : Prop := w.toList.map Char.toLower = hexOf b

/-- Bytes: the contents of a file, or hexadecimal, or base64, in this order. -/
def BytesText (cl : Machine) (w : String) (b : Bytes) : Prop :=
  cl.file w = some b ∨
    (cl.file w = none ∧ (HexText w b ∨ ((∀ b', ¬ HexText w b') ∧ Json.unb64 w.toList = some b)))

/-- An amount: an integer as Go writes them (C99), of at most 256 bits, or nothing. -/
def AmountText (w : String) (x : Option Int) : Prop :=
  (w = "" ∧ x = none) ∨ ∃ y, SignedLiteral w.toList y ∧ y.natAbs < 2 ^ 256 ∧ x = some y

/-- An account: the name of a key, or else an address. -/
def AddrText (c : Cfg) (cl : Machine) (w o : String) : Prop :=
  (∃ a, cl.key w = some a ∧ o = c.encode a) ∨ (cl.key w = none ∧ o = w ∧ ∃ a, c.decode w = some a)

/-- A vault by its name. -/
def VaultText (w : String) (v : Int) : Prop :=
  (w = "unspecified" ∧ v = 0) ∨ (w = "staked" ∧ v = 1) ∨ (w = "flexible" ∧ v = 2)

/-- What to pause, by its name. -/
def PauseText (w : String) (p : Int) : Prop :=
  (w = "none" ∧ p = 0) ∨ (w = "lock" ∧ p = 1) ∨ (w = "unlock" ∧ p = 2) ∨ (w = "all" ∧ p = 3)

/-- The message of a transaction command (after `tx dollar`).  The chain identifiers are numbers of 32 bits on the command line
and of 16 bits in the message. -/
inductive Says (c : Cfg) (cl : Machine) : List String → Msg → Prop
  | claimYield : Says c cl ["claim-yield"] (.claimYield cl.sender)
  | setPaused {w b} : TruthText w b → Says c cl ["set-paused-state", w] (.setPaused cl.sender b)
  | setYieldRecipient {p i r v} : Word p → Word i → Word r → parseProvider p = some v →
      Says c cl ["set-yield-recipient", p, i, r] (.setYieldRecipient cl.sender v i r)
  | deliver {w b} : Word w → BytesText cl w b → Says c cl ["portal", "deliver", w] (.deliver b)
  | transfer {a ch t r x n tb rb} : Word a → Word t → Word r → AmountText a x → ChainText ch n → BytesText cl t tb →
      BytesText cl r rb → Says c cl ["portal", "transfer", a, ch, t, r] (.transfer cl.sender x (n % 65536) tb rb)
  | portalSetPaused {w b} : TruthText w b → Says c cl ["portal", "set-paused-state", w] (.portalSetPaused cl.sender b)
  | setPeer {ch t m n tb mb} : Word t → Word m → ChainText ch n → BytesText cl t tb → BytesText cl m mb →
      Says c cl ["portal", "set-peer", ch, t, m] (.setPeer cl.sender (n % 65536) tb mb)
  | setBridgingPath {ch t s n tb b} : Word t → ChainText ch n → BytesText cl t tb → TruthText s b →
      Says c cl ["portal", "set-bridging-path", ch, t, s] (.setBridgingPath cl.sender (n % 65536) tb b)
  | transferOwnership {w o} : Word w → AddrText c cl w o →
      Says c cl ["portal", "transfer-ownership", w] (.transferOwnership cl.sender o)
  | lock {w a v x} : Word a → VaultText w v → AmountText a x → Says c cl ["vaults", "lock", w, a] (.lock cl.sender v x)
  | unlock {w a v x} : Word a → VaultText w v → AmountText a x →
      Says c cl ["vaults", "unlock", w, a] (.unlock cl.sender v x)
  | vaultsSetPaused {w p} : PauseText w p → Says c cl ["vaults", "set-paused-state", w] (.vaultsSetPaused cl.sender p)

/-- The query of a query command (after `query dollar`). -/
inductive Requests (c : Cfg) (cl : Machine) : List String → Rest.Query → Prop
  | index : Requests c cl ["index"] .index
  | paused : Requests c cl ["paused"] .paused
  | principal {w o} : Word w → AddrText c cl w o → Requests c cl ["principal", w] (.principal o)
  | yield {w o} : Word w → AddrText c cl w o → Requests c cl ["yield", w] (.yield o)
  | stats : Requests c cl ["stats"] .statsV2
  | yieldRecipients : Requests c cl ["yield-recipients"] .yieldRecipients
  | yieldRecipient {p i v} : Word p → Word i → parseProvider p = some v →
      Requests c cl ["yield-recipient", p, i] (.yieldRecipient v i)
  | retryAmounts : Requests c cl ["retry-amounts"] .retryAmounts
  | retryAmount {p i v} : Word p → Word i → parseProvider p = some v → Requests c cl ["retry-amount", p, i] (.retryAmount v i)
  | owner : Requests c cl ["portal", "owner"] .owner
  | portalPaused : Requests c cl ["portal", "paused"] .portalPaused
  | peers : Requests c cl ["portal", "peers"] .peers
  | destinationTokens {w n} : ChainText w n → Requests c cl ["portal", "destination-tokens", w] (.destinationTokens n)
  | nonce : Requests c cl ["portal", "nonce"] .nonce
  | vaultsPaused : Requests c cl ["vaults", "paused"] .vaultsPaused
  | pendingRewards : Requests c cl ["vaults", "pending-rewards"] .pendingRewards
  | pendingRewardsBy {w} : Word w → Requests c cl ["vaults", "pending-rewards-by-provider", w] (.pendingRewardsBy w)
  | positions {w} : Word w → Requests c cl ["vaults", "positions-by-provider", w] (.positions w)
  | vaultsStats : Requests c cl ["vaults", "stats"] .vaultsStats

/-- The usual way of writing a message: amounts and chains in decimal, bytes in hexadecimal. -/
def line : Msg → Option (List String)
  | .claimYield _ => some ["claim-yield"]
  | .setPaused _ p => some ["set-paused-state", if p then "true" else "false"]
  | .setYieldRecipient _ p i r => some ["set-yield-recipient", if p = 0 then "ibc" else "hyperlane", i, r]
  | .deliver v => some ["portal", "deliver", String.ofList (hexOf v)]
  | .transfer _ (some x) ch t r =>
    some ["portal", "transfer", toString x, toString ch, String.ofList (hexOf t), String.ofList (hexOf r)]
  | .portalSetPaused _ p => some ["portal", "set-paused-state", if p then "true" else "false"]
  | .setPeer _ ch t m => some ["portal", "set-peer", toString ch, String.ofList (hexOf t), String.ofList (hexOf m)]
  | .setBridgingPath _ ch t b =>
    some ["portal", "set-bridging-path", toString ch, String.ofList (hexOf t), if b then "true" else "false"]
  | .transferOwnership _ o => some ["portal", "transfer-ownership", o]
  | .lock _ v (some x) => some ["vaults", "lock", ["unspecified", "staked", "flexible"].getD v.toNat "", toString x]
  | .unlock _ v (some x) => some ["vaults", "unlock", ["unspecified", "staked", "flexible"].getD v.toNat "", toString x]
  | .vaultsSetPaused _ p => some ["vaults", "set-paused-state", ["none", "lock", "unlock", "all"].getD p.toNat ""]
  | _ => none

/-- An amount that can be sent: not negative, of at most 256 bits. -/
def Amount (x : Option Int) : Prop := ∃ n, x = some n ∧ 0 ≤ n ∧ n < 2 ^ 256

/-- A message that can be sent from a machine: it is signed by the machine's key and its fields have the values of their types. -/
def Sendable (c : Cfg) (cl : Machine) : Msg → Prop
  | .claimYield s => s = cl.sender
  | .setPaused s _ => s = cl.sender
  | .setYieldRecipient s p i r => s = cl.sender ∧ (p = 0 ∨ p = 1) ∧ Word i ∧ Word r
  | .deliver _ => True
  | .transfer s x ch _ _ => s = cl.sender ∧ Amount x ∧ ch < 65536
  | .portalSetPaused s _ => s = cl.sender
  | .setPeer s ch _ _ => s = cl.sender ∧ ch < 65536
  | .setBridgingPath s ch _ _ => s = cl.sender ∧ ch < 65536
  | .transferOwnership s o => s = cl.sender ∧ Word o ∧ cl.key o = none ∧ ∃ a, c.decode o = some a
  | .lock s v x => s = cl.sender ∧ (v = 0 ∨ v = 1 ∨ v = 2) ∧ Amount x
  | .unlock s v x => s = cl.sender ∧ (v = 0 ∨ v = 1 ∨ v = 2) ∧ Amount x
  | .vaultsSetPaused s p => s = cl.sender ∧ (p = 0 ∨ p = 1 ∨ p = 2 ∨ p = 3)
  | _ => False

end Dollar.Spec.Shell
