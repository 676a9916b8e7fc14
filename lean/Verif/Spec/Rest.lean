import Verif.Model.Rest

/-
The addresses of the queries: proto/noble/dollar/{v1,v2,portal/v1,vaults/v1}/query.proto, options `google.api.http`.
-/
namespace Dollar.Spec

open Rest

/-- A text without slashes. -/
def Slashless (s : String) : Prop := '/' ∉ s.toList

/-- A numeral as Go reads it. -/
def Numeral (t : String) (n : Int) : Prop := GoInt.parse (t.toList.map Char.toNat) = some n

/-- A provider by its name or its number. -/
def ProviderText (t : String) (p : Int) : Prop :=
  (t = "IBC" ∧ p = 0) ∨ (t = "HYPERLANE" ∧ p = 1) ∨ (Numeral t p ∧ (p = 0 ∨ p = 1))

/-- A chain, as a number of 32 bits without a sign. -/
def ChainText (t : String) (n : Nat) : Prop :=
  Numeral t n ∧ n < 2 ^ 32 ∧ t.toList.head? ≠ some '+' ∧ t.toList.head? ≠ some '-'

/-- The address of a query. -/
def Address : Query → String → Prop
  | .index, p => p = "/noble/dollar/v1/index"
  | .paused, p => p = "/noble/dollar/v1/paused"
  | .principal a, p => Slashless a ∧ p = "/noble/dollar/v1/principal/" ++ a
  | .yield a, p => Slashless a ∧ p = "/noble/dollar/v1/yield/" ++ a
  | .stats, p => p = "/noble/dollar/v1/stats"
  | .statsV2, p => p = "/noble/dollar/v2/stats"
  | .yieldRecipients, p => p = "/noble/dollar/v2/yield_recipients"
  | .yieldRecipient v i, p => ∃ t, ProviderText t v ∧ Slashless t ∧ Slashless i ∧
      p = "/noble/dollar/v2/yield_recipient/" ++ t ++ "/" ++ i
  | .retryAmounts, p => p = "/noble/dollar/v2/retry_amounts"
  | .retryAmount v i, p => ∃ t, ProviderText t v ∧ Slashless t ∧ Slashless i ∧
      p = "/noble/dollar/v2/retry_amount/" ++ t ++ "/" ++ i
  | .owner, p => p = "/noble/dollar/portal/v1/owner"
  | .portalPaused, p => p = "/noble/dollar/portal/v1/paused"
  | .peers, p => p = "/noble/dollar/portal/v1/peers"
  | .destinationTokens n, p => ∃ t, ChainText t n ∧ Slashless t ∧ p = "/noble/dollar/portal/v1/destination_tokens/" ++ t
  | .nonce, p => p = "/noble/dollar/portal/v1/nonce"
  | .positions a, p => Slashless a ∧ p = "/noble/dollar/vaults/v1/positions/" ++ a
  | .pendingRewards, p => p = "/noble/dollar/vaults/v1/pending_rewards"
  | .pendingRewardsBy a, p => Slashless a ∧ p = "/noble/dollar/vaults/v1/pending_rewards/" ++ a
  | .vaultsPaused, p => p = "/noble/dollar/vaults/v1/paused"
  | .vaultsStats, p => p = "/noble/dollar/vaults/v1/stats"

/-- Addresses that are taken as they stand: they do not end with a colon, and the last segment is not a colon followed by text
without colons. -/
def PlainPath (p : String) : Prop :=
  (∀ a, p ≠ a ++ ":") ∧ ∀ a b, p = a ++ "/:" ++ b → Slashless b → ':' ∈ b.toList

/-- How a query is asked for: by its address if that is plain, or by its address and a colon if it does not end with a slash. -/
def Asks (q : Query) (p : String) : Prop :=
  (Address q p ∧ PlainPath p) ∨ ∃ a, p = a ++ ":" ∧ Address q a ∧ ∀ b, a ≠ b ++ "/"

/-- Queries that have an address. -/
def HasAddress : Query → Prop
  | .principal a | .yield a | .positions a | .pendingRewardsBy a => Slashless a
  | .yieldRecipient v i | .retryAmount v i => (v = 0 ∨ v = 1) ∧ Slashless i
  | .destinationTokens n => n < 2 ^ 32
  | _ => True

end Dollar.Spec
