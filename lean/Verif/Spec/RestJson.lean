import Verif.Model.RestJson

/-
How a client reads the JSON that the REST interface returns: by the names of the fields in
proto/noble/dollar/{v1,v2,portal/v1,vaults/v1}/query.proto.  Amounts are text, so that no digits are lost in
floating point.
-/
namespace Dollar.Spec
open Json Rest

/-- The value of a member of an object. -/
def memberOf (name : String) : J → Option J
  | .obj l => (l.find? fun e => e.1 = name.toList).map Prod.snd
  | _ => none

/-- A decimal with at most 18 decimal places, times 10^18. -/
def decimal : J → Option Int
  | .str t =>
    let u := if t.head? = some '-' then t.tail else t
    let whole := u.takeWhile Char.isDigit
    match u.dropWhile Char.isDigit with
    | '.' :: f =>
      if whole ≠ [] ∧ f ≠ [] ∧ f.length ≤ 18 ∧ f.all Char.isDigit = true then
        let n : Int := ((whole ++ f).foldl (fun v ch => v * 10 + (ch.toNat - 48)) 0 * 10 ^ (18 - f.length) : Nat)
        some (if t.head? = some '-' then -n else n)
      else none
    | _ => none
  | _ => none

/-- An object of texts. -/
def textMap (j : J) : Option (List (String × String)) := j.toMap (fun k => some (String.ofList k)) J.toStr

/-- A count, written as text. -/
def count (j : J) : Option Nat := (j.toNum 0 (2 ^ 64)).map Int.toNat

/-- What a client learns from the answer to a query. -/
def learn : Query → J → Option Answer
  | .index, j => do
    let d ← (memberOf "index" j).bind decimal
    some (.index d)
  | .paused, j | .portalPaused, j => do
    let b ← (memberOf "paused" j).bind J.toBool
    some (.flag b)
  | .principal _, j => do
    let x ← (memberOf "principal" j).bind J.toBig
    some (.amount x)
  | .yield _, j => do
    let x ← (memberOf "claimable_amount" j).bind J.toBig
    some (.amount x)
  | .retryAmount _ _, j => do
    let x ← (memberOf "retry_amount" j).bind J.toBig
    some (.amount x)
  | .pendingRewards, j => do
    let x ← (memberOf "pending_rewards" j).bind J.toBig
    some (.amount x)
  | .stats, j => do
    let h ← (memberOf "total_holders" j).bind count
    let p ← (memberOf "total_principal" j).bind J.toBig
    let y ← (memberOf "total_yield_accrued" j).bind J.toBig
    some (.stats (h, p, y))
  | .statsV2, j => do
    let h ← (memberOf "total_holders" j).bind count
    let p ← (memberOf "total_principal" j).bind J.toBig
    let y ← (memberOf "total_yield_accrued" j).bind J.toBig
    let e ← (memberOf "total_external_yield" j).bind (J.toMap (fun k => some (String.ofList k)) fun j => do
      let i ← (memberOf "chain_id" j).bind J.toStr
      let x ← (memberOf "amount" j).bind J.toBig
      some (i, x))
    some (.statsV2 (h, p, y) e)
  | .yieldRecipients, j => do
    let l ← (memberOf "yield_recipients" j).bind textMap
    some (.texts l)
  | .retryAmounts, j => do
    let l ← (memberOf "retry_amounts" j).bind textMap
    some (.texts l)
  | .yieldRecipient _ _, j => do
    let s ← (memberOf "yield_recipient" j).bind J.toStr
    some (.text s)
  | .owner, j => do
    let s ← (memberOf "owner" j).bind J.toStr
    some (.text s)
  | .peers, j => do
    let l ← (memberOf "peers" j).bind (J.toMap (fun k => (readLit 0 65536 k).map Int.toNat) fun j => do
      let t ← (memberOf "transceiver" j).bind J.toBytes
      let m ← (memberOf "manager" j).bind J.toBytes
      some (⟨t, m⟩ : Peer))
    some (.peers l)
  | .destinationTokens _, j => do
    let l ← (memberOf "destination_tokens" j).bind (J.toList J.toBytes)
    some (.tokens l)
  | .nonce, j => do
    let n ← (memberOf "nonce" j).bind (J.toNum 0 (2 ^ 32))
    some (.nonce n.toNat)
  | .positions _, j => do
    let l ← (memberOf "positions" j).bind (J.toList fun j => do
      let a ← (memberOf "address" j).bind J.toBytes
      let v ← (memberOf "vault" j).bind (J.toEnum [(0, "UNSPECIFIED"), (1, "STAKED"), (2, "FLEXIBLE")])
      let p ← (memberOf "principal" j).bind J.toBig
      let i ← (memberOf "index" j).bind (J.toNum (-2 ^ 63) (2 ^ 63))
      let x ← (memberOf "amount" j).bind J.toBig
      let t ← (memberOf "time" j).bind J.toTime
      some (⟨a, v, p, i, x, t⟩ : PosEntry))
    some (.positions l)
  | .pendingRewardsBy _, j => do
    let x ← (memberOf "pending_rewards" j).bind J.toBig
    let l ← (memberOf "positions_rewards" j).bind (J.toList fun j => do
      let x ← (memberOf "amount" j).bind J.toBig
      let r ← (memberOf "pending_rewards" j).bind J.toBig
      some (x, r))
    some (.pending x l)
  | .vaultsPaused, j => do
    let x ← (memberOf "paused" j).bind (J.toEnum [(0, "NONE"), (1, "LOCK"), (2, "UNLOCK"), (3, "ALL")])
    some (.pausing x)
  | .vaultsStats, j => do
    let a ← (memberOf "flexible_total_principal" j).bind J.toBig
    let b ← (memberOf "flexible_total_users" j).bind count
    let d ← (memberOf "flexible_total_distributed_rewards_principal" j).bind J.toBig
    let e ← (memberOf "staked_total_principal" j).bind J.toBig
    let f ← (memberOf "staked_total_users" j).bind count
    some (.vaultsStats ⟨a, b, d, e, f⟩)

/-- What a client learns from a body. -/
def learnText (q : Query) (body : List Char) : Option Answer := (J.read body).bind (learn q)

/-- The kind of answer a query gets. -/
def Fitting : Query → Answer → Prop
  | .index, .index _ => True
  | .paused, .flag _ | .portalPaused, .flag _ => True
  | .principal _, .amount _ | .yield _, .amount _ | .retryAmount _ _, .amount _ | .pendingRewards, .amount _ => True
  | .stats, .stats _ => True
  | .statsV2, .statsV2 _ _ => True
  | .yieldRecipients, .texts _ | .retryAmounts, .texts _ => True
  | .yieldRecipient _ _, .text _ | .owner, .text _ => True
  | .peers, .peers _ => True
  | .destinationTokens _, .tokens _ => True
  | .nonce, .nonce _ => True
  | .positions _, .positions _ => True
  | .pendingRewardsBy _, .pending _ _ => True
  | .vaultsPaused, .pausing _ => True
  | .vaultsStats, .vaultsStats _ => True
  | _, _ => False

/-- An amount of at most 256 bits. -/
def Big (x : Int) : Prop := x.natAbs < 2 ^ 256

/-- The numbers of an answer are in the range of their Go types. -/
def NumbersFit : Answer → Prop
  | .index _ | .flag _ | .texts _ | .text _ | .tokens _ => True
  | .amount x => Big x
  | .stats x => x.1 < 2 ^ 64 ∧ Big x.2.1 ∧ Big x.2.2
  | .statsV2 x ext => x.1 < 2 ^ 64 ∧ Big x.2.1 ∧ Big x.2.2 ∧ ∀ e ∈ ext, Big e.2.2
  | .peers l => ∀ e ∈ l, e.1 < 65536
  | .nonce n => n < 2 ^ 32
  | .positions l => ∀ p ∈ l, (-2 ^ 31 ≤ p.vault ∧ p.vault < 2 ^ 31) ∧ Big p.principal ∧
      (-2 ^ 63 ≤ p.index ∧ p.index < 2 ^ 63) ∧ Big p.amount ∧ (-62135596800 ≤ p.time ∧ p.time < 253402300800)
  | .pending total l => Big total ∧ ∀ e ∈ l, Big e.1 ∧ Big e.2
  | .pausing x => -2 ^ 31 ≤ x ∧ x < 2 ^ 31
  | .vaultsStats v => Big v.flexPrincipal ∧ v.flexUsers < 2 ^ 64 ∧ Big v.flexDistributed ∧ Big v.stakedPrincipal ∧
      v.stakedUsers < 2 ^ 64

end Dollar.Spec
