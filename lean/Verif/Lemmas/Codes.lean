import Verif.Model.Codes
import Verif.Lemmas.Vault
import Verif.Lemmas.VInv2

/-
Which parts of the handlers can fail with a registered error: only the checks at their beginning.
-/
namespace Dollar.Codes
open Dollar MM

/-- Errors that are not registered by this repository, whatever the message. -/
def Foreign : Err → Bool
  | .badAddress | .insufficientFunds | .yieldAccount | .blockedRecipient | .postFailed | .malformed
  | .wrongChain | .wrongToken | .badIdentifier | .unknownToken | .badRouter | .badHexRecipient
  | .invalidVAA | .alreadyDelivered | .unknownChannel => true
  | _ => false

theorem foreign_reg {m : Msg} {e : Err} (h : Foreign e = true) : regOf m e = none := by
  cases m <;> cases e <;> first | rfl | exact absurd h (by decide)

/-- A computation that fails, if at all, with a foreign error. -/
structure Quiet {α : Type} (x : M α) : Prop where
  out : ∀ s e s', x s = .err e s' → Foreign e = true

namespace Quiet
variable {α β : Type}

theorem pure (a : α) : Quiet (Pure.pure a : M α) := ⟨fun _ _ _ h => by cases h⟩
theorem get : Quiet (MM.get : M State) := ⟨fun _ _ _ h => by cases h⟩
theorem modify (f : State → State) : Quiet (MM.modify f : M Unit) := ⟨fun _ _ _ h => by cases h⟩
theorem crash : Quiet (MM.crash : M α) := ⟨fun _ _ _ h => by cases h⟩
theorem fail {e : Err} (h : Foreign e = true) : Quiet (MM.fail e : M α) := ⟨fun _ _ _ h' => by cases h'; exact h⟩
theorem bind {x : M α} {f : α → M β} (hx : Quiet x) (hf : ∀ a, Quiet (f a)) : Quiet (x >>= f) := by
  refine ⟨fun s e s' h => ?_⟩
  rw [MM.bind_apply] at h
  cases hxs : x s with
  | ok a m => rw [hxs] at h; exact (hf a).out m e s' h
  | err e1 m => rw [hxs] at h; cases h; exact hx.out s _ _ hxs
  | panic => rw [hxs] at h; cases h
theorem ite {p : Prop} [Decidable p] {x y : M α} (hx : Quiet x) (hy : Quiet y) : Quiet (if p then x else y) := by
  split
  · exact hx
  · exact hy
theorem ignore (x : M Unit) : Quiet (MM.ignore x) := by
  refine ⟨fun s e s' h => ?_⟩
  rw [MM.ignore_apply] at h
  cases hxs : x s <;> rw [hxs] at h <;> cases h
theorem attempt (x : M Unit) : Quiet (MM.attempt x) := by
  refine ⟨fun s e s' h => ?_⟩
  rw [MM.attempt_apply] at h
  cases hxs : x s <;> rw [hxs] at h <;> cases h

end Quiet

syntax "quiet" : tactic
macro_rules
  | `(tactic| quiet) => `(tactic| repeat' first
      | assumption
      | exact Quiet.pure _ | exact Quiet.get | exact Quiet.modify _ | exact Quiet.crash
      | exact Quiet.fail rfl | exact Quiet.ignore _ | exact Quiet.attempt _
      | refine Quiet.bind ?_ ?_ | refine Quiet.ite ?_ ?_ | intro _
      | (split; all_goals skip))

namespace Quiet
variable (c : Cfg) (env : Env)

theorem emit (e : Event) : Quiet (emit e) := Quiet.modify _

theorem sendRestriction (a b : Addr) (x : Int) : Quiet (sendRestriction c a b x) := by
  unfold Dollar.sendRestriction restrictSender restrictRecipient incrementTotalPrincipal
    decrementTotalPrincipal addPrincipal incrementHolders decrementHolders principalUp principalDown
  quiet

theorem subCoins (a : Addr) (x : Int) : Quiet (subCoins a x) := by
  unfold Dollar.subCoins setBalance
  quiet

theorem addCoins (a : Addr) (x : Int) : Quiet (addCoins a x) := by
  unfold Dollar.addCoins setBalance
  quiet

theorem sendCoins (a b : Addr) (x : Int) : Quiet (sendCoins c a b x) := by
  have h1 := sendRestriction c a b x
  have h2 := subCoins a x
  have h3 := addCoins b x
  unfold Dollar.sendCoins
  quiet

theorem sendModuleToAccount (a b : Addr) (x : Int) : Quiet (sendModuleToAccount c a b x) := by
  have h1 := sendCoins c a b x
  unfold Dollar.sendModuleToAccount
  quiet

theorem newCoin (x : Int) : Quiet (newCoin x) := by
  unfold Dollar.newCoin
  quiet

theorem mintCoins (x : Int) : Quiet (mintCoins c x) := by
  have h := addCoins c.moduleAddr x
  unfold Dollar.mintCoins
  quiet

theorem burn (a : Addr) (x : Int) : Quiet (burn c a x) := by
  have h1 := sendCoins c a c.moduleAddr x
  have h2 := subCoins c.moduleAddr x
  have h3 := newCoin x
  unfold Dollar.burn burnCoins
  quiet

theorem mint (a : Addr) (x i : Int) : Quiet (mint c env a x i) := by
  have h1 := sendModuleToAccount c c.moduleAddr a x
  have h2 := mintCoins c x
  have h3 := newCoin x
  unfold Dollar.mint
  quiet

theorem claimModuleYield (a : Addr) : Quiet (claimModuleYield c a) := by
  have h1 := fun x => sendModuleToAccount c c.yieldAddr a x
  unfold Dollar.claimModuleYield
  quiet

theorem accrueYield (x : Int) : Quiet (accrueYield c x) := by
  have h1 := sendCoins c c.moduleAddr c.yieldAddr x
  have h2 := mintCoins c x
  have h3 := newCoin x
  unfold Dollar.accrueYield incrementTotalYield
  quiet

theorem handleVaults (i : Int) : Quiet (handleVaults c i) := by
  unfold Dollar.handleVaults handleSeasonOne handleSeasonTwo claimStakedVaultYield addPrincipal
  quiet

theorem takeRetry (p : Int) (i : String) : Quiet (takeRetry p i) := by
  unfold Dollar.takeRetry
  quiet

theorem retryOnError (e : Option Err) (p : Int) (i : String) (x : Int) : Quiet (retryOnError e p i x) := by
  cases e
  · exact Quiet.pure _
  · exact Quiet.modify _

theorem ibcLoop (r : KV String String) (l : List String) : Quiet (ibcLoop c env r l) := by
  induction l with
  | nil => exact Quiet.pure _
  | cons i t ih =>
    unfold Dollar.ibcLoop ibcOne incrementExtYield
    quiet
    all_goals first | exact claimModuleYield _ _ | exact takeRetry _ _ | exact retryOnError _ _ _ _

theorem hypRoutes (l : List String) : Quiet (hypRoutes c l) := by
  induction l with
  | nil => exact Quiet.pure _
  | cons i t ih =>
    unfold Dollar.hypRoutes
    quiet

theorem hypRouter (t : Nat) : Quiet (hypRouter env t) := by
  unfold Dollar.hypRouter
  quiet

theorem hypLoop (r : KV String String) (n y : Int) (l : List Route) : Quiet (hypLoop c env r n y l) := by
  induction l with
  | nil => exact Quiet.pure _
  | cons i t ih =>
    unfold Dollar.hypLoop hypOne incrementExtYield
    quiet <;> first | exact hypRouter _ _ | exact takeRetry _ _ | exact retryOnError _ _ _ _

theorem claimExternalIBC : Quiet (claimExternalIBC c env) := by
  unfold Dollar.claimExternalIBC
  quiet
  exact ibcLoop _ _ _ _

theorem claimExternalHyperlane : Quiet (claimExternalHyperlane c env) := by
  unfold Dollar.claimExternalHyperlane
  quiet <;> first | exact claimModuleYield _ _ | exact hypRoutes _ _ | exact hypLoop _ _ _ _ _ _

theorem checkRoute (p : Int) (i : String) : Quiet (checkRoute c env p i) := by
  unfold Dollar.checkRoute
  quiet
  all_goals exact hypRouter _ _

theorem parse {α : Type} (r : PRes α) : Quiet (parse r) := by
  unfold Dollar.parse
  quiet

theorem verifyVAA (bz : Bytes) : Quiet (verifyVAA env bz) := by
  unfold Dollar.verifyVAA
  quiet

theorem handleToken (p : Sl) (ev : EventsPayload) : Quiet (handleToken c env p ev) := by
  unfold Dollar.handleToken Dollar.emit
  quiet
  all_goals exact parse _

theorem transferSend (signer : String) (a : Int) (n : Nat) (t r : Bytes) (p : Peer) :
    Quiet (transferSend c env signer a n t r p) := by
  unfold Dollar.transferSend Dollar.emit postMessage incrementNonce
  quiet
  all_goals exact parse _

theorem lockBook (signer : String) (a : Addr) (v x t : Int) : Quiet (lockBook signer a v x t) := by
  unfold Dollar.lockBook lockTotal countNewUser addVaultPrincipal addTotalFlexible incrementVaultUsers
    principalDown Dollar.emit
  quiet

theorem unlockLoop (signer : String) (a : Addr) (v : Int) (l : List PosEntry) (m n : Int) :
    Quiet (unlockLoop c signer a v l m n) := by
  induction l generalizing m n with
  | nil => exact Quiet.pure _
  | cons e t ih =>
    unfold Dollar.unlockLoop unlockOne unlockPayout unlockFlexible addTotalFlexible
      incrementDistributed updatePosition claimRewards principalDown Dollar.emit
    quiet
    all_goals exact ih _ _

theorem claimTail (signer : String) : Quiet (do
    let (y, account) ← getYield c signer
    Dollar.newCoin y
    Dollar.sendModuleToAccount c c.yieldAddr account y
    Dollar.emit (.yieldClaimed signer y)) := by
  unfold getYield Dollar.emit
  quiet

end Quiet

/-- What a lock's or unlock's loop leaves to be removed. -/
theorem unlockLoop_left {c : Cfg} {signer : String} {a : Addr} {v : Int} {l : List PosEntry}
    {rem removed : Int} {r : Int × Int} {s s' : State} (h : unlockLoop c signer a v l rem removed s = .ok r s')
    (h0 : 0 ≤ rem) (ht : rem ≤ (l.map PosEntry.amount).sum) : r.1 = 0 := by
  replace h := unlockLoop_ok h
  revert h0 ht
  generalize hx : r.1 = x at h
  generalize r.2 = y at h
  clear hx
  induction h with
  | nil a b c => intro h0 ht; simp at ht; omega
  | stop => intros; rfl
  | step p t rem removed s m rem' removed' s' h1 h2 h3 h4 ih =>
    intro h0 ht
    simp only [List.map_cons, List.sum_cons] at ht
    have hz : ∀ {l x x' y y' s s'}, LoopOk c signer a v l x y s x' y' s' → x = 0 → x' = 0 := by
      intro l x x' y y' s s' h hx
      cases h with
      | nil => exact hx
      | stop => rfl
      | step _ _ _ _ _ _ _ _ _ hn => exact absurd hx hn
    unfold amountToRemove at h4 ih
    split at h4
    · exact hz h4 (by omega)
    · rename_i hlt
      rw [if_neg hlt] at ih
      exact ih (by omega) (by omega)

end Dollar.Codes
