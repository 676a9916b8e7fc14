import Verif.Spec.Agree

/-
Two runs of the same code from states that differ only in statistics, log, outboxes and, for most of the
code, in settings: same outcome, and the states agree again.
-/
set_option linter.unusedSimpArgs false
set_option linter.unnecessarySeqFocus false
namespace Dollar
open MM Spec

/-- The settings of the module and the portal, and the archive of delivered messages. -/
structure Knobs where
  paused : Bool
  vPaused : Int
  owner : String
  portalPaused : Bool
  peers : KV Nat Peer
  paths : KV (Nat × Bytes) Bool
  nonce : Nat
  archive : List Bytes
  deriving Inhabited

def knobs (s : State) : Knobs :=
  ⟨s.paused, s.vPaused, s.owner, s.portalPaused, s.peers, s.paths, s.nonce, s.archive⟩

/-- Agreement on the funds and on a part `q` of the settings. -/
def Agree {X : Type} (q : Knobs → X) (s t : State) : Prop :=
  funds s = funds t ∧ q (knobs s) = q (knobs t)

namespace Agree
variable {X : Type} {q : Knobs → X} {s t : State}

theorem bal (h : Agree q s t) : t.bal = s.bal := (congrArg State.bal h.1 :).symm
theorem supply (h : Agree q s t) : t.supply = s.supply := (congrArg State.supply h.1 :).symm
theorem index (h : Agree q s t) : t.index = s.index := (congrArg State.index h.1 :).symm
theorem principal (h : Agree q s t) : t.principal = s.principal := (congrArg State.principal h.1 :).symm
theorem totalPrincipal (h : Agree q s t) : t.totalPrincipal = s.totalPrincipal :=
  (congrArg State.totalPrincipal h.1 :).symm
theorem recipients (h : Agree q s t) : t.recipients = s.recipients := (congrArg State.recipients h.1 :).symm
theorem retry (h : Agree q s t) : t.retry = s.retry := (congrArg State.retry h.1 :).symm
theorem season (h : Agree q s t) : t.seasonOneEnded = s.seasonOneEnded := (congrArg State.seasonOneEnded h.1 :).symm
theorem collector (h : Agree q s t) : t.collector = s.collector := (congrArg State.collector h.1 :).symm
theorem positions (h : Agree q s t) : t.positions = s.positions := (congrArg State.positions h.1 :).symm
theorem totalFlexible (h : Agree q s t) : t.totalFlexible = s.totalFlexible :=
  (congrArg State.totalFlexible h.1 :).symm
theorem rewards (h : Agree q s t) : t.rewards = s.rewards := (congrArg State.rewards h.1 :).symm
theorem collateral (h : Agree q s t) : t.collateral = s.collateral := (congrArg State.collateral h.1 :).symm
theorem inflight (h : Agree q s t) : t.inflight = s.inflight := (congrArg State.inflight h.1 :).symm
theorem vouchers (h : Agree q s t) : t.vouchers = s.vouchers := (congrArg State.vouchers h.1 :).symm

theorem balance (h : Agree q s t) (a : Addr) : t.balance a = s.balance a := by
  unfold State.balance; rw [h.bal]
theorem principalOf (h : Agree q s t) (a : Addr) : t.principalOf a = s.principalOf a := by
  unfold State.principalOf; rw [h.principal]
theorem retryOf (h : Agree q s t) (p : Int) (i : String) : t.retryOf p i = s.retryOf p i := by
  unfold State.retryOf; rw [h.retry]
theorem vouchersOf (h : Agree q s t) (i : String) : t.vouchersOf i = s.vouchersOf i := by
  unfold State.vouchersOf; rw [h.vouchers]
theorem claimable (h : Agree q s t) (a : Addr) : claimable t a = claimable s a := by
  unfold Dollar.claimable; rw [h.principalOf, h.balance, h.index]
theorem recipientsBy (h : Agree q s t) (p : Int) : recipientsBy t p = recipientsBy s p := by
  unfold Dollar.recipientsBy; rw [h.recipients]
theorem sortedIds (h : Agree q s t) (env : Env) (p : Int) : sortedIds env t p = sortedIds env s p := by
  unfold Dollar.sortedIds; rw [h.recipientsBy]
theorem hasYieldRecipient (h : Agree q s t) (p : Int) (i : String) :
    hasYieldRecipient t p i = hasYieldRecipient s p i := by
  unfold Dollar.hasYieldRecipient; rw [h.recipients]
theorem positionsOf (h : Agree q s t) (a : Addr) (v : Int) : positionsOf t a v = positionsOf s a v := by
  unfold Dollar.positionsOf; rw [h.positions]

end Agree

/-- Results with the same outcome and value and related states. -/
def ResRel {α : Type} (R : State → State → Prop) : Res State α → Res State α → Prop
  | .ok a s, .ok b t => a = b ∧ R s t
  | .err e s, .err f t => e = f ∧ R s t
  | .panic, .panic => True
  | _, _ => False

/-- From related states `x` gives related results. -/
structure Same (R : State → State → Prop) {α : Type} (x : M α) : Prop where
  rel : ∀ s t, R s t → ResRel R (x s) (x t)

namespace Same
variable {R : State → State → Prop} {α β : Type}

theorem pure (a : α) : Same R (Pure.pure a : M α) := ⟨fun _ _ h => ⟨rfl, h⟩⟩
theorem fail (e : Err) : Same R (MM.fail e : M α) := ⟨fun _ _ h => ⟨rfl, h⟩⟩
theorem crash : Same R (MM.crash : M α) := ⟨fun _ _ _ => trivial⟩
theorem modify {f : State → State} (h : ∀ s t, R s t → R (f s) (f t)) : Same R (MM.modify f : M Unit) :=
  ⟨fun s t hr => ⟨rfl, h s t hr⟩⟩

theorem bind {x : M α} {f : α → M β} (hx : Same R x) (hf : ∀ a, Same R (f a)) : Same R (x >>= f) := by
  refine ⟨fun s t h => ?_⟩
  have h1 := hx.rel s t h
  rw [bind_apply, bind_apply]
  revert h1
  cases x s <;> cases x t <;> intro h1 <;> first | exact (h1 : False).elim | exact h1 | skip
  · obtain ⟨rfl, h1⟩ := h1
    exact (hf _).rel _ _ h1

theorem getBind {f : State → M β} (hf : ∀ s t, R s t → f t = f s) (h : ∀ s, Same R (f s)) :
    Same R (MM.get >>= f) := by
  refine ⟨fun s t hr => ?_⟩
  show ResRel R (f s s) (f t t)
  rw [hf s t hr]
  exact (h s).rel s t hr

theorem ite {p : Prop} [Decidable p] {x y : M α} (hx : Same R x) (hy : Same R y) :
    Same R (if p then x else y) := by split <;> assumption

theorem ignore {x : M Unit} (hx : Same R x) : Same R (MM.ignore x) := by
  refine ⟨fun s t h => ?_⟩
  have h1 := hx.rel s t h
  rw [ignore_apply, ignore_apply]
  revert h1
  cases x s <;> cases x t <;> intro h1 <;> first | exact (h1 : False).elim | exact ⟨rfl, h1.2⟩ | exact h1

theorem attempt {x : M Unit} (hx : Same R x) : Same R (MM.attempt x) := by
  refine ⟨fun s t h => ?_⟩
  have h1 := hx.rel s t h
  rw [attempt_apply, attempt_apply]
  revert h1
  cases x s <;> cases x t <;> intro h1 <;> 
    first | exact (h1 : False).elim | exact ⟨rfl, h1.2⟩ | exact ⟨congrArg some h1.1, h1.2⟩ | exact h1

theorem parse (r : PRes α) : Same R (parse r) := by
  cases r
  · exact pure _
  · exact fail _
  · exact crash
theorem newCoin (a : Int) : Same R (newCoin a) := by
  unfold Dollar.newCoin; exact ite crash (pure _)
theorem principalUp (a i : Int) : Same R (principalUp a i) := by
  unfold Dollar.principalUp; exact ite crash (pure _)
theorem principalDown (a i : Int) : Same R (principalDown a i) := by
  unfold Dollar.principalDown; exact ite crash (pure _)
theorem hypRouter (env : Env) (t : Nat) : Same R (hypRouter env t) := by
  unfold Dollar.hypRouter
  split
  · exact pure _
  · exact fail _

end Same

theorem Same.funded {X : Type} {q : Knobs → X} {f : State → State}
    (h : ∀ s t, Agree q s t → funds (f s) = funds (f t)) (hs : ∀ s, knobs (f s) = knobs s) :
    Same (Agree q) (MM.modify f) :=
  .modify fun s t hr => ⟨h s t hr, by rw [hs, hs]; exact hr.2⟩

/-- Rewrite every read of the second state into one of the first. -/
macro "agreed" h:term : tactic => `(tactic| simp only [Agree.balance $h, Agree.principalOf $h, Agree.retryOf $h,
  Agree.vouchersOf $h, Agree.claimable $h, Agree.recipientsBy $h, Agree.sortedIds $h, Agree.hasYieldRecipient $h,
  Agree.positionsOf $h, Agree.bal $h, Agree.supply $h, Agree.index $h, Agree.principal $h, Agree.totalPrincipal $h,
  Agree.recipients $h, Agree.retry $h, Agree.season $h, Agree.collector $h, Agree.positions $h,
  Agree.totalFlexible $h, Agree.rewards $h, Agree.collateral $h, Agree.inflight $h, Agree.vouchers $h])

/-- A write to the funds, statistics, log or outboxes. -/
macro "funded" : tactic => `(tactic|
  (refine Same.funded (fun s t h => ?_) (fun _ => by with_unfolding_all rfl); unfold funds unrecorded; agreed h))

/-- Break a computation into its steps. -/
macro "same" : tactic => `(tactic| repeat' (with_reducible first
  | assumption
  | exact Same.pure _ | exact Same.fail _ | exact Same.crash
  | exact Same.newCoin _ | exact Same.principalUp _ _ | exact Same.principalDown _ _
  | exact Same.parse _ | exact Same.hypRouter _ _
  | (refine Same.getBind (fun s t h => by agreed h) ?_)
  | refine Same.bind ?_ ?_ | refine Same.ite ?_ ?_ | refine Same.ignore ?_ | refine Same.attempt ?_
  | funded
  | intro _ | split))

namespace Same
variable {X : Type} {q : Knobs → X}

theorem emit (e : Event) : Same (Agree q) (emit e) := by
  unfold Dollar.emit; same
theorem setBalance (a : Addr) (v : Int) : Same (Agree q) (setBalance a v) := by
  unfold Dollar.setBalance; same
theorem subCoins (a : Addr) (v : Int) : Same (Agree q) (subCoins a v) := by
  unfold Dollar.subCoins; same <;> exact setBalance _ _
theorem addCoins (a : Addr) (v : Int) : Same (Agree q) (addCoins a v) := by
  unfold Dollar.addCoins; same <;> exact setBalance _ _
theorem decrementHolders : Same (Agree q) decrementHolders := by
  unfold Dollar.decrementHolders; same
theorem incrementHolders : Same (Agree q) incrementHolders := by
  unfold Dollar.incrementHolders; same
theorem addPrincipal (a : Addr) (v : Int) : Same (Agree q) (addPrincipal a v) := by
  unfold Dollar.addPrincipal; same
theorem restrictSender (c : Cfg) (a : Addr) (p : Int) : Same (Agree q) (restrictSender c a p) := by
  unfold Dollar.restrictSender incrementTotalPrincipal
  same <;> first | exact addPrincipal _ _ | exact decrementHolders
theorem restrictRecipient (c : Cfg) (a b : Addr) (x i p : Int) : Same (Agree q) (restrictRecipient c a b x i p) := by
  unfold Dollar.restrictRecipient decrementTotalPrincipal
  same <;> first | exact addPrincipal _ _ | exact incrementHolders
theorem sendRestriction (c : Cfg) (a b : Addr) (x : Int) : Same (Agree q) (sendRestriction c a b x) := by
  unfold Dollar.sendRestriction
  same <;> first | exact restrictSender _ _ _ | exact restrictRecipient _ _ _ _ _ _
theorem sendCoins (c : Cfg) (a b : Addr) (x : Int) : Same (Agree q) (sendCoins c a b x) := by
  unfold Dollar.sendCoins
  same <;> first | exact subCoins _ _ | exact sendRestriction _ _ _ _ | exact addCoins _ _
theorem sendModuleToAccount (c : Cfg) (a b : Addr) (x : Int) : Same (Agree q) (sendModuleToAccount c a b x) := by
  unfold Dollar.sendModuleToAccount
  same <;> exact sendCoins _ _ _ _
theorem mintCoins (c : Cfg) (x : Int) : Same (Agree q) (mintCoins c x) := by
  unfold Dollar.mintCoins
  same <;> exact addCoins _ _
theorem burnCoins (c : Cfg) (x : Int) : Same (Agree q) (burnCoins c x) := by
  unfold Dollar.burnCoins
  same <;> exact subCoins _ _
theorem multiSendOutputs (c : Cfg) (a : Addr) (l : List (Addr × Int)) : Same (Agree q) (multiSendOutputs c a l) := by
  induction l with
  | nil => exact pure _
  | cons e t ih =>
    unfold Dollar.multiSendOutputs
    same <;> first | exact sendRestriction _ _ _ _ | exact addCoins _ _
theorem multiSend (c : Cfg) (a : Addr) (l : List (Addr × Int)) : Same (Agree q) (multiSend c a l) := by
  unfold Dollar.multiSend
  same <;> first | exact subCoins _ _ | exact multiSendOutputs _ _ _

theorem incrementTotalYield (x : Int) : Same (Agree q) (incrementTotalYield x) := by
  unfold Dollar.incrementTotalYield; same
theorem incrementExtYield (p : Int) (id : String) (x : Int) : Same (Agree q) (incrementExtYield p id x) := by
  unfold Dollar.incrementExtYield; same
theorem takeRetry (p : Int) (id : String) : Same (Agree q) (takeRetry p id) := by
  unfold Dollar.takeRetry; same
theorem incrementRetry (p : Int) (id : String) (x : Int) : Same (Agree q) (incrementRetry p id x) := by
  unfold Dollar.incrementRetry; same
theorem getYield (c : Cfg) (a : String) : Same (Agree q) (getYield c a) := by
  unfold Dollar.getYield; same
theorem claimModuleYield (c : Cfg) (a : Addr) : Same (Agree q) (claimModuleYield c a) := by
  unfold Dollar.claimModuleYield
  same <;> exact sendModuleToAccount _ _ _ _
theorem claimStakedVaultYield (c : Cfg) : Same (Agree q) (claimStakedVaultYield c) := by
  unfold Dollar.claimStakedVaultYield
  same <;> first | exact sendModuleToAccount _ _ _ _ | exact addPrincipal _ _
theorem ics4Check (ch : String) : Same (Agree q) (ics4Check ch) := by
  unfold Dollar.ics4Check; same
theorem bookPacket (p : IbcOut) : Same (Agree q) (bookPacket p) := by
  unfold Dollar.bookPacket; same
theorem ibcTransfer (c : Cfg) (env : Env) (ch : String) (a : Addr) (r : String) (x : Int) :
    Same (Agree q) (ibcTransfer c env ch a r x) := by
  unfold Dollar.ibcTransfer
  same <;> first | exact sendCoins _ _ _ _ | exact ics4Check _ | exact bookPacket _
theorem retryOnError (e : Option Err) (p : Int) (id : String) (x : Int) : Same (Agree q) (retryOnError e p id x) := by
  unfold Dollar.retryOnError
  same <;> exact incrementRetry _ _ _
theorem ibcOne (c : Cfg) (env : Env) (r : KV String String) (ch : String) : Same (Agree q) (ibcOne c env r ch) := by
  unfold Dollar.ibcOne
  same <;> first | exact claimModuleYield _ _ | exact takeRetry _ _ | exact ibcTransfer _ _ _ _ _ _ |
    exact retryOnError _ _ _ _ | exact incrementExtYield _ _ _
theorem ibcLoop (c : Cfg) (env : Env) (r : KV String String) (l : List String) :
    Same (Agree q) (ibcLoop c env r l) := by
  induction l with
  | nil => exact pure _
  | cons e t ih =>
    unfold Dollar.ibcLoop
    same <;> exact ibcOne _ _ _ _
theorem claimExternalIBC (c : Cfg) (env : Env) : Same (Agree q) (claimExternalIBC c env) := by
  unfold Dollar.claimExternalIBC
  same <;> exact ibcLoop _ _ _ _
theorem hypRoutes (c : Cfg) (l : List String) : Same (Agree q) (hypRoutes c l) := by
  induction l with
  | nil => exact pure _
  | cons e t ih =>
    unfold Dollar.hypRoutes
    same
theorem warpTransfer (c : Cfg) (env : Env) (r : Route) (d : Nat) (to_ : Bytes) (x : Int) :
    Same (Agree q) (warpTransfer c env r d to_ x) := by
  unfold Dollar.warpTransfer
  same <;> exact sendCoins _ _ _ _
theorem hypOne (c : Cfg) (env : Env) (rs : KV String String) (total y : Int) (r : Route) :
    Same (Agree q) (hypOne c env rs total y r) := by
  unfold Dollar.hypOne
  same <;> first | exact takeRetry _ _ | exact warpTransfer _ _ _ _ _ _ | exact retryOnError _ _ _ _ |
    exact incrementExtYield _ _ _
theorem hypLoop (c : Cfg) (env : Env) (rs : KV String String) (total y : Int) (l : List Route) :
    Same (Agree q) (hypLoop c env rs total y l) := by
  induction l with
  | nil => exact pure _
  | cons e t ih =>
    unfold Dollar.hypLoop
    same <;> exact hypOne _ _ _ _ _ _
theorem claimExternalHyperlane (c : Cfg) (env : Env) : Same (Agree q) (claimExternalHyperlane c env) := by
  unfold Dollar.claimExternalHyperlane
  same <;> first | exact claimModuleYield _ _ | exact hypRoutes _ _ | exact hypLoop _ _ _ _ _ _
theorem handleSeasonOne (c : Cfg) (i : Int) : Same (Agree q) (handleSeasonOne c i) := by
  unfold Dollar.handleSeasonOne
  same <;> first | exact claimModuleYield _ _ | exact claimStakedVaultYield _
theorem handleSeasonTwo (c : Cfg) : Same (Agree q) (handleSeasonTwo c) := by
  unfold Dollar.handleSeasonTwo
  same <;> first | exact claimModuleYield _ _ | exact sendCoins _ _ _ _
theorem handleVaults (c : Cfg) (i : Int) : Same (Agree q) (handleVaults c i) := by
  unfold Dollar.handleVaults
  same <;> with_reducible first | exact handleSeasonTwo _ | exact handleSeasonOne _ _
theorem accrueYield (c : Cfg) (d : Int) : Same (Agree q) (accrueYield c d) := by
  unfold Dollar.accrueYield
  same <;> first | exact mintCoins _ _ | exact sendCoins _ _ _ _ | exact incrementTotalYield _
theorem updateIndex (c : Cfg) (env : Env) (i : Int) : Same (Agree q) (updateIndex c env i) := by
  unfold Dollar.updateIndex
  same <;> first | exact accrueYield _ _ | exact handleVaults _ _ | exact claimExternalIBC _ _ |
    exact claimExternalHyperlane _ _ | exact emit _
theorem mint (c : Cfg) (env : Env) (r : Addr) (x i : Int) : Same (Agree q) (mint c env r x i) := by
  unfold Dollar.mint
  same <;> first | exact updateIndex _ _ _ | exact mintCoins _ _ | exact sendModuleToAccount _ _ _ _
theorem burn (c : Cfg) (a : Addr) (x : Int) : Same (Agree q) (burn c a x) := by
  unfold Dollar.burn
  same <;> first | exact burnCoins _ _ | exact sendCoins _ _ _ _
theorem checkRoute (c : Cfg) (env : Env) (p : Int) (id : String) : Same (Agree q) (checkRoute c env p id) := by
  unfold Dollar.checkRoute; same
theorem setYieldRecipient (c : Cfg) (env : Env) (a : String) (p : Int) (id r : String) :
    Same (Agree q) (setYieldRecipient c env a p id r) := by
  unfold Dollar.setYieldRecipient
  same <;> first | exact checkRoute _ _ _ _ | exact emit _

/-! ### Vaults -/

theorem incrementVaultUsers (v : Int) : Same (Agree q) (incrementVaultUsers v) := by
  unfold Dollar.incrementVaultUsers
  refine modify fun s t h => ⟨?_, ?_⟩ <;> split <;> first | exact h.1 | exact h.2 | (split <;> first | exact h.1 | exact h.2)
theorem decrementVaultUsers (v : Int) : Same (Agree q) (decrementVaultUsers v) := by
  unfold Dollar.decrementVaultUsers
  refine modify fun s t h => ⟨?_, ?_⟩ <;> split <;> first | exact h.1 | exact h.2 | (split <;> first | exact h.1 | exact h.2)
theorem addVaultPrincipal (v d : Int) : Same (Agree q) (addVaultPrincipal v d) := by
  unfold Dollar.addVaultPrincipal
  refine modify fun s t h => ⟨?_, ?_⟩ <;> split <;> first | exact h.1 | exact h.2 | (split <;> first | exact h.1 | exact h.2)
theorem incrementDistributed (x : Int) : Same (Agree q) (incrementDistributed x) := by
  unfold Dollar.incrementDistributed; same
theorem addTotalFlexible (x : Int) : Same (Agree q) (addTotalFlexible x) := by
  unfold Dollar.addTotalFlexible; same
theorem lockTotal (v x : Int) : Same (Agree q) (lockTotal v x) := by
  unfold Dollar.lockTotal
  same <;> exact addTotalFlexible _
theorem countNewUser (a : Addr) (v : Int) : Same (Agree q) (countNewUser a v) := by
  unfold Dollar.countNewUser
  same <;> exact incrementVaultUsers _
theorem countGoneUser (a : Addr) (v : Int) : Same (Agree q) (countGoneUser a v) := by
  unfold Dollar.countGoneUser
  same <;> exact decrementVaultUsers _
theorem lockBook (g : String) (a : Addr) (v x t : Int) : Same (Agree q) (lockBook g a v x t) := by
  unfold Dollar.lockBook
  same <;> first | exact lockTotal _ _ | exact countNewUser _ _ | exact addVaultPrincipal _ _ | exact emit _
theorem claimRewards (c : Cfg) (p : PosEntry) (x : Int) : Same (Agree q) (claimRewards c p x) := by
  unfold Dollar.claimRewards
  same <;> first | exact sendCoins _ _ _ _ | exact emit _
theorem unlockFlexible (c : Cfg) (g : String) (v : Int) (p : PosEntry) (x y : Int) :
    Same (Agree q) (unlockFlexible c g v p x y) := by
  unfold Dollar.unlockFlexible
  same <;> first | exact addTotalFlexible _ | exact claimRewards _ _ _ | exact incrementDistributed _ |
    exact claimModuleYield _ _
theorem updatePosition (p : PosEntry) (x y : Int) : Same (Agree q) (updatePosition p x y) := by
  unfold Dollar.updatePosition
  refine modify fun s t h => ?_
  split
  · refine ⟨?_, h.2⟩
    unfold funds unrecorded; simp only []; agreed h
  · refine ⟨?_, h.2⟩
    unfold funds unrecorded; simp only []; agreed h
theorem unlockPayout (c : Cfg) (g : String) (v : Int) (p : PosEntry) (x y : Int) :
    Same (Agree q) (unlockPayout c g v p x y) := by
  unfold Dollar.unlockPayout
  same <;> exact unlockFlexible _ _ _ _ _ _
theorem unlockOne (c : Cfg) (g : String) (a : Addr) (v : Int) (p : PosEntry) (x : Int) :
    Same (Agree q) (unlockOne c g a v p x) := by
  unfold Dollar.unlockOne
  same <;> first | exact unlockPayout _ _ _ _ _ _ | exact sendCoins _ _ _ _ | exact updatePosition _ _ _ | exact emit _
theorem unlockLoop (c : Cfg) (g : String) (a : Addr) (v : Int) (l : List PosEntry) (x y : Int) :
    Same (Agree q) (unlockLoop c g a v l x y) := by
  induction l generalizing x y with
  | nil => exact pure _
  | cons e t ih =>
    unfold Dollar.unlockLoop
    same <;> first | exact unlockOne _ _ _ _ _ _ | exact ih _ _
theorem unlockInner (c : Cfg) (g : String) (v : Int) (x : Option Int) : Same (Agree q) (unlockInner c g v x) := by
  unfold Dollar.unlockInner
  same <;> first | exact unlockLoop _ _ _ _ _ _ _ | exact countGoneUser _ _ | exact addVaultPrincipal _ _

/-! ### IBC and warp -/

theorem addAmountToRetry (c : Cfg) (p ch : String) (d : Option PacketData) :
    Same (Agree q) (addAmountToRetry c p ch d) := by
  unfold Dollar.addAmountToRetry
  same <;> exact incrementRetry _ _ _
theorem refund (c : Cfg) (p : IbcOut) : Same (Agree q) (refund c p) := by
  unfold Dollar.refund
  same <;> exact sendCoins _ _ _ _
theorem ackSuccess (p : IbcOut) : Same (Agree q) (ackSuccess p) := by
  unfold Dollar.ackSuccess; same
theorem packetFailed (c : Cfg) (p : IbcOut) (b : Bool) : Same (Agree q) (packetFailed c p b) := by
  unfold Dollar.packetFailed onTimeout onAck
  same <;> first | exact addAmountToRetry _ _ _ _ | exact refund _ _
theorem packetAcked (c : Cfg) (p : IbcOut) : Same (Agree q) (packetAcked c p) := by
  unfold Dollar.packetAcked onAck
  same <;> first | exact ackSuccess _ | exact addAmountToRetry _ _ _ _
theorem ibcReceive (c : Cfg) (ch : String) (a : Addr) (x : Int) : Same (Agree q) (ibcReceive c ch a x) := by
  unfold Dollar.ibcReceive
  same <;> exact sendCoins _ _ _ _
theorem warpSend (c : Cfg) (t d : Nat) (a : Addr) (r : Bytes) (x : Int) : Same (Agree q) (warpSend c t d a r x) := by
  unfold Dollar.warpSend
  same <;> exact sendCoins _ _ _ _
theorem warpReceive (c : Cfg) (t : Nat) (a : Addr) (x : Int) : Same (Agree q) (warpReceive c t a x) := by
  unfold Dollar.warpReceive
  same <;> exact sendModuleToAccount _ _ _ _
theorem warpCreate (t : Nat) : Same (Agree q) (warpCreate t) := by
  unfold Dollar.warpCreate
  refine modify fun s u h => ?_
  rw [h.collateral]
  split
  · exact h
  · refine ⟨?_, h.2⟩
    unfold funds unrecorded; simp only []; agreed h

end Same
end Dollar
