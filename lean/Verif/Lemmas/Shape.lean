import Verif.Model.System
import Verif.Spec.Reach

/-
Every store is a proper map: its keys are strictly ascending (so there are no duplicates).
-/
set_option linter.unnecessarySeqFocus false
namespace Dollar
open MM

/-- Every non-panicking run of `x` keeps `P`. -/
structure Keeps (P : State → Prop) {α : Type} (x : M α) : Prop where
  steps : Steps (fun s s' => P s → P s') x

namespace Keeps
variable {P : State → Prop} {α β : Type}

theorem pure (a : α) : Keeps P (Pure.pure a : M α) := ⟨Steps.pure (fun _ h => h) a⟩
theorem get : Keeps P (MM.get : M State) := ⟨Steps.get (fun _ h => h)⟩
theorem fail (e : Err) : Keeps P (MM.fail e : M α) := ⟨Steps.fail (fun _ h => h) e⟩
theorem crash : Keeps P (MM.crash : M α) := ⟨Steps.crash⟩
theorem modify {f : State → State} (h : ∀ s, P s → P (f s)) : Keeps P (MM.modify f : M Unit) :=
  ⟨Steps.modify h⟩
theorem bind {x : M α} {f : α → M β} (hx : Keeps P x) (hf : ∀ a, Keeps P (f a)) :
    Keeps P (x >>= f) := ⟨Steps.bind (fun _ _ _ h1 h2 h => h2 (h1 h)) hx.steps fun a => (hf a).steps⟩
theorem ite {p : Prop} [Decidable p] {x y : M α} (hx : Keeps P x) (hy : Keeps P y) :
    Keeps P (if p then x else y) := ⟨Steps.ite (fun _ => hx.steps) (fun _ => hy.steps)⟩
theorem ignore {x : M Unit} (hx : Keeps P x) : Keeps P (MM.ignore x) := ⟨Steps.ignore hx.steps⟩
theorem attempt {x : M Unit} (hx : Keeps P x) : Keeps P (MM.attempt x) := ⟨Steps.attempt hx.steps⟩
theorem ok {x : M α} (hx : Keeps P x) {s s' : State} {a : α} (h : x s = .ok a s') (hs : P s) : P s' := by
  have := hx.steps s
  rw [h] at this
  exact this hs

theorem parse (r : PRes α) : Keeps P (parse r) := by
  cases r
  · exact pure _
  · exact fail _
  · exact crash

theorem emit (h : ∀ s (ev : List Event), P s → P { s with events := ev }) (e : Event) :
    Keeps P (emit e) := modify fun s hs => h s _ hs

theorem newCoin (a : Int) : Keeps P (newCoin a) := by
  unfold Dollar.newCoin; exact ite crash (pure _)
theorem principalUp (a i : Int) : Keeps P (principalUp a i) := by
  unfold Dollar.principalUp; exact ite crash (pure _)
theorem principalDown (a i : Int) : Keeps P (principalDown a i) := by
  unfold Dollar.principalDown; exact ite crash (pure _)
theorem hypRouter (env : Env) (t : Nat) : Keeps P (hypRouter env t) := by
  unfold Dollar.hypRouter
  split
  · exact pure _
  · exact fail _

end Keeps

/-- Break a computation into its primitive steps; what remains are the `modify`s. -/
macro "keeps" : tactic => `(tactic| repeat' (with_reducible first
  | assumption
  | exact Keeps.pure _ | exact Keeps.get | exact Keeps.fail _ | exact Keeps.crash
  | exact Keeps.newCoin _ | exact Keeps.principalUp _ _ | exact Keeps.principalDown _ _
  | exact Keeps.parse _ | exact Keeps.hypRouter _ _
  | refine Keeps.bind ?_ ?_ | refine Keeps.ite ?_ ?_ | refine Keeps.ignore ?_ | refine Keeps.attempt ?_
  | intro _ | split))

/-- All stores are strictly ascending. -/
structure Shape (s : State) : Prop where
  bal : s.bal.Sorted
  principal : s.principal.Sorted
  extYield : s.extYield.Sorted
  recipients : s.recipients.Sorted
  retry : s.retry.Sorted
  peers : s.peers.Sorted
  paths : s.paths.Sorted
  positions : s.positions.Sorted
  rewards : s.rewards.Sorted
  collateral : s.collateral.Sorted
  vouchers : s.vouchers.Sorted

namespace Shape

/-- The stores. -/
def stores (s : State) := (s.bal, s.principal, s.extYield, s.recipients, s.retry, s.peers, s.paths,
  s.positions, s.rewards, s.collateral, s.vouchers)

theorem congr {s s' : State} (h : Shape s) (e : stores s' = stores s := by rfl) : Shape s' := by
  simp only [stores, Prod.mk.injEq] at e
  obtain ⟨e1, e2, e3, e4, e5, e6, e7, e8, e9, e10, e11⟩ := e
  exact ⟨e1 ▸ h.bal, e2 ▸ h.principal, e3 ▸ h.extYield, e4 ▸ h.recipients, e5 ▸ h.retry,
    e6 ▸ h.peers, e7 ▸ h.paths, e8 ▸ h.positions, e9 ▸ h.rewards, e10 ▸ h.collateral,
    e11 ▸ h.vouchers⟩

variable (c : Cfg) (env : Env)

theorem emit (e : Event) : Keeps Shape (emit e) := Keeps.emit (fun _ _ h => h.congr) e

theorem setBalance (a : Addr) (v : Int) : Keeps Shape (setBalance a v) :=
  Keeps.modify fun _ h => { h with bal := KV.sorted_set _ _ h.bal }

theorem addPrincipal (a : Addr) (v : Int) : Keeps Shape (addPrincipal a v) :=
  Keeps.modify fun _ h => { h with principal := KV.sorted_set _ _ h.principal }

theorem subCoins (a : Addr) (v : Int) : Keeps Shape (subCoins a v) := by
  have := setBalance
  unfold Dollar.subCoins; keeps
  exact this _ _

theorem addCoins (a : Addr) (v : Int) : Keeps Shape (addCoins a v) := by
  have := setBalance
  unfold Dollar.addCoins; keeps
  exact this _ _

theorem restriction (a b : Addr) (v : Int) : Keeps Shape (sendRestriction c a b v) := by
  unfold sendRestriction restrictSender restrictRecipient incrementTotalPrincipal
    decrementTotalPrincipal incrementHolders decrementHolders
  keeps <;> first | exact addPrincipal _ _ | exact Keeps.modify fun _ h => h.congr

theorem sendCoins (a b : Addr) (v : Int) : Keeps Shape (sendCoins c a b v) := by
  unfold Dollar.sendCoins
  keeps <;> first | exact subCoins _ _ | exact addCoins _ _ | exact restriction _ _ _ _

theorem sendModuleToAccount (a b : Addr) (v : Int) : Keeps Shape (sendModuleToAccount c a b v) := by
  unfold Dollar.sendModuleToAccount
  keeps <;> exact sendCoins _ _ _ _

theorem mintCoins (v : Int) : Keeps Shape (mintCoins c v) := by
  unfold Dollar.mintCoins
  keeps <;> first | exact addCoins _ _ | exact Keeps.modify fun _ h => h.congr

theorem burnCoins (v : Int) : Keeps Shape (burnCoins c v) := by
  unfold Dollar.burnCoins
  keeps <;> first | exact subCoins _ _ | exact Keeps.modify fun _ h => h.congr

theorem multiSendOutputs (a : Addr) (l : List (Addr × Int)) : Keeps Shape (multiSendOutputs c a l) := by
  induction l with
  | nil => exact Keeps.pure _
  | cons e t ih =>
    unfold Dollar.multiSendOutputs
    keeps <;> first | exact restriction _ _ _ _ | exact addCoins _ _

theorem multiSend (a : Addr) (l : List (Addr × Int)) : Keeps Shape (multiSend c a l) := by
  unfold Dollar.multiSend
  keeps <;> first | exact subCoins _ _ | exact multiSendOutputs _ _ _

theorem claimYield (x : String) : Keeps Shape (claimYield c x) := by
  unfold Dollar.claimYield getYield
  keeps <;> first | exact sendModuleToAccount _ _ _ _ | exact emit _

theorem claimModuleYield (a : Addr) : Keeps Shape (claimModuleYield c a) := by
  unfold Dollar.claimModuleYield
  keeps <;> exact sendModuleToAccount _ _ _ _

theorem takeRetry (p : Int) (i : String) : Keeps Shape (takeRetry p i) := by
  unfold Dollar.takeRetry
  keeps <;> exact Keeps.modify fun _ h => { h with retry := KV.sorted_erase _ h.retry }

theorem incrementRetry (p : Int) (i : String) (a : Int) : Keeps Shape (incrementRetry p i a) :=
  Keeps.modify fun _ h => { h with retry := KV.sorted_set _ _ h.retry }

theorem incrementExtYield (p : Int) (i : String) (a : Int) : Keeps Shape (incrementExtYield p i a) :=
  Keeps.modify fun _ h => { h with extYield := KV.sorted_set _ _ h.extYield }

theorem ibcTransfer (ch : String) (a : Addr) (r : String) (v : Int) :
    Keeps Shape (ibcTransfer c env ch a r v) := by
  unfold Dollar.ibcTransfer ics4Check bookPacket
  keeps <;> first
    | exact sendCoins _ _ _ _
    | exact Keeps.modify fun _ h => { h with vouchers := KV.sorted_set _ _ h.vouchers }

theorem ibcOne (r : KV String String) (ch : String) : Keeps Shape (ibcOne c env r ch) := by
  unfold Dollar.ibcOne retryOnError
  keeps <;> first
    | exact claimModuleYield _ _ | exact takeRetry _ _ | exact ibcTransfer _ _ _ _ _ _
    | exact incrementRetry _ _ _ | exact incrementExtYield _ _ _

theorem ibcLoop (r : KV String String) (l : List String) : Keeps Shape (ibcLoop c env r l) := by
  induction l with
  | nil => exact Keeps.pure _
  | cons e t ih =>
    unfold Dollar.ibcLoop
    keeps
    exact ibcOne _ _ _ _

theorem hypRoutes (l : List String) : Keeps Shape (hypRoutes c l) := by
  induction l with
  | nil => exact Keeps.pure _
  | cons e t ih => unfold Dollar.hypRoutes; keeps

theorem warpTransfer (r : Route) (d : Nat) (b : Bytes) (a : Int) :
    Keeps Shape (warpTransfer c env r d b a) := by
  unfold Dollar.warpTransfer
  keeps <;> first
    | exact sendCoins _ _ _ _
    | exact Keeps.modify fun _ h => { h with collateral := KV.sorted_set _ _ h.collateral }
    | exact Keeps.modify fun _ h => h.congr

theorem hypOne (rs : KV String String) (t y : Int) (r : Route) : Keeps Shape (hypOne c env rs t y r) := by
  unfold Dollar.hypOne retryOnError
  keeps <;> first
    | exact takeRetry _ _ | exact warpTransfer _ _ _ _ _ _
    | exact incrementRetry _ _ _ | exact incrementExtYield _ _ _

theorem hypLoop (rs : KV String String) (t y : Int) (l : List Route) :
    Keeps Shape (hypLoop c env rs t y l) := by
  induction l with
  | nil => exact Keeps.pure _
  | cons e t ih =>
    unfold Dollar.hypLoop
    keeps
    exact hypOne _ _ _ _ _ _

theorem updateIndex (i : Int) : Keeps Shape (updateIndex c env i) := by
  unfold Dollar.updateIndex accrueYield handleVaults handleSeasonOne handleSeasonTwo
    claimStakedVaultYield claimExternalIBC claimExternalHyperlane incrementTotalYield
  keeps <;> first
    | exact emit _ | exact mintCoins _ _ | exact sendCoins _ _ _ _ | exact claimModuleYield _ _
    | exact sendModuleToAccount _ _ _ _ | exact addPrincipal _ _ | exact ibcLoop _ _ _ _
    | exact hypRoutes _ _ | exact hypLoop _ _ _ _ _ _
    | exact Keeps.modify fun _ h => { h with rewards := KV.sorted_set _ _ h.rewards }
    | exact Keeps.modify fun _ h => h.congr

theorem mint (r : Addr) (a i : Int) : Keeps Shape (mint c env r a i) := by
  unfold Dollar.mint
  keeps <;> first | exact updateIndex _ _ _ | exact mintCoins _ _ | exact sendModuleToAccount _ _ _ _

theorem burn (r : Addr) (a : Int) : Keeps Shape (burn c r a) := by
  unfold Dollar.burn
  keeps <;> first | exact burnCoins _ _ | exact sendCoins _ _ _ _

theorem deliver (b : Bytes) : Keeps Shape (deliver c env b) := by
  unfold Dollar.deliver deliverInner verifyVAA deliverPayload handlePayload handleToken handleIndex
  keeps <;> first
    | exact emit _ | exact mint _ _ _ _ _ | exact updateIndex _ _ _
    | exact Keeps.modify fun _ h => h.congr

theorem transfer (x : String) (a : Option Int) (ch : Nat) (t r : Bytes) :
    Keeps Shape (transfer c env x a ch t r) := by
  unfold Dollar.transfer transferSend incrementNonce postMessage
  keeps <;> first | exact emit _ | exact burn _ _ _ | exact Keeps.modify fun _ h => h.congr

theorem ensureOwner (x : String) : Keeps Shape (ensureOwner x) := by
  unfold Dollar.ensureOwner; keeps

theorem sorted_rewardsAfter {r : KV Int Reward} (h : r.Sorted) (a b p : Int) :
    (rewardsAfter r a b p).Sorted := by
  unfold rewardsAfter
  rw [KV.sorted_iff_keys] at h ⊢
  rw [List.map_map]
  exact h

theorem lockBook (x : String) (a : Addr) (v am t : Int) : Keeps Shape (lockBook x a v am t) := by
  unfold Dollar.lockBook lockTotal countNewUser addVaultPrincipal addTotalFlexible incrementVaultUsers
  keeps <;> first
    | exact emit _
    | exact Keeps.modify fun _ h => { h with positions := KV.sorted_set _ _ h.positions }
    | exact Keeps.modify fun _ h => h.congr

theorem lock (x : String) (v : Int) (a : Option Int) : Keeps Shape (lock c env x v a) := by
  unfold Dollar.lock
  keeps <;> first | exact sendCoins _ _ _ _ | exact lockBook _ _ _ _ _

theorem claimRewards (p : PosEntry) (a : Int) : Keeps Shape (claimRewards c p a) := by
  unfold Dollar.claimRewards
  keeps <;> first
    | exact emit _ | exact sendCoins _ _ _ _
    | exact Keeps.modify fun _ h => { h with rewards := sorted_rewardsAfter h.rewards _ _ _ }

theorem unlockOne (x : String) (a : Addr) (v : Int) (p : PosEntry) (r : Int) :
    Keeps Shape (unlockOne c x a v p r) := by
  unfold Dollar.unlockOne unlockPayout unlockFlexible addTotalFlexible incrementDistributed
    updatePosition
  keeps <;> first
    | exact emit _ | exact sendCoins _ _ _ _ | exact claimRewards _ _ _ | exact claimModuleYield _ _
    | exact Keeps.modify fun _ h => h.congr
    | exact Keeps.modify fun _ h => { h with positions := KV.sorted_erase _ h.positions }
    | exact Keeps.modify fun _ h => { h with positions := KV.sorted_set _ _ h.positions }

theorem unlockLoop (x : String) (a : Addr) (v : Int) (l : List PosEntry) (m n : Int) :
    Keeps Shape (unlockLoop c x a v l m n) := by
  induction l generalizing m n with
  | nil => exact Keeps.pure _
  | cons e t ih =>
    unfold Dollar.unlockLoop
    keeps
    · exact unlockOne _ _ _ _ _ _
    · exact ih _ _

theorem unlockInner (x : String) (v : Int) (a : Option Int) : Keeps Shape (unlockInner c x v a) := by
  unfold Dollar.unlockInner countGoneUser addVaultPrincipal decrementVaultUsers
  keeps <;> first
    | exact unlockLoop _ _ _ _ _ _ _
    | exact Keeps.modify fun _ h => h.congr

theorem addAmountToRetry (p ch : String) (d : Option PacketData) :
    Keeps Shape (addAmountToRetry c p ch d) := by
  unfold Dollar.addAmountToRetry
  keeps <;> exact incrementRetry _ _ _

theorem refund (p : IbcOut) : Keeps Shape (refund c p) := by
  unfold Dollar.refund
  keeps <;> first
    | exact sendCoins _ _ _ _
    | exact Keeps.modify fun _ h => { h with vouchers := KV.sorted_set _ _ h.vouchers }

theorem exec (m : Msg) : Keeps Shape (exec c env m) := by
  cases m with
  | claimYield => exact claimYield _ _
  | setPaused =>
    show Keeps Shape (setPaused _ _ _)
    unfold setPaused
    keeps <;> first | exact emit _ | exact Keeps.modify fun _ h => h.congr
  | setYieldRecipient =>
    show Keeps Shape (setYieldRecipient _ _ _ _ _ _)
    unfold setYieldRecipient checkRoute
    keeps <;> first
      | exact emit _
      | exact Keeps.modify fun _ h => { h with recipients := KV.sorted_set _ _ h.recipients }
  | deliver => exact deliver _ _ _
  | transfer => exact transfer _ _ _ _ _ _ _
  | portalSetPaused =>
    show Keeps Shape (portalSetPaused _ _)
    unfold portalSetPaused
    keeps <;> first | exact emit _ | exact ensureOwner _ | exact Keeps.modify fun _ h => h.congr
  | setPeer =>
    show Keeps Shape (setPeer _ _ _ _ _)
    unfold setPeer
    keeps <;> first
      | exact emit _ | exact ensureOwner _
      | exact Keeps.modify fun _ h => { h with peers := KV.sorted_set _ _ h.peers }
  | setBridgingPath =>
    show Keeps Shape (setBridgingPath _ _ _ _ _)
    unfold setBridgingPath
    keeps <;> first
      | exact emit _ | exact ensureOwner _
      | exact Keeps.modify fun _ h => { h with paths := KV.sorted_set _ _ h.paths }
  | transferOwnership =>
    show Keeps Shape (transferOwnership _ _ _)
    unfold transferOwnership
    keeps <;> first | exact emit _ | exact ensureOwner _ | exact Keeps.modify fun _ h => h.congr
  | lock => exact lock _ _ _ _ _
  | unlock =>
    show Keeps Shape (unlock _ _ _ _)
    unfold unlock
    keeps
    exact unlockInner _ _ _ _
  | vaultsSetPaused =>
    show Keeps Shape (vaultsSetPaused _ _ _)
    unfold vaultsSetPaused
    keeps <;> first | exact emit _ | exact Keeps.modify fun _ h => h.congr
  | bankSend =>
    show Keeps Shape (bankSend _ _ _ _)
    unfold bankSend
    keeps
    exact sendCoins _ _ _ _
  | keeperSend =>
    show Keeps Shape (keeperSend _ _ _ _)
    unfold keeperSend
    keeps
    exact sendCoins _ _ _ _
  | bankMultiSend =>
    show Keeps Shape (bankMultiSend _ _ _)
    unfold bankMultiSend
    keeps
    exact multiSend _ _ _
  | ibcTransfer =>
    show Keeps Shape (userIbcTransfer _ _ _ _ _ _)
    unfold userIbcTransfer
    keeps
    exact ibcTransfer _ _ _ _ _ _
  | ibcReceive =>
    show Keeps Shape (ibcReceive _ _ _ _)
    unfold ibcReceive
    keeps <;> first
      | exact sendCoins _ _ _ _
      | exact Keeps.modify fun _ h => { h with vouchers := KV.sorted_set _ _ h.vouchers }
  | ibcTimeout =>
    show Keeps Shape (packetFailed _ _ _)
    unfold packetFailed onTimeout onAck
    keeps <;> first | exact addAmountToRetry _ _ _ _ | exact refund _ _
  | ibcAckError =>
    show Keeps Shape (packetFailed _ _ _)
    unfold packetFailed onTimeout onAck
    keeps <;> first | exact addAmountToRetry _ _ _ _ | exact refund _ _
  | ibcAckSuccess =>
    show Keeps Shape (packetAcked _ _)
    unfold packetAcked onAck ackSuccess
    keeps <;> first | exact addAmountToRetry _ _ _ _ | exact Keeps.modify fun _ h => h.congr
  | warpCreate =>
    refine Keeps.modify fun _ h => ?_
    split
    · exact h
    · exact { h with collateral := KV.sorted_set _ _ h.collateral }
  | warpTransfer =>
    show Keeps Shape (warpSend _ _ _ _ _ _)
    unfold warpSend
    keeps <;> first
      | exact sendCoins _ _ _ _
      | exact Keeps.modify fun _ h => { h with collateral := KV.sorted_set _ _ h.collateral }
  | warpReceive =>
    show Keeps Shape (warpReceive _ _ _ _)
    unfold warpReceive
    keeps <;> first
      | exact sendModuleToAccount _ _ _ _
      | exact Keeps.modify fun _ h => { h with collateral := KV.sorted_set _ _ h.collateral }

end Shape

theorem Keeps.step {P : State → Prop} {c : Cfg} {env : Env} {m : Msg} (h : Keeps P (exec c env m))
    {s : State} (hs : P s) : P (step c env m s) := by
  unfold Dollar.step runTx
  cases hx : exec c env m s with
  | ok u s' => exact h.ok hx hs
  | err e s' => exact hs
  | panic => exact hs

theorem Initial.shape {c : Cfg} {s : State} (h : Initial c s) : Shape s where
  bal := by rw [h.bal]; exact KV.sorted_nil
  principal := by rw [h.principal]; exact KV.sorted_nil
  extYield := by rw [h.extYield]; exact KV.sorted_nil
  recipients := h.recipients
  retry := by rw [h.retry]; exact KV.sorted_nil
  peers := h.peers
  paths := h.paths
  positions := by rw [h.positions]; exact KV.sorted_nil
  rewards := by rw [h.rewards]; exact KV.sorted_nil
  collateral := by rw [h.collateral]; exact KV.sorted_nil
  vouchers := by rw [h.vouchers]; exact KV.sorted_nil

theorem Shape.upgrade {c : Cfg} {s s' : State} (h : Shape s) (hu : Upgrade c s s') : Shape s' := by
  obtain ⟨⟨_, _, _, _, _, _, _, _, _, rfl⟩, h1, h2, h3, _⟩ := hu
  exact ⟨h.bal, h.principal, h.extYield, h1, h.retry, h2, h3, h.positions, h.rewards, h.collateral, h.vouchers⟩

theorem Reachable.shape {c : Cfg} {s : State} (h : Reachable c s) : Shape s :=
  Reachable.induct (fun _ hi => hi.shape) (fun _ env m hs _ => (Shape.exec c env m).step hs)
    (fun _ _ hs hu => hs.upgrade hu) h

end Dollar
