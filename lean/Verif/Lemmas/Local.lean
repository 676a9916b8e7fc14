import Verif.Lemmas.Ledger
import Verif.Lemmas.Settings

/-
Frames: which message touches which group of stores, and which account.
-/
set_option linter.unusedSimpArgs false
set_option linter.unusedTactic false
set_option linter.unreachableTactic false
set_option linter.unnecessarySeqFocus false
namespace Dollar
open MM

/-! ### Groups of stores -/

/-- The vault stores. -/
def vaultF (s : State) : KV (Addr × Int × Int) Position × Int × KV Int Reward × VStats :=
  (s.positions, s.totalFlexible, s.rewards, s.vstats)

/-- The stores of the external routes. -/
def routeF (s : State) : KV (Int × String) Int × KV (Int × String) Int × KV Nat Int × List IbcOut ×
    List IbcOut × KV String Int × List WarpOut :=
  (s.extYield, s.retry, s.collateral, s.ibcOut, s.inflight, s.vouchers, s.warpOut)

/-- Both groups. -/
def otherF (s : State) := (vaultF s, routeF s)

namespace Other
variable (c : Cfg) (env : Env)

theorem emit (e : Event) : Leaves otherF (emit e) := fun _ => Keeps.modify fun _ h => h

theorem sendCoins (a b : Addr) (v : Int) : Leaves otherF (sendCoins c a b v) := by
  unfold Dollar.sendCoins Dollar.subCoins Dollar.addCoins Dollar.setBalance sendRestriction restrictSender
    restrictRecipient incrementTotalPrincipal decrementTotalPrincipal incrementHolders decrementHolders
    addPrincipal
  leaves

theorem multiSend (a : Addr) (l : List (Addr × Int)) : Leaves otherF (multiSend c a l) := by
  have h : Leaves otherF (multiSendOutputs c a l) := by
    induction l with
    | nil => exact fun _ => Keeps.pure _
    | cons e t ih =>
      unfold Dollar.multiSendOutputs Dollar.addCoins Dollar.setBalance sendRestriction restrictSender
        restrictRecipient incrementTotalPrincipal decrementTotalPrincipal incrementHolders
        decrementHolders addPrincipal
      leaves <;> exact ih _
  unfold Dollar.multiSend Dollar.subCoins Dollar.setBalance
  leaves
  exact h _

theorem sendModuleToAccount (a b : Addr) (v : Int) : Leaves otherF (sendModuleToAccount c a b v) := by
  unfold Dollar.sendModuleToAccount
  leaves
  exact sendCoins _ _ _ _ _

theorem mintCoins (v : Int) : Leaves otherF (mintCoins c v) := by
  unfold Dollar.mintCoins Dollar.addCoins Dollar.setBalance
  leaves

theorem burn (a : Addr) (v : Int) : Leaves otherF (burn c a v) := by
  unfold Dollar.burn burnCoins Dollar.subCoins Dollar.setBalance
  leaves
  exact sendCoins _ _ _ _ _

theorem claimModuleYield (a : Addr) : Leaves otherF (claimModuleYield c a) := by
  unfold Dollar.claimModuleYield
  leaves
  exact sendModuleToAccount _ _ _ _ _

theorem claimYield (x : String) : Leaves otherF (claimYield c x) := by
  unfold Dollar.claimYield getYield
  leaves <;> first | exact sendModuleToAccount _ _ _ _ _ | exact emit _ _

theorem transfer (x : String) (a : Option Int) (ch : Nat) (t r : Bytes) :
    Leaves otherF (transfer c env x a ch t r) := by
  unfold Dollar.transfer transferSend incrementNonce postMessage
  leaves <;> first | exact burn _ _ _ _ | exact emit _ _

theorem bankSend (a b : Addr) (v : Int) : Leaves otherF (bankSend c a b v) := by
  unfold Dollar.bankSend
  leaves
  exact sendCoins _ _ _ _ _

theorem keeperSend (a b : Addr) (v : Int) : Leaves otherF (keeperSend c a b v) := by
  unfold Dollar.keeperSend
  leaves
  exact sendCoins _ _ _ _ _

theorem bankMultiSend (a : Addr) (l : List (Addr × Int)) : Leaves otherF (bankMultiSend c a l) := by
  unfold Dollar.bankMultiSend
  leaves
  exact multiSend _ _ _ _

theorem admin (m : Msg) (h : m.isPlain = false) (hp : m.isPortal = false) :
    Leaves otherF (exec c env m) := by
  cases m <;> first | exact Bool.noConfusion h | exact Bool.noConfusion hp | skip
  all_goals
    unfold exec
    try unfold Dollar.setPaused
    try unfold Dollar.setYieldRecipient checkRoute
    try unfold Dollar.portalSetPaused
    try unfold Dollar.setPeer
    try unfold Dollar.setBridgingPath
    try unfold Dollar.transferOwnership
    try unfold Dollar.vaultsSetPaused
    try unfold Dollar.ensureOwner
    leaves <;> exact emit _ _

end Other

/-- Messages that touch neither vault stores nor route stores. -/
def Msg.noOther : Msg → Bool
  | .lock .. | .unlock .. | .deliver _ | .ibcTransfer .. | .ibcReceive .. | .ibcTimeout _
  | .ibcAckError _ | .ibcAckSuccess _ | .warpCreate _ | .warpTransfer .. | .warpReceive .. => false
  | _ => true

theorem Other.msg (c : Cfg) (env : Env) (m : Msg) (h : m.noOther = true) :
    Leaves otherF (exec c env m) := by
  cases m <;> first | exact Bool.noConfusion h | skip
  case claimYield => exact claimYield _ _
  case transfer => exact transfer _ _ _ _ _ _ _
  case bankSend => exact bankSend _ _ _ _
  case keeperSend => exact keeperSend _ _ _ _
  case bankMultiSend => exact bankMultiSend _ _ _
  all_goals exact admin _ _ _ rfl rfl

/-! ### Vault stores under route messages, route stores under vault messages -/

namespace VaultF
variable (c : Cfg) (env : Env)

theorem sendCoins (a b : Addr) (v : Int) : Leaves vaultF (sendCoins c a b v) :=
  (Other.sendCoins c a b v).mono fun _ _ h => congrArg Prod.fst h

theorem sendModuleToAccount (a b : Addr) (v : Int) : Leaves vaultF (sendModuleToAccount c a b v) :=
  (Other.sendModuleToAccount c a b v).mono fun _ _ h => congrArg Prod.fst h

theorem route (m : Msg) (h : m.noOther = false) (hp : m.isPortal = false)
    (hl : ∀ a b d, m ≠ .lock a b d) (hu : ∀ a b d, m ≠ .unlock a b d) :
    Leaves vaultF (exec c env m) := by
  cases m <;> first | exact Bool.noConfusion h | exact Bool.noConfusion hp | skip
  case lock => exact absurd rfl (hl _ _ _)
  case unlock => exact absurd rfl (hu _ _ _)
  case ibcTransfer a b d e =>
    show Leaves vaultF (userIbcTransfer c env a b d e)
    unfold userIbcTransfer Dollar.ibcTransfer ics4Check bookPacket
    leaves <;> exact sendCoins _ _ _ _ _
  case ibcReceive a b d =>
    show Leaves vaultF (ibcReceive c a b d)
    unfold ibcReceive
    leaves <;> exact sendCoins _ _ _ _ _
  case ibcTimeout p =>
    show Leaves vaultF (packetFailed c p true)
    unfold packetFailed onTimeout onAck addAmountToRetry refund incrementRetry
    leaves <;> exact sendCoins _ _ _ _ _
  case ibcAckError p =>
    show Leaves vaultF (packetFailed c p false)
    unfold packetFailed onTimeout onAck addAmountToRetry refund incrementRetry
    leaves <;> exact sendCoins _ _ _ _ _
  case ibcAckSuccess p =>
    show Leaves vaultF (packetAcked c p)
    unfold packetAcked onAck ackSuccess addAmountToRetry incrementRetry
    leaves
  case warpCreate t =>
    show Leaves vaultF (warpCreate t)
    unfold Dollar.warpCreate
    intro _
    refine Keeps.modify fun s h => ?_
    split <;> exact h
  case warpTransfer a b d e f =>
    show Leaves vaultF (warpSend c b d a e f)
    unfold Dollar.warpSend
    leaves <;> exact sendCoins _ _ _ _ _
  case warpReceive a b d =>
    show Leaves vaultF (warpReceive c a b d)
    unfold Dollar.warpReceive
    leaves <;> exact sendModuleToAccount _ _ _ _ _

end VaultF

namespace RouteF
variable (c : Cfg) (env : Env)

theorem sendCoins (a b : Addr) (v : Int) : Leaves routeF (sendCoins c a b v) :=
  (Other.sendCoins c a b v).mono fun _ _ h => congrArg Prod.snd h

theorem claimModuleYield (a : Addr) : Leaves routeF (claimModuleYield c a) :=
  (Other.claimModuleYield c a).mono fun _ _ h => congrArg Prod.snd h

theorem emit (e : Event) : Leaves routeF (emit e) := fun _ => Keeps.modify fun _ h => h

theorem lock (x : String) (v : Int) (a : Option Int) : Leaves routeF (lock c env x v a) := by
  unfold Dollar.lock lockBook lockTotal countNewUser addVaultPrincipal addTotalFlexible incrementVaultUsers
  leaves <;> first
    | exact sendCoins _ _ _ _ _ | exact emit _ _
    | (refine Keeps.modify fun s h => ?_; split <;> first | exact h | (split <;> exact h))

theorem unlockLoop (x : String) (a : Addr) (v : Int) (l : List PosEntry) (m n : Int) :
    Leaves routeF (unlockLoop c x a v l m n) := by
  induction l generalizing m n with
  | nil => exact fun _ => Keeps.pure _
  | cons e t ih =>
    unfold Dollar.unlockLoop unlockOne unlockPayout unlockFlexible addTotalFlexible
      incrementDistributed updatePosition claimRewards
    leaves <;> first
      | exact ih _ _ _ | exact sendCoins _ _ _ _ _ | exact emit _ _ | exact claimModuleYield _ _ _
      | (refine Keeps.modify fun s h => ?_; split <;> exact h)

theorem unlockInner (x : String) (v : Int) (a : Option Int) : Leaves routeF (unlockInner c x v a) := by
  unfold Dollar.unlockInner countGoneUser addVaultPrincipal decrementVaultUsers
  leaves <;> first
    | exact unlockLoop _ _ _ _ _ _ _ _
    | (refine Keeps.modify fun s h => ?_; split <;> first | exact h | (split <;> exact h))

theorem unlock (x : String) (v : Int) (a : Option Int) : Leaves routeF (unlock c x v a) := by
  unfold Dollar.unlock
  leaves
  exact unlockInner _ _ _ _ _

end RouteF

/-! ### One account -/

/-- Balance and principal of one account. -/
def bp (x : Addr) (s : State) : Int × Int := (s.balance x, s.principalOf x)

theorem bp_modify {x : Addr} {f : State → State} (h : ∀ s, bp x (f s) = bp x s) :
    Leaves (bp x) (MM.modify f : M Unit) := fun _ => Keeps.modify fun s hs => (h s).trans hs

namespace Acct
variable (c : Cfg) (env : Env) {x : Addr}

theorem emit (e : Event) : Leaves (bp x) (emit e) := fun _ => Keeps.modify fun _ h => h

theorem setBalance {a : Addr} (h : x ≠ a) (v : Int) : Leaves (bp x) (setBalance a v) :=
  bp_modify fun s => by
    unfold bp
    rw [balance_bal_set, if_neg h]
    rfl

theorem addPrincipal {a : Addr} (h : x ≠ a) (v : Int) : Leaves (bp x) (addPrincipal a v) :=
  bp_modify fun s => by
    unfold bp
    rw [principalOf_addPrincipal, if_neg h]
    simp only [Int.add_zero]
    rfl

theorem sendCoins {a b : Addr} (ha : x ≠ a) (hb : x ≠ b) (v : Int) :
    Leaves (bp x) (sendCoins c a b v) := by
  unfold Dollar.sendCoins Dollar.subCoins Dollar.addCoins sendRestriction restrictSender
    restrictRecipient incrementTotalPrincipal decrementTotalPrincipal incrementHolders decrementHolders
  leaves <;> first
    | exact setBalance ha _ _ | exact setBalance hb _ _ | exact addPrincipal ha _ _
    | exact addPrincipal hb _ _

theorem sendModuleToAccount {a b : Addr} (ha : x ≠ a) (hb : x ≠ b) (v : Int) :
    Leaves (bp x) (sendModuleToAccount c a b v) := by
  unfold Dollar.sendModuleToAccount
  leaves
  exact sendCoins _ ha hb _ _

theorem claimModuleYield {a : Addr} (hy : x ≠ c.yieldAddr) (ha : x ≠ a) :
    Leaves (bp x) (claimModuleYield c a) := by
  unfold Dollar.claimModuleYield
  leaves
  exact sendModuleToAccount _ hy ha _ _

theorem ibcTransfer {ch : String} {a : Addr} (ha : x ≠ a) (he : x ≠ c.escrowAddr ch) (r : String)
    (v : Int) : Leaves (bp x) (ibcTransfer c env ch a r v) := by
  unfold Dollar.ibcTransfer ics4Check bookPacket
  leaves <;> exact sendCoins _ ha he _ _

theorem ibcLoop (hy : x ≠ c.yieldAddr) (he : ∀ ch, x ≠ c.escrowAddr ch) (r : KV String String)
    (l : List String) : Leaves (bp x) (ibcLoop c env r l) := by
  induction l with
  | nil => exact fun _ => Keeps.pure _
  | cons e t ih =>
    unfold Dollar.ibcLoop ibcOne takeRetry retryOnError incrementRetry incrementExtYield
    leaves <;> first
      | exact ih _ | exact claimModuleYield _ hy (he _) _ | exact ibcTransfer _ _ (he _) (he _) _ _ _

theorem claimExternalIBC (hy : x ≠ c.yieldAddr) (he : ∀ ch, x ≠ c.escrowAddr ch) :
    Leaves (bp x) (claimExternalIBC c env) := by
  unfold Dollar.claimExternalIBC
  leaves
  exact ibcLoop _ _ hy he _ _ _

theorem hypRoutes (l : List String) : Leaves (bp x) (hypRoutes c l) := by
  induction l with
  | nil => exact fun _ => Keeps.pure _
  | cons e t ih =>
    unfold Dollar.hypRoutes
    leaves
    exact ih _

theorem hypLoop (hw : x ≠ c.warpAddr) (rs : KV String String) (t y : Int) (l : List Route) :
    Leaves (bp x) (hypLoop c env rs t y l) := by
  induction l with
  | nil => exact fun _ => Keeps.pure _
  | cons e t ih =>
    unfold Dollar.hypLoop hypOne takeRetry retryOnError incrementRetry incrementExtYield
      Dollar.warpTransfer
    leaves <;> first | exact ih _ | exact sendCoins _ hw hw _ _

theorem claimExternalHyperlane (hy : x ≠ c.yieldAddr) (hw : x ≠ c.warpAddr) :
    Leaves (bp x) (claimExternalHyperlane c env) := by
  unfold Dollar.claimExternalHyperlane
  leaves <;> first
    | exact claimModuleYield _ hy hw _ | exact hypRoutes _ _ _ | exact hypLoop _ _ hw _ _ _ _ _

end Acct

end Dollar
