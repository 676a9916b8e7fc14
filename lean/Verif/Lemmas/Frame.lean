import Verif.Lemmas.Shape
import Verif.Lemmas.WP

/-
What the inner workings of the module never touch: settings, season, archive of VAAs, posted
messages and nonce.
-/
set_option linter.unnecessarySeqFocus false
set_option linter.unusedTactic false
set_option linter.unreachableTactic false
namespace Dollar
open MM

/-- Administrative settings. -/
structure Settings where
  paused : Bool
  recipients : KV (Int × String) String
  owner : String
  portalPaused : Bool
  peers : KV Nat Peer
  paths : KV (Nat × Bytes) Bool
  vPaused : Int
  seasonOneEnded : Bool
  collector : Addr

/-- The settings of a state. -/
def settings (s : State) : Settings :=
  ⟨s.paused, s.recipients, s.owner, s.portalPaused, s.peers, s.paths, s.vPaused, s.seasonOneEnded,
    s.collector⟩

/-- Everything that no inner function touches. -/
def still (s : State) : Settings × List Bytes × List (Bytes × Nat) × Nat :=
  (settings s, s.archive, s.posted, s.nonce)

/-- `x` leaves `f` alone. -/
abbrev Leaves {β α : Type} (f : State → β) (x : M α) : Prop := ∀ v, Keeps (fun s => f s = v) x

theorem Leaves.ok {β α : Type} {f : State → β} {x : M α} (h : Leaves f x) {s s' : State} {a : α}
    (hx : x s = .ok a s') : f s' = f s := (h (f s)).ok hx rfl

theorem Leaves.mono {β γ α : Type} {f : State → β} {g : State → γ} {x : M α} (h : Leaves f x)
    (hg : ∀ s s', f s' = f s → g s' = g s) : Leaves g x := by
  intro v
  constructor
  intro s
  have := (h (f s)).steps s
  cases hx : x s with
  | ok a s' => rw [hx] at this; intro he; rw [← he]; exact hg _ _ (this rfl)
  | err a s' => rw [hx] at this; intro he; rw [← he]; exact hg _ _ (this rfl)
  | panic => trivial

/-- `keeps` for frames: a `modify` that does not touch the observed part is closed by `rfl`. -/
macro "leaves" : tactic => `(tactic| (intro _; keeps <;> try exact Keeps.modify fun _ h => h))

namespace Still
variable (c : Cfg) (env : Env)

theorem emit (e : Event) : Leaves still (emit e) := fun _ => Keeps.modify fun _ h => h

theorem sendCoins (a b : Addr) (v : Int) : Leaves still (sendCoins c a b v) := by
  unfold Dollar.sendCoins Dollar.subCoins Dollar.addCoins Dollar.setBalance sendRestriction restrictSender
    restrictRecipient incrementTotalPrincipal decrementTotalPrincipal incrementHolders decrementHolders
    addPrincipal
  leaves

theorem multiSend (a : Addr) (l : List (Addr × Int)) : Leaves still (multiSend c a l) := by
  have h : Leaves still (multiSendOutputs c a l) := by
    induction l with
    | nil => exact fun _ => Keeps.pure _
    | cons e t ih =>
      unfold Dollar.multiSendOutputs Dollar.addCoins Dollar.setBalance sendRestriction restrictSender
        restrictRecipient incrementTotalPrincipal decrementTotalPrincipal incrementHolders
        decrementHolders addPrincipal
      leaves <;> exact ih _
  unfold Dollar.multiSend Dollar.subCoins Dollar.setBalance
  leaves
  exact h _

theorem sendModuleToAccount (a b : Addr) (v : Int) : Leaves still (sendModuleToAccount c a b v) := by
  unfold Dollar.sendModuleToAccount
  leaves
  exact sendCoins _ _ _ _ _

theorem mintCoins (v : Int) : Leaves still (mintCoins c v) := by
  unfold Dollar.mintCoins Dollar.addCoins Dollar.setBalance
  leaves

theorem burn (a : Addr) (v : Int) : Leaves still (burn c a v) := by
  unfold Dollar.burn burnCoins Dollar.subCoins Dollar.setBalance
  leaves
  exact sendCoins _ _ _ _ _

theorem claimModuleYield (a : Addr) : Leaves still (claimModuleYield c a) := by
  unfold Dollar.claimModuleYield
  leaves
  exact sendModuleToAccount _ _ _ _ _

theorem claimYield (x : String) : Leaves still (claimYield c x) := by
  unfold Dollar.claimYield getYield
  leaves <;> first | exact sendModuleToAccount _ _ _ _ _ | exact emit _ _

theorem ibcTransfer (ch : String) (a : Addr) (r : String) (v : Int) :
    Leaves still (ibcTransfer c env ch a r v) := by
  unfold Dollar.ibcTransfer ics4Check bookPacket
  leaves <;> exact sendCoins _ _ _ _ _

theorem ibcLoop (r : KV String String) (l : List String) : Leaves still (ibcLoop c env r l) := by
  induction l with
  | nil => exact fun _ => Keeps.pure _
  | cons e t ih =>
    unfold Dollar.ibcLoop ibcOne takeRetry retryOnError incrementRetry incrementExtYield
    leaves <;> first | exact ih _ | exact claimModuleYield _ _ _ | exact ibcTransfer _ _ _ _ _ _ _

theorem hypRoutes (l : List String) : Leaves still (hypRoutes c l) := by
  induction l with
  | nil => exact fun _ => Keeps.pure _
  | cons e t ih =>
    unfold Dollar.hypRoutes
    leaves
    exact ih _

theorem hypLoop (rs : KV String String) (t y : Int) (l : List Route) :
    Leaves still (hypLoop c env rs t y l) := by
  induction l with
  | nil => exact fun _ => Keeps.pure _
  | cons e t ih =>
    unfold Dollar.hypLoop hypOne takeRetry retryOnError incrementRetry incrementExtYield
      Dollar.warpTransfer
    leaves <;> first | exact ih _ | exact sendCoins _ _ _ _ _

theorem updateIndex (i : Int) : Leaves still (updateIndex c env i) := by
  unfold Dollar.updateIndex accrueYield handleVaults handleSeasonOne handleSeasonTwo
    claimStakedVaultYield claimExternalIBC claimExternalHyperlane incrementTotalYield addPrincipal
  leaves <;> first
    | exact emit _ _ | exact mintCoins _ _ _ | exact sendCoins _ _ _ _ _ | exact claimModuleYield _ _ _
    | exact sendModuleToAccount _ _ _ _ _ | exact ibcLoop _ _ _ _ _
    | exact hypRoutes _ _ _ | exact hypLoop _ _ _ _ _ _ _

theorem mint (r : Addr) (a i : Int) : Leaves still (mint c env r a i) := by
  unfold Dollar.mint
  leaves <;> first
    | exact updateIndex _ _ _ _ | exact mintCoins _ _ _ | exact sendModuleToAccount _ _ _ _ _

theorem handlePayload (p : Sl) (ev : EventsPayload) : Leaves still (handlePayload c env p ev) := by
  unfold Dollar.handlePayload handleToken handleIndex
  leaves <;> first | exact emit _ _ | exact mint _ _ _ _ _ _ | exact updateIndex _ _ _ _

theorem deliverPayload (p : Peer) (v : VAA) : Leaves still (deliverPayload c env p v) := by
  unfold Dollar.deliverPayload
  leaves
  exact handlePayload _ _ _ _ _

theorem lock (x : String) (v : Int) (a : Option Int) : Leaves still (lock c env x v a) := by
  unfold Dollar.lock lockBook lockTotal countNewUser addVaultPrincipal addTotalFlexible incrementVaultUsers
  leaves <;> first | exact sendCoins _ _ _ _ _ | exact emit _ _

theorem unlockLoop (x : String) (a : Addr) (v : Int) (l : List PosEntry) (m n : Int) :
    Leaves still (unlockLoop c x a v l m n) := by
  induction l generalizing m n with
  | nil => exact fun _ => Keeps.pure _
  | cons e t ih =>
    unfold Dollar.unlockLoop unlockOne unlockPayout unlockFlexible addTotalFlexible
      incrementDistributed updatePosition claimRewards
    leaves <;> first
      | exact ih _ _ _ | exact sendCoins _ _ _ _ _ | exact emit _ _ | exact claimModuleYield _ _ _

theorem unlockInner (x : String) (v : Int) (a : Option Int) : Leaves still (unlockInner c x v a) := by
  unfold Dollar.unlockInner countGoneUser addVaultPrincipal decrementVaultUsers
  leaves <;> exact unlockLoop _ _ _ _ _ _ _ _

theorem unlock (x : String) (v : Int) (a : Option Int) : Leaves still (unlock c x v a) := by
  unfold Dollar.unlock
  leaves
  exact unlockInner _ _ _ _ _

end Still

/-- Messages that never touch settings, archive, posted messages or nonce. -/
def Msg.isPlain : Msg → Bool
  | .claimYield _ | .lock .. | .unlock .. | .bankSend .. | .keeperSend .. | .bankMultiSend .. | .ibcTransfer ..
  | .ibcReceive .. | .ibcTimeout _ | .ibcAckError _ | .ibcAckSuccess _ | .warpCreate _
  | .warpTransfer .. | .warpReceive .. => true
  | _ => false

theorem Still.plain (c : Cfg) (env : Env) (m : Msg) (h : m.isPlain = true) :
    Leaves still (exec c env m) := by
  cases m with
  | claimYield => exact claimYield _ _
  | lock => exact lock _ _ _ _ _
  | unlock => exact unlock _ _ _ _
  | bankSend =>
    show Leaves still (bankSend _ _ _ _)
    unfold bankSend
    leaves
    exact sendCoins _ _ _ _ _
  | keeperSend =>
    show Leaves still (keeperSend _ _ _ _)
    unfold keeperSend
    leaves
    exact sendCoins _ _ _ _ _
  | bankMultiSend =>
    show Leaves still (bankMultiSend _ _ _)
    unfold bankMultiSend
    leaves
    exact multiSend _ _ _ _
  | ibcTransfer =>
    show Leaves still (userIbcTransfer _ _ _ _ _ _)
    unfold userIbcTransfer
    leaves
    exact ibcTransfer _ _ _ _ _ _ _
  | ibcReceive =>
    show Leaves still (ibcReceive _ _ _ _)
    unfold ibcReceive
    leaves
    exact sendCoins _ _ _ _ _
  | ibcTimeout =>
    show Leaves still (packetFailed _ _ _)
    unfold packetFailed onTimeout onAck addAmountToRetry refund incrementRetry
    leaves <;> exact sendCoins _ _ _ _ _
  | ibcAckError =>
    show Leaves still (packetFailed _ _ _)
    unfold packetFailed onTimeout onAck addAmountToRetry refund incrementRetry
    leaves <;> exact sendCoins _ _ _ _ _
  | ibcAckSuccess =>
    show Leaves still (packetAcked _ _)
    unfold packetAcked onAck ackSuccess addAmountToRetry incrementRetry
    leaves
  | warpCreate =>
    intro v
    refine Keeps.modify fun s h => ?_
    split
    · exact h
    · exact h
  | warpTransfer =>
    show Leaves still (warpSend _ _ _ _ _ _)
    unfold warpSend
    leaves
    exact sendCoins _ _ _ _ _
  | warpReceive =>
    show Leaves still (warpReceive _ _ _ _)
    unfold warpReceive
    leaves
    exact sendModuleToAccount _ _ _ _ _
  | _ => cases h

/-- A delivery only archives its digest. -/
theorem Still.deliver {c : Cfg} {env : Env} {bz : Bytes} {s s' : State} {u : Unit}
    (h : deliver c env bz s = .ok u s') : settings s' = settings s ∧ s'.posted = s.posted ∧
      s'.nonce = s.nonce ∧ ∃ v, env.verify bz = some v ∧ v.digest ∉ s.archive ∧
        s'.archive = s.archive ++ [v.digest] := by
  unfold Dollar.deliver deliverInner verifyVAA at h
  simp only [bind_ok, get_ok] at h
  obtain ⟨u1, s1, ⟨_, _, ⟨rfl, rfl⟩, h1⟩, h2⟩ := h
  rw [ite_ok] at h1
  rcases h1 with ⟨_, h1⟩ | ⟨_, h1⟩
  · cases h1
  simp only [bind_ok] at h1
  obtain ⟨v, m, hv, h1⟩ := h1
  cases hx : env.verify bz with
  | none => simp only [hx] at hv; cases hv
  | some w =>
    simp only [hx, bind_ok, get_ok] at hv
    obtain ⟨_, _, ⟨rfl, rfl⟩, hv⟩ := hv
    rw [ite_ok] at hv
    rcases hv with ⟨_, hv⟩ | ⟨hn, hv⟩
    · cases hv
    simp only [bind_ok, modify_ok, pure_ok] at hv
    obtain ⟨_, _, rfl, rfl, rfl⟩ := hv
    cases hp : s.peers.get? w.emitterChain with
    | none => simp only [hp] at h1; cases h1
    | some peer =>
      simp only [hp] at h1
      rw [ite_ok] at h1
      rcases h1 with ⟨_, h1⟩ | ⟨_, h1⟩
      · cases h1
      have e1 := (Still.deliverPayload c env peer w).ok h1
      have e2 := (Still.emit _).ok h2
      rw [e1] at e2
      simp only [still, Prod.mk.injEq] at e2
      exact ⟨e2.1, e2.2.2.1, e2.2.2.2, w, rfl, hn, e2.2.1⟩

end Dollar
