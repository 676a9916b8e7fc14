import Verif.Lemmas.Blind

/-
States that differ only in the archive of delivered messages and in the log: index updates and mints do not
tell them apart.
-/
set_option linter.unusedSimpArgs false
set_option linter.unnecessarySeqFocus false
namespace Dollar
open MM Spec

/-- `t` is `s` with another archive and another log. -/
def Relogged (s t : State) : Prop := ∃ a e, t = { s with archive := a, events := e }

theorem Relogged.trans {s t u : State} (h : Relogged s t) (k : Relogged t u) : Relogged s u := by
  obtain ⟨a, e, rfl⟩ := h
  obtain ⟨b, f, rfl⟩ := k
  exact ⟨b, f, rfl⟩

theorem Relogged.symm {s t : State} (h : Relogged s t) : Relogged t s := by
  obtain ⟨a, e, rfl⟩ := h
  exact ⟨s.archive, s.events, rfl⟩

theorem Same.logged {f : State → State}
    (h : ∀ s a e, ∃ a' e', f { s with archive := a, events := e } = { f s with archive := a', events := e' }) :
    Same Relogged (MM.modify f) :=
  .modify fun s t hr => by
    obtain ⟨a, e, rfl⟩ := hr
    exact h s a e

theorem Same.getLogged {β : Type} {f : State → M β} (hf : ∀ s a e, f { s with archive := a, events := e } = f s)
    (h : ∀ s, Same Relogged (f s)) : Same Relogged (MM.get >>= f) :=
  .getBind (fun s t hr => by obtain ⟨a, e, rfl⟩ := hr; exact hf s a e) h

/-- Break a computation into its steps. -/
macro "slog" : tactic => `(tactic| repeat' (with_reducible first
  | assumption
  | exact Same.pure _ | exact Same.fail _ | exact Same.crash
  | exact Same.newCoin _ | exact Same.principalUp _ _ | exact Same.principalDown _ _
  | exact Same.parse _ | exact Same.hypRouter _ _
  | (refine Same.getLogged (fun s a e => by with_unfolding_all rfl) ?_)
  | refine Same.bind ?_ ?_ | refine Same.ite ?_ ?_ | refine Same.ignore ?_ | refine Same.attempt ?_
  | (refine Same.logged (fun s a e => ⟨_, _, by with_unfolding_all rfl⟩))
  | intro _ | split))

namespace Log

theorem emit (e : Event) : Same Relogged (emit e) := by
  unfold Dollar.emit; slog
theorem setBalance (a : Addr) (v : Int) : Same Relogged (setBalance a v) := by
  unfold Dollar.setBalance; slog
theorem subCoins (a : Addr) (v : Int) : Same Relogged (subCoins a v) := by
  unfold Dollar.subCoins; slog <;> exact setBalance _ _
theorem addCoins (a : Addr) (v : Int) : Same Relogged (addCoins a v) := by
  unfold Dollar.addCoins; slog <;> exact setBalance _ _
theorem decrementHolders : Same Relogged decrementHolders := by
  unfold Dollar.decrementHolders; slog
theorem incrementHolders : Same Relogged incrementHolders := by
  unfold Dollar.incrementHolders; slog
theorem addPrincipal (a : Addr) (v : Int) : Same Relogged (addPrincipal a v) := by
  unfold Dollar.addPrincipal; slog
theorem restrictSender (c : Cfg) (a : Addr) (p : Int) : Same Relogged (restrictSender c a p) := by
  unfold Dollar.restrictSender incrementTotalPrincipal
  slog <;> first | exact addPrincipal _ _ | exact decrementHolders
theorem restrictRecipient (c : Cfg) (a b : Addr) (x i p : Int) : Same Relogged (restrictRecipient c a b x i p) := by
  unfold Dollar.restrictRecipient decrementTotalPrincipal
  slog <;> first | exact addPrincipal _ _ | exact incrementHolders
theorem sendRestriction (c : Cfg) (a b : Addr) (x : Int) : Same Relogged (sendRestriction c a b x) := by
  unfold Dollar.sendRestriction
  slog <;> first | exact restrictSender _ _ _ | exact restrictRecipient _ _ _ _ _ _
theorem sendCoins (c : Cfg) (a b : Addr) (x : Int) : Same Relogged (sendCoins c a b x) := by
  unfold Dollar.sendCoins
  slog <;> first | exact subCoins _ _ | exact sendRestriction _ _ _ _ | exact addCoins _ _
theorem sendModuleToAccount (c : Cfg) (a b : Addr) (x : Int) : Same Relogged (sendModuleToAccount c a b x) := by
  unfold Dollar.sendModuleToAccount
  slog <;> exact sendCoins _ _ _ _
theorem mintCoins (c : Cfg) (x : Int) : Same Relogged (mintCoins c x) := by
  unfold Dollar.mintCoins
  slog <;> exact addCoins _ _
theorem burnCoins (c : Cfg) (x : Int) : Same Relogged (burnCoins c x) := by
  unfold Dollar.burnCoins
  slog <;> exact subCoins _ _
theorem multiSendOutputs (c : Cfg) (a : Addr) (l : List (Addr × Int)) : Same Relogged (multiSendOutputs c a l) := by
  induction l with
  | nil => exact Same.pure _
  | cons e t ih =>
    unfold Dollar.multiSendOutputs
    slog <;> first | exact sendRestriction _ _ _ _ | exact addCoins _ _
theorem multiSend (c : Cfg) (a : Addr) (l : List (Addr × Int)) : Same Relogged (multiSend c a l) := by
  unfold Dollar.multiSend
  slog <;> first | exact subCoins _ _ | exact multiSendOutputs _ _ _

theorem incrementTotalYield (x : Int) : Same Relogged (incrementTotalYield x) := by
  unfold Dollar.incrementTotalYield; slog
theorem incrementExtYield (p : Int) (id : String) (x : Int) : Same Relogged (incrementExtYield p id x) := by
  unfold Dollar.incrementExtYield; slog
theorem takeRetry (p : Int) (id : String) : Same Relogged (takeRetry p id) := by
  unfold Dollar.takeRetry; slog
theorem incrementRetry (p : Int) (id : String) (x : Int) : Same Relogged (incrementRetry p id x) := by
  unfold Dollar.incrementRetry; slog
theorem getYield (c : Cfg) (a : String) : Same Relogged (getYield c a) := by
  unfold Dollar.getYield; slog
theorem claimModuleYield (c : Cfg) (a : Addr) : Same Relogged (claimModuleYield c a) := by
  unfold Dollar.claimModuleYield
  slog <;> exact sendModuleToAccount _ _ _ _
theorem claimStakedVaultYield (c : Cfg) : Same Relogged (claimStakedVaultYield c) := by
  unfold Dollar.claimStakedVaultYield
  slog <;> first | exact sendModuleToAccount _ _ _ _ | exact addPrincipal _ _
theorem ics4Check (ch : String) : Same Relogged (ics4Check ch) := by
  unfold Dollar.ics4Check; slog
theorem bookPacket (p : IbcOut) : Same Relogged (bookPacket p) := by
  unfold Dollar.bookPacket; slog
theorem ibcTransfer (c : Cfg) (env : Env) (ch : String) (a : Addr) (r : String) (x : Int) :
    Same Relogged (ibcTransfer c env ch a r x) := by
  unfold Dollar.ibcTransfer
  slog <;> first | exact sendCoins _ _ _ _ | exact ics4Check _ | exact bookPacket _
theorem retryOnError (e : Option Err) (p : Int) (id : String) (x : Int) : Same Relogged (retryOnError e p id x) := by
  unfold Dollar.retryOnError
  slog <;> exact incrementRetry _ _ _
theorem ibcOne (c : Cfg) (env : Env) (r : KV String String) (ch : String) : Same Relogged (ibcOne c env r ch) := by
  unfold Dollar.ibcOne
  slog <;> first | exact claimModuleYield _ _ | exact takeRetry _ _ | exact ibcTransfer _ _ _ _ _ _ |
    exact retryOnError _ _ _ _ | exact incrementExtYield _ _ _
theorem ibcLoop (c : Cfg) (env : Env) (r : KV String String) (l : List String) :
    Same Relogged (ibcLoop c env r l) := by
  induction l with
  | nil => exact Same.pure _
  | cons e t ih =>
    unfold Dollar.ibcLoop
    slog <;> exact ibcOne _ _ _ _
theorem claimExternalIBC (c : Cfg) (env : Env) : Same Relogged (claimExternalIBC c env) := by
  unfold Dollar.claimExternalIBC
  slog <;> exact ibcLoop _ _ _ _
theorem hypRoutes (c : Cfg) (l : List String) : Same Relogged (hypRoutes c l) := by
  induction l with
  | nil => exact Same.pure _
  | cons e t ih =>
    unfold Dollar.hypRoutes
    slog
theorem warpTransfer (c : Cfg) (env : Env) (r : Route) (d : Nat) (to_ : Bytes) (x : Int) :
    Same Relogged (warpTransfer c env r d to_ x) := by
  unfold Dollar.warpTransfer
  slog <;> exact sendCoins _ _ _ _
theorem hypOne (c : Cfg) (env : Env) (rs : KV String String) (total y : Int) (r : Route) :
    Same Relogged (hypOne c env rs total y r) := by
  unfold Dollar.hypOne
  slog <;> first | exact takeRetry _ _ | exact warpTransfer _ _ _ _ _ _ | exact retryOnError _ _ _ _ |
    exact incrementExtYield _ _ _
theorem hypLoop (c : Cfg) (env : Env) (rs : KV String String) (total y : Int) (l : List Route) :
    Same Relogged (hypLoop c env rs total y l) := by
  induction l with
  | nil => exact Same.pure _
  | cons e t ih =>
    unfold Dollar.hypLoop
    slog <;> exact hypOne _ _ _ _ _ _
theorem claimExternalHyperlane (c : Cfg) (env : Env) : Same Relogged (claimExternalHyperlane c env) := by
  unfold Dollar.claimExternalHyperlane
  slog <;> first | exact claimModuleYield _ _ | exact hypRoutes _ _ | exact hypLoop _ _ _ _ _ _
theorem handleSeasonOne (c : Cfg) (i : Int) : Same Relogged (handleSeasonOne c i) := by
  unfold Dollar.handleSeasonOne
  slog <;> first | exact claimModuleYield _ _ | exact claimStakedVaultYield _
theorem handleSeasonTwo (c : Cfg) : Same Relogged (handleSeasonTwo c) := by
  unfold Dollar.handleSeasonTwo
  slog <;> first | exact claimModuleYield _ _ | exact sendCoins _ _ _ _
theorem handleVaults (c : Cfg) (i : Int) : Same Relogged (handleVaults c i) := by
  unfold Dollar.handleVaults
  slog <;> with_reducible first | exact handleSeasonTwo _ | exact handleSeasonOne _ _
theorem accrueYield (c : Cfg) (d : Int) : Same Relogged (accrueYield c d) := by
  unfold Dollar.accrueYield
  slog <;> first | exact mintCoins _ _ | exact sendCoins _ _ _ _ | exact incrementTotalYield _
theorem updateIndex (c : Cfg) (env : Env) (i : Int) : Same Relogged (updateIndex c env i) := by
  unfold Dollar.updateIndex
  slog <;> first | exact accrueYield _ _ | exact handleVaults _ _ | exact claimExternalIBC _ _ |
    exact claimExternalHyperlane _ _ | exact emit _
theorem mint (c : Cfg) (env : Env) (r : Addr) (x i : Int) : Same Relogged (mint c env r x i) := by
  unfold Dollar.mint
  slog <;> first | exact updateIndex _ _ _ | exact mintCoins _ _ | exact sendModuleToAccount _ _ _ _

end Log

end Dollar
