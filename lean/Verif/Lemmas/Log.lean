import Verif.Lemmas.Local
import Verif.Lemmas.Deliver

/-
The event log: which events an index update leaves behind, also when it fails.
-/
set_option linter.unnecessarySeqFocus false
set_option linter.unusedTactic false
set_option linter.unreachableTactic false
namespace Dollar
open MM

/-- Event log and index. -/
def evF (s : State) : List Event × Int := (s.events, s.index)

namespace EvF
variable (c : Cfg) (env : Env)

theorem sendCoins (a b : Addr) (v : Int) : Leaves evF (sendCoins c a b v) := by
  unfold Dollar.sendCoins Dollar.subCoins Dollar.addCoins Dollar.setBalance sendRestriction restrictSender
    restrictRecipient incrementTotalPrincipal decrementTotalPrincipal incrementHolders decrementHolders
    addPrincipal
  leaves

theorem sendModuleToAccount (a b : Addr) (v : Int) : Leaves evF (sendModuleToAccount c a b v) := by
  unfold Dollar.sendModuleToAccount
  leaves
  exact sendCoins _ _ _ _ _

theorem mintCoins (v : Int) : Leaves evF (mintCoins c v) := by
  unfold Dollar.mintCoins Dollar.addCoins Dollar.setBalance
  leaves

theorem claimModuleYield (a : Addr) : Leaves evF (claimModuleYield c a) := by
  unfold Dollar.claimModuleYield
  leaves
  exact sendModuleToAccount _ _ _ _ _

theorem ibcTransfer (ch : String) (a : Addr) (r : String) (v : Int) :
    Leaves evF (ibcTransfer c env ch a r v) := by
  unfold Dollar.ibcTransfer ics4Check bookPacket
  leaves <;> exact sendCoins _ _ _ _ _

theorem ibcLoop (r : KV String String) (l : List String) : Leaves evF (ibcLoop c env r l) := by
  induction l with
  | nil => exact fun _ => Keeps.pure _
  | cons e t ih =>
    unfold Dollar.ibcLoop ibcOne takeRetry retryOnError incrementRetry incrementExtYield
    leaves <;> first | exact ih _ | exact claimModuleYield _ _ _ | exact ibcTransfer _ _ _ _ _ _ _

theorem hypRoutes (l : List String) : Leaves evF (hypRoutes c l) := by
  induction l with
  | nil => exact fun _ => Keeps.pure _
  | cons e t ih =>
    unfold Dollar.hypRoutes
    leaves
    exact ih _

theorem hypLoop (rs : KV String String) (t y : Int) (l : List Route) :
    Leaves evF (hypLoop c env rs t y l) := by
  induction l with
  | nil => exact fun _ => Keeps.pure _
  | cons e t ih =>
    unfold Dollar.hypLoop hypOne takeRetry retryOnError incrementRetry incrementExtYield
      Dollar.warpTransfer
    leaves <;> first | exact ih _ | exact sendCoins _ _ _ _ _

/-- Everything of an index update after the index was stored and before the event. -/
def updateRest (i d : Int) : M Unit := do
  accrueYield c d
  handleVaults c i
  claimExternalIBC c env
  claimExternalHyperlane c env

theorem rest (i d : Int) : Leaves evF (updateRest c env i d) := by
  unfold updateRest accrueYield handleVaults handleSeasonOne handleSeasonTwo
    claimStakedVaultYield claimExternalIBC claimExternalHyperlane incrementTotalYield addPrincipal
  leaves <;> first
    | exact mintCoins _ _ _ | exact sendCoins _ _ _ _ _ | exact claimModuleYield _ _ _
    | exact sendModuleToAccount _ _ _ _ _ | exact ibcLoop _ _ _ _ _
    | exact hypRoutes _ _ _ | exact hypLoop _ _ _ _ _ _ _

/-- An index update that fails logs nothing; the index is nevertheless raised. -/
theorem updateIndex_err {i : Int} {s s' : State} {e : Err} (h : updateIndex c env i s = .err e s') :
    s'.events = s.events ∧ s'.index = max s.index i := by
  unfold Dollar.updateIndex at h
  simp only [bind_apply, get_apply] at h
  by_cases hi : i ≤ s.index
  · rw [if_pos hi] at h
    cases h
    exact ⟨rfl, by omega⟩
  · rw [if_neg hi] at h
    have k := (rest c env i (present s.totalPrincipal i - s.supply) (s.events, i)).steps
      { s with index := i }
    have e : updateRest c env i (present s.totalPrincipal i - s.supply) { s with index := i } = .err e s' := by
      unfold updateRest
      simp only [bind_apply, modify_apply] at h ⊢
      revert h
      cases accrueYield c (present s.totalPrincipal i - s.supply) { s with index := i } with
      | err => exact fun h => by cases h; rfl
      | panic => exact fun h => by cases h
      | ok _ s1 =>
      simp only
      cases handleVaults c i s1 with
      | err => exact fun h => by cases h; rfl
      | panic => exact fun h => by cases h
      | ok _ s2 =>
      simp only
      cases claimExternalIBC c env s2 with
      | err => exact fun h => by cases h; rfl
      | panic => exact fun h => by cases h
      | ok _ s3 =>
      simp only
      cases claimExternalHyperlane c env s3 with
      | err => exact fun h => by cases h; rfl
      | panic => exact fun h => by cases h
      | ok _ s4 => exact fun h => by cases h
    rw [e] at k
    have := k rfl
    simp only [evF, Prod.mk.injEq] at this
    exact ⟨this.1, by rw [this.2]; omega⟩

end EvF
end Dollar
