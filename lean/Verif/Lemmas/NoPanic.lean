import Verif.Lemmas.Update2

/-
Which parts of an index update can panic: only the coin for a negative amount of yield.
-/
set_option linter.unusedSimpArgs false
namespace Dollar
open MM

/-- From `s`, `x` does not panic and leaves the index alone. -/
def Safe {α : Type} (x : M α) (s : State) : Prop := x s ≠ .panic ∧ (x s).Ends fun s' => s'.index = s.index

namespace Safe
variable {α β : Type} {s : State}

theorem bind {x : M α} {f : α → M β} (hx : Safe x s)
    (hf : ∀ a s', s'.index = s.index → Safe (f a) s') : Safe (x >>= f) s := by
  unfold Safe at hx ⊢
  rw [bind_apply]
  cases hxs : x s with
  | panic => exact absurd hxs hx.1
  | err e s' =>
    have := hx.2
    rw [hxs] at this
    exact ⟨(fun h => by cases h), this⟩
  | ok a s' =>
    have h1 := hx.2
    rw [hxs] at h1
    have h1 : s'.index = s.index := h1
    have h2 := hf a s' h1
    refine ⟨h2.1, ?_⟩
    have h3 := h2.2
    show ((f a) s').Ends _
    cases hfs : f a s' with
    | panic => trivial
    | err e s'' => rw [hfs] at h3; exact Eq.trans h3 h1
    | ok b s'' => rw [hfs] at h3; exact Eq.trans h3 h1

theorem pure (a : α) : Safe (Pure.pure a : M α) s := ⟨(fun h => by cases h), rfl⟩
theorem fail (e : Err) : Safe (MM.fail e : M α) s := ⟨(fun h => by cases h), rfl⟩
theorem get_bind {f : State → M β} (h : Safe (f s) s) : Safe (MM.get >>= f) s := h
theorem modify {f : State → State} (h : (f s).index = s.index) : Safe (MM.modify f : M Unit) s :=
  ⟨(fun h => by cases h), h⟩

theorem ite {p : Prop} [Decidable p] {x y : M α} (hx : p → Safe x s) (hy : ¬ p → Safe y s) :
    Safe (if p then x else y) s := by
  split
  · exact hx ‹_›
  · exact hy ‹_›

theorem attempt {x : M Unit} (hx : Safe x s) : Safe (MM.attempt x) s := by
  unfold Safe at *
  rw [attempt_apply]
  cases h : x s with
  | panic => exact absurd h hx.1
  | ok a s' => have := hx.2; rw [h] at this; exact ⟨(fun h => by cases h), this⟩
  | err e s' => have := hx.2; rw [h] at this; exact ⟨(fun h => by cases h), this⟩

end Safe

theorem sendCoins_safe {c : Cfg} {a b : Addr} {amt : Int} {s : State} (hi : s.index ≠ 0) :
    Safe (sendCoins c a b amt) s := by
  unfold sendCoins
  refine .ite (fun _ => .pure _) fun _ => ?_
  refine .bind ?_ fun _ s1 h1 => ?_
  · unfold subCoins setBalance
    exact .get_bind (.ite (fun _ => .fail _) fun _ => .modify rfl)
  refine .bind ?_ fun _ s2 h2 => ?_
  · unfold sendRestriction
    refine .ite (fun _ => .pure _) fun _ => .ite (fun _ => .pure _) fun _ =>
      .ite (fun _ => .ite (fun _ => .pure _) fun _ => .fail _) fun _ => .get_bind ?_
    have hi1 : s1.index ≠ 0 := by rw [h1]; exact hi
    refine .bind ?_ fun p s3 h3 => .bind ?_ fun _ s4 h4 => ?_
    · unfold principalUp
      rw [if_neg hi1]; exact .pure _
    · unfold restrictSender
      refine .ite (fun _ => .modify rfl) fun _ => .bind (.modify rfl) fun _ s5 _ => .get_bind ?_
      exact .ite (fun _ => .modify rfl) fun _ => .pure _
    · unfold restrictRecipient
      have hj : ∀ (p : Int) (s : State), Safe (do
          addPrincipal b p
          let s ← MM.get
          if s.balance b = 0 then incrementHolders else pure () : M Unit) s := fun p s =>
        .bind (.modify rfl) fun _ s6 _ => .get_bind (.ite (fun _ => .modify rfl) fun _ => .pure _)
      refine .ite (fun _ => .modify rfl) fun _ => .ite (fun _ => .bind ?_ fun _ _ _ => hj _ _) fun _ =>
        .bind (.pure _) fun _ _ _ => hj _ _
      unfold principalDown
      rw [if_neg hi1]; exact .pure _
  · exact .modify rfl

theorem sendModuleToAccount_safe {c : Cfg} {a b : Addr} {amt : Int} {s : State} (hi : s.index ≠ 0) :
    Safe (sendModuleToAccount c a b amt) s := by
  unfold sendModuleToAccount
  exact .ite (fun _ => .fail _) fun _ => sendCoins_safe hi

theorem claimModuleYield_safe {c : Cfg} {a : Addr} {s : State} (hi : s.index ≠ 0) :
    Safe (claimModuleYield c a) s := by
  unfold claimModuleYield
  exact .get_bind (.ite (fun _ => .bind (sendModuleToAccount_safe hi) fun _ _ _ => .pure _) fun _ => .pure _)

theorem decIndex_ne {i : Int} (hi : 0 < i) : decQuoInt (decOfInt i) SCALE ≠ 0 := by
  have : 0 < decQuoInt (decOfInt i) SCALE := by
    unfold decQuoInt decOfInt
    have h1 := tdiv_bounds (n := i * DEC) (d := SCALE) (by unfold DEC; omega) SCALE_pos
    by_contra hn
    have h2 : (i * DEC).tdiv SCALE ≤ 0 := by omega
    have h3 : ((i * DEC).tdiv SCALE + 1) * SCALE ≤ 1 * SCALE :=
      Int.mul_le_mul_of_nonneg_right (by omega) SCALE_pos.le
    unfold DEC SCALE at *
    omega
  omega

theorem handleVaults_safe {c : Cfg} {i : Int} {s : State} (hi : 0 < s.index) : Safe (handleVaults c i) s := by
  have hn : s.index ≠ 0 := by omega
  unfold handleVaults
  refine .get_bind (.ite (fun _ => ?_) fun _ => ?_)
  · unfold handleSeasonTwo
    refine .bind (claimModuleYield_safe hn) fun y s1 h1 => .ite (fun _ => .get_bind ?_) fun _ => .pure _
    exact sendCoins_safe (by rw [h1]; exact hn)
  · unfold handleSeasonOne
    refine .bind (claimModuleYield_safe hn) fun y s1 h1 => .bind ?_ fun _ s2 _ => .modify rfl
    have hi1 : 0 < s1.index := by rw [h1]; exact hi
    unfold claimStakedVaultYield
    refine .get_bind (.ite (fun _ => ?_) fun _ => .pure _)
    refine .bind (sendModuleToAccount_safe (by omega)) fun _ s3 h3 => .get_bind ?_
    have hi3 : 0 < s3.index := by rw [h3]; exact hi1
    rw [if_neg (decIndex_ne hi3)]
    exact .bind (.modify rfl) fun _ _ _ => .bind (.modify rfl) fun _ _ _ => .pure _

theorem takeRetry_safe {p : Int} {i : String} {s : State} : Safe (takeRetry p i) s := by
  unfold takeRetry
  exact .get_bind (.ite (fun _ => .bind (.modify rfl) fun _ _ _ => .pure _) fun _ => .pure _)

theorem retryOnError_safe {e : Option Err} {p : Int} {i : String} {a : Int} {s : State} :
    Safe (retryOnError e p i a) s := by
  unfold retryOnError
  split
  · exact .pure _
  · exact .modify rfl

theorem ics4Check_safe {ch : String} {s : State} : Safe (ics4Check ch) s := by
  unfold ics4Check
  exact .get_bind (.ite (fun _ => .pure _) fun _ => .fail _)

theorem ibcTransfer_safe {c : Cfg} {env : Env} {ch : String} {a : Addr} {r : String} {amt : Int} {s : State}
    (hi : s.index ≠ 0) : Safe (ibcTransfer c env ch a r amt) s := by
  unfold ibcTransfer
  split
  · exact .fail _
  · exact .bind (sendCoins_safe hi) fun _ _ _ => .bind ics4Check_safe fun _ _ _ => .fail _
  · exact .bind (sendCoins_safe hi) fun _ _ _ => .bind ics4Check_safe fun _ _ _ => .modify rfl

theorem ibcOne_safe {c : Cfg} {env : Env} {rc : KV String String} {ch : String} {s : State}
    (hi : s.index ≠ 0) : Safe (ibcOne c env rc ch) s := by
  unfold ibcOne
  refine .bind (claimModuleYield_safe hi) fun y s1 h1 => .bind takeRetry_safe fun r s2 h2 =>
    .ite (fun _ => .bind (.attempt (ibcTransfer_safe ?_)) fun e s3 h3 => .bind retryOnError_safe fun _ _ _ =>
      .modify rfl) fun _ => .pure _
  rw [h2, h1]; exact hi

theorem ibcLoop_safe {c : Cfg} {env : Env} {rc : KV String String} (l : List String) {s : State}
    (hi : s.index ≠ 0) : Safe (ibcLoop c env rc l) s := by
  induction l generalizing s with
  | nil => exact .pure _
  | cons x t ih =>
    unfold ibcLoop
    exact .bind (ibcOne_safe hi) fun _ s1 h1 => ih (by rw [h1]; exact hi)

theorem claimExternalIBC_safe {c : Cfg} {env : Env} {s : State} (hi : s.index ≠ 0) :
    Safe (claimExternalIBC c env) s := by
  unfold claimExternalIBC
  exact .get_bind (ibcLoop_safe _ hi)

theorem hypRoutes_safe {c : Cfg} (l : List String) {s : State} : Safe (hypRoutes c l) s := by
  induction l generalizing s with
  | nil => exact .pure _
  | cons x t ih =>
    unfold hypRoutes
    split
    · exact .fail _
    · refine .get_bind ?_
      split
      · exact .fail _
      · exact .bind ih fun _ _ _ => .pure _

theorem warpTransfer_safe {c : Cfg} {env : Env} {r : Route} {d : Nat} {rcp : Bytes} {amt : Int} {s : State}
    (hi : s.index ≠ 0) : Safe (warpTransfer c env r d rcp amt) s := by
  unfold warpTransfer
  split
  · exact .fail _
  · exact .bind (sendCoins_safe hi) fun _ _ _ => .bind (.modify rfl) fun _ _ _ => .fail _
  · exact .bind (sendCoins_safe hi) fun _ _ _ => .bind (.modify rfl) fun _ _ _ => .modify rfl

theorem hypOne_safe {c : Cfg} {env : Env} {rc : KV String String} {total y : Int} {r : Route} {s : State}
    (hi : s.index ≠ 0) : Safe (hypOne c env rc total y r) s := by
  unfold hypOne
  refine .bind takeRetry_safe fun a s1 h1 => .ite (fun _ => .bind ?_ fun d s2 h2 => ?_) fun _ => .pure _
  · unfold hypRouter
    split
    · exact .pure _
    · exact .fail _
  · split
    · exact .fail _
    · refine .bind (.attempt (warpTransfer_safe ?_)) fun _ _ _ => .bind retryOnError_safe fun _ _ _ => .modify rfl
      rw [h2, h1]; exact hi

theorem hypLoop_safe {c : Cfg} {env : Env} {rc : KV String String} {total y : Int} (l : List Route) {s : State}
    (hi : s.index ≠ 0) : Safe (hypLoop c env rc total y l) s := by
  induction l generalizing s with
  | nil => exact .pure _
  | cons x t ih =>
    unfold hypLoop
    exact .bind (hypOne_safe hi) fun _ s1 h1 => ih (by rw [h1]; exact hi)

theorem claimExternalHyperlane_safe {c : Cfg} {env : Env} {s : State} (hi : s.index ≠ 0) :
    Safe (claimExternalHyperlane c env) s := by
  unfold claimExternalHyperlane
  refine .get_bind (.bind (claimModuleYield_safe hi) fun y s1 h1 => .ite (fun _ => ?_) fun _ => .pure _)
  refine .bind (hypRoutes_safe _) fun rs s2 h2 => .ite (fun _ => ?_) fun _ => .pure _
  exact hypLoop_safe _ (by rw [h2, h1]; exact hi)

theorem accrueYield_safe {c : Cfg} {d : Int} {s : State} (hi : s.index ≠ 0) (hd : 0 ≤ d) :
    Safe (accrueYield c d) s := by
  unfold accrueYield newCoin
  rw [if_neg (by omega)]
  refine .bind (.pure _) fun _ s1 h1 => .ite (fun _ => ?_) fun _ => .pure _
  refine .bind ?_ fun _ s2 h2 => .bind (sendCoins_safe ?_) fun _ _ _ => .modify rfl
  · unfold mintCoins
    exact .bind (.modify rfl) fun _ _ _ => .modify rfl
  · rw [h2, h1]; exact hi

/-- An index update panics exactly when the index is larger and the principal is worth less than
the supply at it. -/
theorem updateIndex_panic_iff {c : Cfg} {env : Env} {i : Int} {s : State} (hi : 0 < s.index) :
    updateIndex c env i s = .panic ↔ s.index < i ∧ present s.totalPrincipal i < s.supply := by
  unfold updateIndex
  rw [bind_apply, get_apply]
  simp only
  by_cases hlt : i ≤ s.index
  · rw [if_pos hlt]
    constructor
    · intro h; cases h
    · intro h; omega
  rw [if_neg hlt, bind_apply, modify_apply]
  simp only
  by_cases hp : present s.totalPrincipal i < s.supply
  · refine ⟨fun _ => ⟨by omega, hp⟩, fun _ => ?_⟩
    unfold accrueYield newCoin
    rw [bind_apply, bind_apply, if_pos (by omega)]
    rfl
  · refine ⟨fun h => ?_, fun h => absurd h.2 hp⟩
    exfalso
    have hi' : (({ s with index := i } : State)).index ≠ 0 := by show i ≠ 0; omega
    have hd : 0 ≤ present s.totalPrincipal i - s.supply := by omega
    revert h
    refine And.left (Safe.bind (accrueYield_safe hi' hd) fun _ s1 h1 => ?_)
    refine .bind (handleVaults_safe ?_) fun _ s2 h2 => ?_
    · rw [h1]; show 0 < i; omega
    refine .bind (claimExternalIBC_safe ?_) fun _ s3 h3 => ?_
    · rw [h2, h1]; exact hi'
    refine .bind (claimExternalHyperlane_safe ?_) fun _ s4 h4 => ?_
    · rw [h3, h2, h1]; exact hi'
    exact .modify rfl

end Dollar
