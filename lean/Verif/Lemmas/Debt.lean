import Verif.Lemmas.Holders
import Verif.Lemmas.Deliver

/-
How far the principal of an account may fall behind its balance.
-/
set_option linter.unnecessarySeqFocus false
namespace Dollar
open MM

/-- The principal of `a` plus `n` units is worth at least its balance. -/
structure Owed (a : Addr) (n : Int) (s : State) : Prop where
  index : 0 < s.index
  bal : 0 ≤ s.balance a
  debt : SCALE * s.balance a ≤ s.index * (s.principalOf a + n)

/-- The fields `Owed` reads. -/
def owedF (s : State) := (s.index, s.bal, s.principal)

namespace Owed

variable {a : Addr} {n : Int} {s s' : State}

theorem congr (h : Owed a n s) (e : owedF s' = owedF s := by rfl) : Owed a n s' := by
  simp only [owedF, Prod.mk.injEq] at e
  obtain ⟨e1, e2, e3⟩ := e
  have b : s'.balance a = s.balance a := by unfold State.balance; rw [e2]
  have p : s'.principalOf a = s.principalOf a := by unfold State.principalOf; rw [e3]
  exact ⟨e1 ▸ h.index, b ▸ h.bal, by rw [b, p, e1]; exact h.debt⟩

theorem of_eq (h : Owed a n s) (hi : s'.index = s.index) (hb : s'.balance a = s.balance a)
    (hp : s'.principalOf a = s.principalOf a) : Owed a n s' :=
  ⟨hi ▸ h.index, hb ▸ h.bal, by rw [hb, hp, hi]; exact h.debt⟩

theorem mono {k : Int} (h : Owed a n s) (hk : n ≤ k) : Owed a k s :=
  ⟨h.index, h.bal, h.debt.trans (mul_le_mul_of_nonneg_left (by omega) h.index.le)⟩

/-- The principal may be below the balance, but never by more than `n`. -/
theorem nonneg (h : Owed a n s) : 0 ≤ s.principalOf a + n := by
  by_contra hn
  have h1 : s.index * (s.principalOf a + n) < 0 := mul_neg_of_pos_of_neg h.index (by omega)
  have h2 : 0 ≤ SCALE * s.balance a := mul_nonneg (by decide) h.bal
  have := h.debt
  omega

/-- A higher index only helps. -/
theorem raise (h : Owed a n s) {i : Int} (hi : s.index ≤ i) : Owed a n { s with index := i } :=
  ⟨show 0 < i from h.index.trans_le hi, h.bal, h.debt.trans (mul_le_mul_of_nonneg_right hi h.nonneg)⟩

variable {c : Cfg} {x y : Addr} {v : Int}

/-- A transfer that `a` does not pay. -/
theorem moved (h : Owed a n s) (hu : c.IsUser a) (hm : Moved c s x y v s') (h0 : 0 ≤ v) (hx : x ≠ a)
    (hy : y = a → x ≠ c.yieldAddr ∧ x ≠ c.moduleAddr) : Owed a n s' := by
  by_cases hya : y = a
  · subst hya
    by_cases hv : v = 0
    · rw [hm.zero hv]; exact h
    obtain ⟨h1, h2⟩ := hy rfl
    have hb := hm.bal y
    have hp := hm.prin hv h1 hu.ne_yield y
    rw [if_neg hx.symm, if_pos rfl] at hb
    rw [if_neg (fun e => hx e.1.symm), if_pos ⟨rfl, hu.ne_module⟩, if_neg h2] at hp
    have hi : s'.index = s.index := hm.index
    have := (up_bounds h0 h.index).2
    have := h.debt
    have := h.bal
    refine ⟨hi ▸ h.index, by omega, ?_⟩
    rw [hb, hp, hi]
    have e1 : SCALE * (s.balance y - 0 + v) = SCALE * s.balance y + v * SCALE := by ring
    have e2 : s.index * (s.principalOf y - 0 + roundedUp v s.index + n) =
        s.index * (s.principalOf y + n) + roundedUp v s.index * s.index := by ring
    omega
  · exact h.of_eq hm.index (hm.same hx.symm (Ne.symm hya)) (hm.prin_same hx.symm (Ne.symm hya))

/-- A transfer that `a` pays costs at most one unit of principal. -/
theorem paid (h : Owed a n s) (hu : c.IsUser a) (hm : Moved c s a y v s') (h0 : 0 ≤ v) :
    Owed a (n + 1) s' := by
  by_cases hv : v = 0
  · rw [hm.zero hv]; exact h.mono (by omega)
  have hyy : y ≠ c.yieldAddr := fun e => by
    rcases hm.not_yield hv e with h | h
    · exact hu.ne_yield h
    · exact hu.ne_module h
  have hi : s'.index = s.index := hm.index
  have hb := hm.bal a
  have hp := hm.prin hv hu.ne_yield hyy a
  rw [if_pos rfl] at hb
  rw [if_pos ⟨rfl, hu.ne_module⟩, if_neg hu.ne_module] at hp
  have hen := hm.enough.resolve_left hv
  have h1 := up_bounds h0 h.index
  have h2 := h.debt
  refine ⟨hi ▸ h.index, ?_, ?_⟩
  · rw [hb]; split <;> omega
  rw [hb, hp, hi]
  by_cases hya : a = y
  · rw [if_pos hya, if_pos ⟨hya, hya ▸ hu.ne_module⟩]
    have e1 : SCALE * (s.balance a - v + v) = SCALE * s.balance a := by ring
    have e2 : s.index * (s.principalOf a - roundedUp v s.index + roundedUp v s.index + (n + 1)) =
      s.index * (s.principalOf a + n) + s.index := by ring
    have := h.index
    omega
  · rw [if_neg hya, if_neg fun e => hya e.1]
    have e1 : SCALE * (s.balance a - v + 0) = SCALE * s.balance a - v * SCALE := by ring
    have e2 : s.index * (s.principalOf a - roundedUp v s.index + 0 + (n + 1)) =
      s.index * (s.principalOf a + n) - (roundedUp v s.index - 1) * s.index := by ring
    omega

/-! ### Index updates -/

theorem sendCoins (hu : c.IsUser a) (h0 : 0 ≤ v) (hx : x ≠ a)
    (hy : y = a → x ≠ c.yieldAddr ∧ x ≠ c.moduleAddr) : Keeps (Owed a n) (sendCoins c x y v) :=
  ⟨fun s => by
  have := sendCoins_wp c x y v s
  unfold wp at this
  unfold Res.Ends
  generalize Dollar.sendCoins c x y v s = r at *
  cases r with
  | ok _ s' => exact fun hs => hs.moved hu this h0 hx hy
  | err e s' =>
    intro hs
    rcases this with ⟨e, _⟩ | ⟨_, _, _, _, rfl⟩
    · rw [e]; exact hs
    · exact hs.of_eq rfl (by rw [balance_debit, if_neg hx.symm]; omega) rfl
  | panic => trivial⟩

theorem modify {f : State → State} (h : ∀ s, owedF (f s) = owedF s := by intro _; rfl) :
    Keeps (Owed a n) (MM.modify f) := Keeps.modify fun s hs => hs.congr (h s)

theorem emit (e : Event) : Keeps (Owed a n) (emit e) := Keeps.emit (fun _ _ h => h.congr) e

theorem takeRetry (p : Int) (i : String) : Keeps (Owed a n) (takeRetry p i) := by
  unfold Dollar.takeRetry
  keeps <;> exact modify

theorem addPrincipal (hx : x ≠ a) (v : Int) : Keeps (Owed a n) (addPrincipal x v) :=
  Keeps.modify fun s hs => hs.of_eq rfl rfl (by
    show (prinAdded s x v).principalOf a = _
    rw [prinAdded_principalOf, if_neg hx.symm]; omega)

theorem hypRoutes (l : List String) : Keeps (Owed a n) (hypRoutes c l) := by
  induction l with
  | nil => exact Keeps.pure _
  | cons e t ih => unfold Dollar.hypRoutes; keeps

variable (hu : c.IsUser a) (env : Env)
include hu

theorem fromYield (hy : y ≠ a) (h0 : 0 ≤ v) :
    Keeps (Owed a n) (sendModuleToAccount c c.yieldAddr y v) := by
  unfold sendModuleToAccount
  exact Keeps.ite (Keeps.fail _) (sendCoins hu h0 hu.ne_yield.symm fun h => absurd h hy)

theorem claimModuleYield (hy : y ≠ a) : Keeps (Owed a n) (claimModuleYield c y) := by
  unfold Dollar.claimModuleYield
  refine Keeps.bind Keeps.get fun s => HLe.ite (fun h => ?_) fun _ => Keeps.pure _
  exact Keeps.bind (fromYield hu hy h.le) fun _ => Keeps.pure _

theorem ibcTransfer (ch : String) (hx : x ≠ a) (r : String) (h0 : 0 ≤ v) :
    Keeps (Owed a n) (ibcTransfer c env ch x r v) := by
  have := sendCoins (n := n) hu h0 hx fun h => absurd h (hu.ne_escrow ch).symm
  unfold Dollar.ibcTransfer ics4Check bookPacket
  keeps <;> exact modify

theorem ibcOne (r : KV String String) (ch : String) : Keeps (Owed a n) (ibcOne c env r ch) := by
  unfold Dollar.ibcOne retryOnError
  refine Keeps.bind (claimModuleYield hu (hu.ne_escrow ch).symm) fun y => Keeps.bind (takeRetry _ _) fun q =>
    HLe.ite (fun h => ?_) fun _ => Keeps.pure _
  have := ibcTransfer (n := n) hu env ch (hu.ne_escrow ch).symm ((r.get? ch).getD "") h.le
  keeps <;> exact modify

theorem ibcLoop (r : KV String String) (l : List String) : Keeps (Owed a n) (ibcLoop c env r l) := by
  induction l with
  | nil => exact Keeps.pure _
  | cons e t ih =>
    unfold Dollar.ibcLoop
    exact Keeps.bind (ibcOne hu env _ _) fun _ => ih

theorem warpTransfer (r : Route) (d : Nat) (b : Bytes) (h0 : 0 ≤ v) :
    Keeps (Owed a n) (warpTransfer c env r d b v) := by
  have := sendCoins (n := n) hu h0 hu.ne_warp.symm fun h => absurd h hu.ne_warp.symm
  unfold Dollar.warpTransfer
  keeps <;> exact modify

theorem hypOne (rs : KV String String) (t y : Int) (r : Route) :
    Keeps (Owed a n) (hypOne c env rs t y r) := by
  unfold Dollar.hypOne retryOnError
  refine Keeps.bind (takeRetry _ _) fun q => HLe.ite (fun h => ?_) fun _ => Keeps.pure _
  have := fun d b => warpTransfer (n := n) hu env r d b h.le
  keeps <;> first | exact this _ _ | exact modify

theorem hypLoop (rs : KV String String) (t y : Int) (l : List Route) :
    Keeps (Owed a n) (hypLoop c env rs t y l) := by
  induction l with
  | nil => exact Keeps.pure _
  | cons e t ih =>
    unfold Dollar.hypLoop
    exact Keeps.bind (hypOne hu env _ _ _ _) fun _ => ih

theorem claimStakedVaultYield : Keeps (Owed a n) (claimStakedVaultYield c) := by
  unfold Dollar.claimStakedVaultYield
  refine Keeps.bind Keeps.get fun s => HLe.ite (fun h => ?_) fun _ => Keeps.pure _
  have := fromYield (n := n) hu hu.ne_flexible.symm h.le
  keeps <;> first | exact addPrincipal hu.ne_staked.symm _ | exact addPrincipal hu.ne_flexible.symm _

theorem mintCoins (v : Int) : Keeps (Owed a n) (mintCoins c v) := by
  unfold Dollar.mintCoins
  refine Keeps.bind ?_ fun _ => modify
  refine ⟨fun s => ?_⟩
  rw [addCoins_eq]
  exact fun hs => hs.of_eq rfl (by rw [balance_credit, if_neg hu.ne_module]; omega) rfl

theorem handleSeasonTwo (hc : c.WF) : Keeps (Owed a n) (handleSeasonTwo c) := by
  unfold Dollar.handleSeasonTwo
  refine Keeps.bind (claimModuleYield hu hu.ne_staked.symm) fun y => HLe.ite (fun h => ?_) fun _ => Keeps.pure _
  exact Keeps.bind Keeps.get fun s => sendCoins hu h.le hu.ne_staked.symm fun _ =>
    ⟨hc.staked_ne_yield, hc.staked_ne_module⟩

theorem accrueYield (d : Int) : Keeps (Owed a n) (accrueYield c d) := by
  unfold Dollar.accrueYield
  refine Keeps.bind (Keeps.newCoin _) fun _ => HLe.ite (fun h => ?_) fun _ => Keeps.pure _
  exact Keeps.bind (mintCoins hu _) fun _ => Keeps.bind
    (sendCoins hu h.le hu.ne_module.symm fun h => absurd h hu.ne_yield.symm) fun _ => modify

theorem updateIndex (hc : c.WF) (i : Int) : Keeps (Owed a n) (updateIndex c env i) := by
  have h1 := accrueYield (n := n) hu
  have h3 := handleSeasonTwo (n := n) hu hc
  have h4 := claimStakedVaultYield (n := n) hu
  refine ⟨fun s => ?_⟩
  by_cases hi : i ≤ s.index
  · have : Dollar.updateIndex c env i s = .err .decreasingIndex s := by
      unfold Dollar.updateIndex
      simp only [bind_apply, get_apply, if_pos hi]; rfl
    rw [this]
    exact fun h => h
  · let rest : M Unit := do
      Dollar.accrueYield c (present s.totalPrincipal i - s.supply)
      handleVaults c i
      claimExternalIBC c env
      claimExternalHyperlane c env
      Dollar.emit (.indexUpdated s.index i s.totalPrincipal (present s.totalPrincipal i - s.supply))
    have key : Keeps (Owed a n) rest := by
      unfold rest handleVaults handleSeasonOne claimExternalIBC claimExternalHyperlane
      keeps <;> first
        | exact emit _ | exact h1 _ | exact claimModuleYield hu hu.ne_flexible.symm
        | exact claimModuleYield hu hu.ne_warp.symm | exact ibcLoop hu _ _ _
        | exact hypRoutes _ | exact hypLoop hu _ _ _ _ _ | exact modify
    have e : Dollar.updateIndex c env i s = rest { s with index := i } := by
      unfold Dollar.updateIndex
      simp only [bind_apply, get_apply, if_neg hi]
      rfl
    rw [e]
    have := key.steps { s with index := i }
    unfold Res.Ends at this ⊢
    generalize rest { s with index := i } = r at *
    cases r with
    | ok _ s' => exact fun h => this (h.raise (by omega))
    | err _ s' => exact fun h => this (h.raise (by omega))
    | panic => trivial

end Owed
end Dollar
