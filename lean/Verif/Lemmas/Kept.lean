import Verif.Lemmas.Debt

/-
What nobody but the holder can lower: balance, principal and the index they are valued at.
-/
set_option linter.unnecessarySeqFocus false
namespace Dollar
open MM

/-- An account none of the module's own transfers pays from. -/
structure Cfg.Apart (c : Cfg) (a : Addr) : Prop where
  ne_yield : a ≠ c.yieldAddr
  ne_module : a ≠ c.moduleAddr
  ne_staked : a ≠ c.stakedAddr
  ne_flexible : a ≠ c.flexibleAddr
  ne_warp : a ≠ c.warpAddr
  ne_escrow : ∀ ch, a ≠ c.escrowAddr ch

theorem Cfg.IsUser.apart {c : Cfg} {a : Addr} (h : c.IsUser a) : c.Apart a :=
  ⟨h.ne_yield, h.ne_module, h.ne_staked, h.ne_flexible, h.ne_warp, h.ne_escrow⟩

theorem Cfg.WF.apart_flex {c : Cfg} (hc : c.WF) (a : Addr) (t : Int) : c.Apart (flexAcct c a t) :=
  ⟨flexAcct_ne_yield hc a t, flexAcct_ne_module hc a t, flexAcct_ne_staked hc a t,
   flexAcct_ne_flexible hc a t, flexAcct_ne_warp hc a t, fun ch => (hc.escrow_ne_mod ch _).symm⟩

/-- Account `a` has at least balance `b` and principal `p`, and the index is at least `j`. -/
structure Kept (a : Addr) (b p j : Int) (s : State) : Prop where
  bal : b ≤ s.balance a
  prin : p ≤ s.principalOf a
  index : j ≤ s.index
  pos : 0 < s.index

namespace Kept

variable {a : Addr} {b p j : Int} {s s' : State}

theorem of_eq (h : Kept a b p j s) (hi : s'.index = s.index) (hb : s'.balance a = s.balance a)
    (hp : s'.principalOf a = s.principalOf a) : Kept a b p j s' :=
  ⟨hb ▸ h.bal, hp ▸ h.prin, hi ▸ h.index, hi ▸ h.pos⟩

theorem congr (h : Kept a b p j s) (e : owedF s' = owedF s := by rfl) : Kept a b p j s' := by
  simp only [owedF, Prod.mk.injEq] at e
  obtain ⟨e1, e2, e3⟩ := e
  exact h.of_eq e1 (by unfold State.balance; rw [e2]) (by unfold State.principalOf; rw [e3])

theorem raise (h : Kept a b p j s) {i : Int} (hi : s.index ≤ i) : Kept a b p j { s with index := i } :=
  ⟨h.bal, h.prin, h.index.trans hi, h.pos.trans_le hi⟩

variable {c : Cfg} {x y : Addr} {v : Int}

/-- A transfer that `a` does not pay. -/
theorem moved (h : Kept a b p j s) (hu : c.Apart a) (hm : Moved c s x y v s') (h0 : 0 ≤ v) (hx : x ≠ a) :
    Kept a b p j s' := by
  by_cases hya : y = a
  · subst hya
    by_cases hv : v = 0
    · rw [hm.zero hv]; exact h
    have hb := hm.bal y
    rw [if_neg hx.symm, if_pos rfl] at hb
    have hi : s'.index = s.index := hm.index
    have := h.bal
    have hpr := h.prin
    refine ⟨by omega, ?_, hi ▸ h.index, hi ▸ h.pos⟩
    by_cases hxy : x = c.yieldAddr
    · unfold State.principalOf at hpr ⊢
      rw [(hm.skip (.inl hxy)).1]; exact hpr
    have hp := hm.prin hv hxy hu.ne_yield y
    rw [if_neg (fun e => hx e.1.symm), if_pos ⟨rfl, hu.ne_module⟩] at hp
    have h3 : 0 ≤ roundedDown v s.index := Int.tdiv_nonneg (mul_SCALE_nonneg h0) h.pos.le
    have h4 : 0 ≤ roundedUp v s.index := Int.tdiv_nonneg (by
      have := mul_SCALE_nonneg h0; have := h.pos; omega) h.pos.le
    rw [hp]
    split <;> omega
  · exact h.of_eq hm.index (hm.same hx.symm (Ne.symm hya)) (hm.prin_same hx.symm (Ne.symm hya))

/-! ### Index updates -/

theorem sendCoins (hu : c.Apart a) (h0 : 0 ≤ v) (hx : x ≠ a) : Keeps (Kept a b p j) (sendCoins c x y v) :=
  ⟨fun s => by
  have := sendCoins_wp c x y v s
  unfold wp at this
  unfold Res.Ends
  generalize Dollar.sendCoins c x y v s = r at *
  cases r with
  | ok _ s' => exact fun hs => hs.moved hu this h0 hx
  | err e s' =>
    intro hs
    rcases this with ⟨e, _⟩ | ⟨_, _, _, _, rfl⟩
    · rw [e]; exact hs
    · exact hs.of_eq rfl (by rw [balance_debit, if_neg hx.symm]; omega) rfl
  | panic => trivial⟩

theorem modify {f : State → State} (h : ∀ s, owedF (f s) = owedF s := by intro _; rfl) :
    Keeps (Kept a b p j) (MM.modify f) := Keeps.modify fun s hs => hs.congr (h s)

theorem emit (e : Event) : Keeps (Kept a b p j) (emit e) := Keeps.emit (fun _ _ h => h.congr) e

theorem takeRetry (q : Int) (i : String) : Keeps (Kept a b p j) (takeRetry q i) := by
  unfold Dollar.takeRetry
  keeps <;> exact modify

theorem addPrincipal (hx : x ≠ a) (v : Int) : Keeps (Kept a b p j) (addPrincipal x v) :=
  Keeps.modify fun s hs => hs.of_eq rfl rfl (by
    show (prinAdded s x v).principalOf a = _
    rw [prinAdded_principalOf, if_neg hx.symm]; omega)

theorem hypRoutes (l : List String) : Keeps (Kept a b p j) (hypRoutes c l) := by
  induction l with
  | nil => exact Keeps.pure _
  | cons e t ih => unfold Dollar.hypRoutes; keeps

variable (hu : c.Apart a) (env : Env)
include hu

theorem fromYield (h0 : 0 ≤ v) :
    Keeps (Kept a b p j) (sendModuleToAccount c c.yieldAddr y v) := by
  unfold sendModuleToAccount
  exact Keeps.ite (Keeps.fail _) (sendCoins hu h0 hu.ne_yield.symm)

theorem claimModuleYield : Keeps (Kept a b p j) (claimModuleYield c y) := by
  unfold Dollar.claimModuleYield
  refine Keeps.bind Keeps.get fun s => HLe.ite (fun h => ?_) fun _ => Keeps.pure _
  exact Keeps.bind (fromYield hu h.le) fun _ => Keeps.pure _

theorem ibcTransfer (ch : String) (hx : x ≠ a) (r : String) (h0 : 0 ≤ v) :
    Keeps (Kept a b p j) (ibcTransfer c env ch x r v) := by
  have := sendCoins (b := b) (p := p) (j := j) (y := c.escrowAddr ch) hu h0 hx
  unfold Dollar.ibcTransfer ics4Check bookPacket
  keeps <;> exact modify

theorem ibcOne (r : KV String String) (ch : String) : Keeps (Kept a b p j) (ibcOne c env r ch) := by
  unfold Dollar.ibcOne retryOnError
  refine Keeps.bind (claimModuleYield hu) fun y => Keeps.bind (takeRetry _ _) fun q =>
    HLe.ite (fun h => ?_) fun _ => Keeps.pure _
  have := ibcTransfer (b := b) (p := p) (j := j) hu env ch (hu.ne_escrow ch).symm ((r.get? ch).getD "") h.le
  keeps <;> exact modify

theorem ibcLoop (r : KV String String) (l : List String) : Keeps (Kept a b p j) (ibcLoop c env r l) := by
  induction l with
  | nil => exact Keeps.pure _
  | cons e t ih =>
    unfold Dollar.ibcLoop
    exact Keeps.bind (ibcOne hu env _ _) fun _ => ih

theorem warpTransfer (r : Route) (d : Nat) (bz : Bytes) (h0 : 0 ≤ v) :
    Keeps (Kept a b p j) (warpTransfer c env r d bz v) := by
  have := sendCoins (b := b) (p := p) (j := j) (y := c.warpAddr) hu h0 hu.ne_warp.symm
  unfold Dollar.warpTransfer
  keeps <;> exact modify

theorem hypOne (rs : KV String String) (t y : Int) (r : Route) :
    Keeps (Kept a b p j) (hypOne c env rs t y r) := by
  unfold Dollar.hypOne retryOnError
  refine Keeps.bind (takeRetry _ _) fun q => HLe.ite (fun h => ?_) fun _ => Keeps.pure _
  have := fun d bz => warpTransfer (b := b) (p := p) (j := j) hu env r d bz h.le
  keeps <;> first | exact this _ _ | exact modify

theorem hypLoop (rs : KV String String) (t y : Int) (l : List Route) :
    Keeps (Kept a b p j) (hypLoop c env rs t y l) := by
  induction l with
  | nil => exact Keeps.pure _
  | cons e t ih =>
    unfold Dollar.hypLoop
    exact Keeps.bind (hypOne hu env _ _ _ _) fun _ => ih

theorem claimStakedVaultYield : Keeps (Kept a b p j) (claimStakedVaultYield c) := by
  unfold Dollar.claimStakedVaultYield
  refine Keeps.bind Keeps.get fun s => HLe.ite (fun h => ?_) fun _ => Keeps.pure _
  have := fromYield (b := b) (p := p) (j := j) (y := c.flexibleAddr) hu h.le
  keeps <;> first | exact addPrincipal hu.ne_staked.symm _ | exact addPrincipal hu.ne_flexible.symm _

theorem mintCoins (v : Int) : Keeps (Kept a b p j) (mintCoins c v) := by
  unfold Dollar.mintCoins
  refine Keeps.bind ?_ fun _ => modify
  refine ⟨fun s => ?_⟩
  rw [addCoins_eq]
  exact fun hs => hs.of_eq rfl (by rw [balance_credit, if_neg hu.ne_module]; omega) rfl

theorem handleSeasonTwo : Keeps (Kept a b p j) (handleSeasonTwo c) := by
  unfold Dollar.handleSeasonTwo
  refine Keeps.bind (claimModuleYield hu) fun y => HLe.ite (fun h => ?_) fun _ => Keeps.pure _
  exact Keeps.bind Keeps.get fun s => sendCoins hu h.le hu.ne_staked.symm

theorem accrueYield (d : Int) : Keeps (Kept a b p j) (accrueYield c d) := by
  unfold Dollar.accrueYield
  refine Keeps.bind (Keeps.newCoin _) fun _ => HLe.ite (fun h => ?_) fun _ => Keeps.pure _
  exact Keeps.bind (mintCoins hu _) fun _ => Keeps.bind
    (sendCoins hu h.le hu.ne_module.symm) fun _ => modify

theorem updateIndex (i : Int) : Keeps (Kept a b p j) (updateIndex c env i) := by
  have h1 := accrueYield (b := b) (p := p) (j := j) hu
  have h3 := handleSeasonTwo (b := b) (p := p) (j := j) hu
  have h4 := claimStakedVaultYield (b := b) (p := p) (j := j) hu
  refine ⟨fun s => ?_⟩
  by_cases hi : i ≤ s.index
  · have : Dollar.updateIndex c env i s = .err .decreasingIndex s := by
      unfold Dollar.updateIndex
      simp only [bind_apply, get_apply, if_pos hi]; rfl
    rw [this]
    exact fun h => h
  · let rest : M Unit := do
      Dollar.accrueYield c (present s.totalPrincipal i - s.supply)
      handleVaults c i
      claimExternalIBC c env
      claimExternalHyperlane c env
      Dollar.emit (.indexUpdated s.index i s.totalPrincipal (present s.totalPrincipal i - s.supply))
    have key : Keeps (Kept a b p j) rest := by
      unfold rest handleVaults handleSeasonOne claimExternalIBC claimExternalHyperlane
      keeps <;> first
        | exact emit _ | exact h1 _ | exact claimModuleYield hu
        | exact claimModuleYield hu | exact ibcLoop hu _ _ _
        | exact hypRoutes _ | exact hypLoop hu _ _ _ _ _ | exact modify
    have e : Dollar.updateIndex c env i s = rest { s with index := i } := by
      unfold Dollar.updateIndex
      simp only [bind_apply, get_apply, if_neg hi]
      rfl
    rw [e]
    have := key.steps { s with index := i }
    unfold Res.Ends at this ⊢
    generalize rest { s with index := i } = r at *
    cases r with
    | ok _ s' => exact fun h => this (h.raise (by omega))
    | err _ s' => exact fun h => this (h.raise (by omega))
    | panic => trivial

end Kept
end Dollar
