import Verif.Lemmas.Bank
import Verif.Model.System

/-
What an index update does to the state, whatever its outcome.
-/
set_option linter.unusedSimpArgs false

namespace Dollar
open MM

/-! ### Distinct accounts -/

namespace Cfg.WF
variable {c : Cfg}

theorem mod_ne (h : c.WF) {m n : String} (hn : m ≠ n) : c.modAddr m ≠ c.modAddr n :=
  fun e => hn (h.mod_inj _ _ e)

theorem yield_ne_module (h : c.WF) : c.yieldAddr ≠ c.moduleAddr := h.mod_ne (by decide)
theorem staked_ne_yield (h : c.WF) : c.stakedAddr ≠ c.yieldAddr := h.mod_ne (by decide)
theorem flexible_ne_yield (h : c.WF) : c.flexibleAddr ≠ c.yieldAddr := h.mod_ne (by decide)
theorem warp_ne_yield (h : c.WF) : c.warpAddr ≠ c.yieldAddr := h.mod_ne (by decide)
theorem staked_ne_module (h : c.WF) : c.stakedAddr ≠ c.moduleAddr := h.mod_ne (by decide)
theorem flexible_ne_module (h : c.WF) : c.flexibleAddr ≠ c.moduleAddr := h.mod_ne (by decide)
theorem warp_ne_module (h : c.WF) : c.warpAddr ≠ c.moduleAddr := h.mod_ne (by decide)
theorem staked_ne_flexible (h : c.WF) : c.stakedAddr ≠ c.flexibleAddr := h.mod_ne (by decide)
theorem escrow_ne_mod (h : c.WF) (ch n : String) : c.escrowAddr ch ≠ c.modAddr n :=
  fun e => h.mod_ne_escrow _ _ _ e.symm
theorem escrow_ne_yield (h : c.WF) (ch : String) : c.escrowAddr ch ≠ c.yieldAddr :=
  h.escrow_ne_mod _ _
theorem escrow_ne_module (h : c.WF) (ch : String) : c.escrowAddr ch ≠ c.moduleAddr :=
  h.escrow_ne_mod _ _

end Cfg.WF

/-! ### Basic well-formedness of a state -/

/-- Basic facts that hold in every reachable state. -/
structure Good (c : Cfg) (s : State) : Prop where
  bal : ∀ x, 0 ≤ s.balance x
  index : 0 < s.index
  retry : ∀ p i, 0 ≤ s.retryOf p i
  infl : ∀ p ∈ s.inflight, 0 < p.amount ∧ (c.IsUser p.sender ∨ p.sender = c.escrowAddr p.channel)
  coll : s.collector ≠ c.yieldAddr
  collm : s.collector ≠ c.moduleAddr
  col : ∀ e ∈ s.collateral, 0 ≤ e.2

/-- Accounts that take part in yield distribution. -/
def Dist (c : Cfg) (s : State) (x : Addr) : Prop :=
  x = c.stakedAddr ∨ x = c.flexibleAddr ∨ x = c.warpAddr ∨ x = s.collector ∨
    ∃ ch, x = c.escrowAddr ch

/-- The state without the fields that yield distribution may change. -/
def distCore (s : State) : State :=
  { s with bal := [], principal := [], holders := 0, extYield := [], retry := [], collateral := [],
           ibcOut := [], inflight := [], vouchers := [], warpOut := [] }

theorem distCore_of_bank {s s' : State} (h : bankCore s' = bankCore s)
    (ht : s'.totalPrincipal = s.totalPrincipal) : distCore s' = distCore s := by
  show { distCore (bankCore s') with totalPrincipal := s'.totalPrincipal } = 
    { distCore (bankCore s) with totalPrincipal := s.totalPrincipal }
  rw [h, ht]

/-- Effect of distributing yield: no coins are created, only the yield account pays. -/
structure UR0 (c : Cfg) (s s' : State) : Prop where
  frame : distCore s' = distCore s
  sum : sumBal s' = sumBal s
  sumP : sumPrin s' = sumPrin s
  mono : ∀ x, x ≠ c.yieldAddr → s.balance x ≤ s'.balance x
  same : ∀ x, x ≠ c.yieldAddr → ¬ Dist c s x →
    s'.balance x = s.balance x ∧ s'.principalOf x = s.principalOf x
  yprin : s'.principalOf c.yieldAddr = s.principalOf c.yieldAddr
  infl : ∃ l, s'.inflight = s.inflight ++ l ∧ s'.ibcOut = s.ibcOut ++ l ∧
    ∀ p ∈ l, 0 < p.amount ∧ p.sender = c.escrowAddr p.channel ∧
      hasYieldRecipient s IBC p.channel = true

/-- Moreover escrow accounts keep covering vouchers and retry amounts. -/
structure UR (c : Cfg) (s s' : State) : Prop extends UR0 c s s' where
  esc : ∀ ch, s.balance (c.escrowAddr ch) - s.vouchersOf ch - s.retryOf IBC ch ≤
    s'.balance (c.escrowAddr ch) - s'.vouchersOf ch - s'.retryOf IBC ch

namespace UR0
variable {c : Cfg} {s s' s'' : State}

theorem supply (h : UR0 c s s') : s'.supply = s.supply := (congrArg State.supply h.frame :)
theorem paused (h : UR0 c s s') : s'.paused = s.paused := (congrArg State.paused h.frame :)
theorem index (h : UR0 c s s') : s'.index = s.index := (congrArg State.index h.frame :)
theorem totalPrincipal (h : UR0 c s s') : s'.totalPrincipal = s.totalPrincipal := (congrArg State.totalPrincipal h.frame :)
theorem totalYield (h : UR0 c s s') : s'.totalYield = s.totalYield := (congrArg State.totalYield h.frame :)
theorem recipients (h : UR0 c s s') : s'.recipients = s.recipients := (congrArg State.recipients h.frame :)
theorem owner (h : UR0 c s s') : s'.owner = s.owner := (congrArg State.owner h.frame :)
theorem portalPaused (h : UR0 c s s') : s'.portalPaused = s.portalPaused := (congrArg State.portalPaused h.frame :)
theorem peers (h : UR0 c s s') : s'.peers = s.peers := (congrArg State.peers h.frame :)
theorem paths (h : UR0 c s s') : s'.paths = s.paths := (congrArg State.paths h.frame :)
theorem nonce (h : UR0 c s s') : s'.nonce = s.nonce := (congrArg State.nonce h.frame :)
theorem vPaused (h : UR0 c s s') : s'.vPaused = s.vPaused := (congrArg State.vPaused h.frame :)
theorem seasonOneEnded (h : UR0 c s s') : s'.seasonOneEnded = s.seasonOneEnded := (congrArg State.seasonOneEnded h.frame :)
theorem collector (h : UR0 c s s') : s'.collector = s.collector := (congrArg State.collector h.frame :)
theorem positions (h : UR0 c s s') : s'.positions = s.positions := (congrArg State.positions h.frame :)
theorem totalFlexible (h : UR0 c s s') : s'.totalFlexible = s.totalFlexible := (congrArg State.totalFlexible h.frame :)
theorem rewards (h : UR0 c s s') : s'.rewards = s.rewards := (congrArg State.rewards h.frame :)
theorem vstats (h : UR0 c s s') : s'.vstats = s.vstats := (congrArg State.vstats h.frame :)
theorem archive (h : UR0 c s s') : s'.archive = s.archive := (congrArg State.archive h.frame :)
theorem posted (h : UR0 c s s') : s'.posted = s.posted := (congrArg State.posted h.frame :)
theorem events (h : UR0 c s s') : s'.events = s.events := (congrArg State.events h.frame :)

theorem refl (c : Cfg) (s : State) : UR0 c s s where
  frame := rfl
  sum := rfl
  sumP := rfl
  mono := fun _ _ => le_refl _
  same := fun _ _ _ => ⟨rfl, rfl⟩
  yprin := rfl
  infl := ⟨[], by simp, by simp, by simp⟩

theorem trans (h : UR0 c s s') (h' : UR0 c s' s'') : UR0 c s s'' where
  frame := h'.frame.trans h.frame
  sum := h'.sum.trans h.sum
  sumP := h'.sumP.trans h.sumP
  mono := fun x hx => (h.mono x hx).trans (h'.mono x hx)
  same := fun x hx hd => by
    have h1 := h.same x hx hd
    have hd' : ¬ Dist c s' x := by
      unfold Dist; rw [h.collector]; exact hd
    have h2 := h'.same x hx hd'
    exact ⟨h2.1.trans h1.1, h2.2.trans h1.2⟩
  yprin := h'.yprin.trans h.yprin
  infl := by
    obtain ⟨l, h1, h2, h3⟩ := h.infl
    obtain ⟨l', h1', h2', h3'⟩ := h'.infl
    refine ⟨l ++ l', by rw [h1', h1, List.append_assoc], by rw [h2', h2, List.append_assoc], ?_⟩
    intro p hp
    rcases List.mem_append.1 hp with hp | hp
    · exact h3 p hp
    · have := h3' p hp
      refine ⟨this.1, this.2.1, ?_⟩
      have h4 := this.2.2
      unfold hasYieldRecipient at h4 ⊢
      rwa [h.recipients] at h4

end UR0

theorem UR.refl (c : Cfg) (s : State) : UR c s s := ⟨UR0.refl c s, fun _ => le_refl _⟩

theorem UR.trans {c : Cfg} {s s' s'' : State} (h : UR c s s') (h' : UR c s' s'') : UR c s s'' :=
  ⟨h.toUR0.trans h'.toUR0, fun ch => (h.esc ch).trans (h'.esc ch)⟩

/-- Specification used for every part of the distribution. -/
def DistSpec {α : Type} (c : Cfg) (s : State) (x : M α) (Q : α → State → Prop) : Prop :=
  wp x s (fun a s' => (Good c s' ∧ UR c s s') ∧ Q a s') (fun _ s' => Good c s' ∧ UR c s s')

namespace DistSpec
variable {α β : Type} {c : Cfg} {s : State}

theorem bind {x : M α} {f : α → M β} {P : α → State → Prop} {Q : β → State → Prop}
    (hx : DistSpec c s x P)
    (hf : ∀ a s', Good c s' → UR c s s' → P a s' → DistSpec c s' (f a) Q) :
    DistSpec c s (x >>= f) Q := by
  refine wp.seq hx ?_ (fun _ _ h => h)
  rintro a s' ⟨⟨hg, hu⟩, hp⟩
  exact (hf a s' hg hu hp).mono (fun b s'' h => ⟨⟨h.1.1, hu.trans h.1.2⟩, h.2⟩)
    (fun e s'' h => ⟨h.1, hu.trans h.2⟩)

theorem pure {a : α} {Q : α → State → Prop} (hg : Good c s) (h : Q a s) :
    DistSpec c s (Pure.pure a) Q := ⟨⟨hg, UR.refl c s⟩, h⟩

theorem fail {e : Err} {Q : α → State → Prop} (hg : Good c s) :
    DistSpec c s (MM.fail e : M α) Q := ⟨hg, UR.refl c s⟩

theorem mono {x : M α} {P Q : α → State → Prop} (h : DistSpec c s x P)
    (hq : ∀ a s', P a s' → Q a s') : DistSpec c s x Q :=
  wp.mono h (fun a s' h => ⟨h.1, hq a s' h.2⟩) (fun _ _ h => h)

end DistSpec

theorem claimable_nonneg (s : State) (a : Addr) : 0 ≤ claimable s a := by
  unfold claimable
  simp only
  split <;> omega

theorem Good.of_moved {c : Cfg} {s s' : State} {a b : Addr} {amt : Int} (hg : Good c s)
    (h : Moved c s a b amt s') (ha : 0 ≤ amt) : Good c s' where
  bal := h.nonneg ha hg.bal
  index := h.index ▸ hg.index
  retry := fun p i => by rw [h.retryOf]; exact hg.retry p i
  infl := fun p hp => by rw [h.inflight] at hp; exact hg.infl p hp
  coll := h.collector ▸ hg.coll
  collm := h.collector ▸ hg.collm
  col := fun e he => by rw [h.collateral] at he; exact hg.col e he

/-- A payment out of the yield account. -/
theorem UR.of_yield {c : Cfg} (hc : c.WF) {s s' : State} {b : Addr} {amt : Int}
    (h : Moved c s c.yieldAddr b amt s') (ha : 0 ≤ amt) (hb : Dist c s b ∨ b = c.yieldAddr) :
    UR c s s' where
  frame := distCore_of_bank h.frame (h.skip (.inl rfl)).2.1
  sum := h.sum
  sumP := by unfold sumPrin; rw [(h.skip (.inl rfl)).1]
  mono := fun x hx => h.mono ha hx
  same := fun x hx hd => by
    have hxb : x ≠ b := by
      rintro rfl
      rcases hb with hb | hb <;> contradiction
    exact ⟨h.same hx hxb, h.prin_same hx hxb⟩
  yprin := h.yield_prin
  esc := fun ch => by
    rw [h.vouchersOf, h.retryOf]
    have := h.mono ha (hc.escrow_ne_yield ch)
    omega
  infl := ⟨[], by rw [h.inflight]; simp, by rw [h.ibcOut]; simp, by simp⟩

/-- Only bookkeeping fields change. -/
theorem UR.of_eq {c : Cfg} {s s' : State} (hf : distCore s' = distCore s) (hb : s'.bal = s.bal)
    (hp : s'.principal = s.principal) (hv : s'.vouchers = s.vouchers)
    (hr : ∀ ch, s'.retryOf IBC ch ≤ s.retryOf IBC ch) (hi : s'.inflight = s.inflight)
    (ho : s'.ibcOut = s.ibcOut) : UR c s s' where
  frame := hf
  sum := by unfold sumBal; rw [hb]
  sumP := by unfold sumPrin; rw [hp]
  mono := fun x _ => by unfold State.balance; rw [hb]
  same := fun x _ _ => by unfold State.balance State.principalOf; rw [hb, hp]; exact ⟨rfl, rfl⟩
  yprin := by unfold State.principalOf; rw [hp]
  esc := fun ch => by
    have := hr ch
    unfold State.balance State.vouchersOf
    rw [hb, hv]
    omega
  infl := ⟨[], by simp [hi], by simp [ho], by simp⟩

/-- A transfer of a distribution account to itself. -/
theorem UR.of_self {c : Cfg} {s s' : State} {a : Addr} {amt : Int} (h : Moved c s a a amt s')
    (hm : a ≠ c.moduleAddr) (hd : Dist c s a) : UR c s s' where
  frame := distCore_of_bank h.frame (h.total_of_ne_module hm hm)
  sum := h.sum
  sumP := h.sumP_of_ne_module hm hm
  mono := fun x _ => (h.self x).ge
  same := fun x _ hx => by
    have hne : x ≠ a := by rintro rfl; contradiction
    exact ⟨h.self x, h.prin_same hne hne⟩
  yprin := h.yield_prin
  esc := fun ch => by rw [h.vouchersOf, h.retryOf, h.self]
  infl := ⟨[], by rw [h.inflight]; simp, by rw [h.ibcOut]; simp, by simp⟩

theorem sendModuleToAccount_wp (c : Cfg) (a b : Addr) (amt : Int) (s : State) :
    wp (sendModuleToAccount c a b amt) s
      (fun _ s' => c.blocked b = false ∧ Moved c s a b amt s')
      (fun _ s' => (s' = s) ∨ SendFailed c s a b amt s') := by
  unfold sendModuleToAccount
  refine wp.ite (fun _ => .inl rfl) (fun h => ?_)
  exact (sendCoins_wp c a b amt s).mono (fun _ _ hm => ⟨by simpa using h, hm⟩) (fun _ _ hf => .inr hf)

theorem SendFailed.of_yield {c : Cfg} {s s' : State} {b : Addr} {amt : Int}
    (h : SendFailed c s c.yieldAddr b amt s') : s' = s := by
  rcases h with h | h
  · exact h.1
  · exact absurd rfl h.2.2.1

theorem SendFailed.of_ne {c : Cfg} {s s' : State} {a b : Addr} {amt : Int}
    (h : SendFailed c s a b amt s') (hb : b ≠ c.yieldAddr) : s' = s := by
  rcases h with h | h
  · exact h.1
  · exact absurd h.2.1 hb

/-- keeper/msg_server.go:195-211. -/
theorem claimModuleYield_wp (c : Cfg) (a : Addr) (s : State) :
    wp (claimModuleYield c a) s
      (fun y s' => y = claimable s a ∧ Moved c s c.yieldAddr a y s') (fun _ s' => s' = s) := by
  unfold claimModuleYield
  simp only [wp.bind_iff, wp.get_iff]
  refine wp.ite (fun h => ?_) (fun h => ?_)
  · refine wp.seq (sendModuleToAccount_wp c _ _ _ s) ?_ ?_
    · intro _ s' hm; exact ⟨rfl, hm.2⟩
    · rintro _ s' (h | h)
      · exact h
      · exact h.of_yield
  · have h0 : claimable s a = 0 := by have := claimable_nonneg s a; omega
    simp only [wp.pure_iff]
    refine ⟨trivial, ?_⟩
    rw [h0]; exact Moved.refl _ _ _ _

theorem claimModuleYield_dist {c : Cfg} (hc : c.WF) {s : State} (hg : Good c s) {a : Addr}
    (hd : Dist c s a) :
    DistSpec c s (claimModuleYield c a)
      (fun y s' => y = claimable s a ∧ Moved c s c.yieldAddr a y s') := by
  refine (claimModuleYield_wp c a s).mono ?_ ?_
  · rintro y s' ⟨hy, hm⟩
    have h0 : 0 ≤ y := hy ▸ claimable_nonneg s a
    exact ⟨⟨hg.of_moved hm h0, UR.of_yield hc hm h0 (.inl hd)⟩, hy, hm⟩
  · rintro _ s' rfl
    exact ⟨hg, UR.refl _ _⟩

/-! ### IBC -/

/-- State after the packet is handed to IBC core. -/
def booked (s : State) (p : IbcOut) : State :=
  { s with ibcOut := s.ibcOut ++ [p], inflight := s.inflight ++ [p],
           vouchers := s.vouchers.set p.channel (s.vouchersOf p.channel + p.amount) }

theorem ibcTransfer_wp {c : Cfg} (hc : c.WF) (env : Env) (ch : String) (a : Addr) (rcv : String)
    (amt : Int) (s : State) :
    wp (ibcTransfer c env ch a rcv amt) s
      (fun _ s' => env.ibc ch = .success ∧ hasYieldRecipient s IBC ch = true ∧
        ∃ m, Moved c s a (c.escrowAddr ch) amt m ∧ s' = booked m ⟨ch, a, rcv, amt⟩)
      (fun _ s' => s' = s ∨ Moved c s a (c.escrowAddr ch) amt s') := by
  have hchk : ∀ m, Moved c s a (c.escrowAddr ch) amt m →
      wp (ics4Check ch) m (fun _ s' => s' = m ∧ hasYieldRecipient s IBC ch = true)
        (fun _ s' => s' = m) := by
    intro m hm
    unfold ics4Check
    simp only [wp.bind_iff, wp.get_iff]
    refine wp.ite (fun h => ⟨rfl, ?_⟩) (fun _ => rfl)
    unfold hasYieldRecipient at h ⊢
    rwa [hm.recipients] at h
  unfold ibcTransfer
  cases henv : env.ibc ch with
  | failEarly => exact .inl rfl
  | failLate =>
    refine wp.seq (sendCoins_wp c _ _ _ s) ?_ (fun _ s' h => .inl (h.of_ne (hc.escrow_ne_yield ch)))
    intro _ m hm
    refine wp.seq (hchk m hm) ?_ ?_
    · rintro _ s' ⟨rfl, _⟩; exact .inr hm
    · rintro _ s' rfl; exact .inr hm
  | success =>
    refine wp.seq (sendCoins_wp c _ _ _ s) ?_ (fun _ s' h => .inl (h.of_ne (hc.escrow_ne_yield ch)))
    intro _ m hm
    refine wp.seq (hchk m hm) ?_ ?_
    · rintro _ s' ⟨rfl, hr⟩
      exact ⟨rfl, hr, _, hm, rfl⟩
    · rintro _ s' rfl; exact .inr hm

/-- State after `GetRetryAmountAndRemove`. -/
def retryTaken (s : State) (p : Int) (i : String) : State :=
  if 0 < s.retryOf p i then { s with retry := s.retry.erase (p, i) } else s

theorem takeRetry_eq (p : Int) (i : String) (s : State) :
    takeRetry p i s = .ok (s.retryOf p i) (retryTaken s p i) := by
  unfold takeRetry retryTaken
  simp only [bind_apply, get_apply]
  split <;> rfl

theorem retryTaken_bal (s : State) (p : Int) (i : String) : (retryTaken s p i).bal = s.bal := by
  unfold retryTaken; split <;> rfl
theorem retryTaken_principal (s : State) (p : Int) (i : String) :
    (retryTaken s p i).principal = s.principal := by
  unfold retryTaken; split <;> rfl
theorem retryTaken_core (s : State) (p : Int) (i : String) :
    distCore (retryTaken s p i) = distCore s := by
  unfold retryTaken; split <;> rfl
theorem retryTaken_vouchers (s : State) (p : Int) (i : String) :
    (retryTaken s p i).vouchers = s.vouchers := by
  unfold retryTaken; split <;> rfl
theorem retryTaken_inflight (s : State) (p : Int) (i : String) :
    (retryTaken s p i).inflight = s.inflight := by
  unfold retryTaken; split <;> rfl
theorem retryTaken_ibcOut (s : State) (p : Int) (i : String) :
    (retryTaken s p i).ibcOut = s.ibcOut := by
  unfold retryTaken; split <;> rfl
theorem retryTaken_collateral (s : State) (p : Int) (i : String) :
    (retryTaken s p i).collateral = s.collateral := by
  unfold retryTaken; split <;> rfl

theorem retryTaken_retryOf (s : State) (p : Int) (i : String) (hr : 0 ≤ s.retryOf p i)
    (p' : Int) (i' : String) :
    (retryTaken s p i).retryOf p' i' = if (p', i') = (p, i) then 0 else s.retryOf p' i' := by
  unfold retryTaken
  split
  · show ((s.retry.erase (p, i)).get? (p', i')).getD 0 = _
    rw [KV.get?_erase]
    split <;> simp_all [State.retryOf]
  · split
    · next h1 h2 =>
      simp only [Prod.mk.injEq] at h2
      rw [h2.1, h2.2]; omega
    · rfl

theorem retryTaken_good {c : Cfg} {s : State} (hg : Good c s) (p : Int) (i : String) :
    Good c (retryTaken s p i) where
  bal := fun x => by unfold State.balance; rw [retryTaken_bal]; exact hg.bal x
  index := by
    have := congrArg State.index (retryTaken_core s p i)
    have h2 : (retryTaken s p i).index = s.index := this
    rw [h2]; exact hg.index
  retry := fun p' i' => by
    rw [retryTaken_retryOf s p i (hg.retry p i)]
    split
    · exact le_refl _
    · exact hg.retry p' i'
  infl := by rw [retryTaken_inflight]; exact hg.infl
  coll := by
    have h2 : (retryTaken s p i).collector = s.collector :=
      (congrArg State.collector (retryTaken_core s p i) :)
    rw [h2]; exact hg.coll
  collm := by
    have h2 : (retryTaken s p i).collector = s.collector :=
      (congrArg State.collector (retryTaken_core s p i) :)
    rw [h2]; exact hg.collm
  col := by rw [retryTaken_collateral]; exact hg.col

theorem retryTaken_UR {c : Cfg} {s : State} (hg : Good c s) (p : Int) (i : String) :
    UR c s (retryTaken s p i) := by
  refine UR.of_eq (retryTaken_core s p i) (retryTaken_bal s p i) (retryTaken_principal s p i)
    (retryTaken_vouchers s p i) ?_ (retryTaken_inflight s p i) (retryTaken_ibcOut s p i)
  intro ch
  rw [retryTaken_retryOf s p i (hg.retry p i)]
  split
  · exact hg.retry _ _
  · exact le_refl _

/-- State after adding to a retry amount. -/
def retryAdded (s : State) (p : Int) (i : String) (amt : Int) : State :=
  { s with retry := s.retry.set (p, i) (s.retryOf p i + amt) }

theorem retryAdded_retryOf (s : State) (p : Int) (i : String) (amt : Int) (p' : Int) (i' : String) :
    (retryAdded s p i amt).retryOf p' i' =
      s.retryOf p' i' + (if (p', i') = (p, i) then amt else 0) := by
  show ((s.retry.set (p, i) (s.retryOf p i + amt)).get? (p', i')).getD 0 = _
  rw [getD_set]
  split
  · next h => simp only [Prod.mk.injEq] at h; rw [h.1, h.2]
  · simp [State.retryOf]

theorem Good.retryAdded {c : Cfg} {s : State} (hg : Good c s) (p : Int) (i : String) {amt : Int}
    (h : 0 ≤ amt) : Good c (retryAdded s p i amt) where
  bal := hg.bal
  index := hg.index
  retry := fun p' i' => by
    rw [retryAdded_retryOf]
    have := hg.retry p' i'
    split <;> omega
  infl := hg.infl
  coll := hg.coll
  collm := hg.collm
  col := hg.col

/-- State after adding to the external yield statistic. -/
def extAdded (s : State) (p : Int) (i : String) (amt : Int) : State :=
  { s with extYield := s.extYield.set (p, i) (s.extYieldOf p i + amt) }

theorem Good.extAdded {c : Cfg} {s : State} (hg : Good c s) (p : Int) (i : String) (amt : Int) :
    Good c (extAdded s p i amt) := ⟨hg.bal, hg.index, hg.retry, hg.infl, hg.coll, hg.collm, hg.col⟩

theorem UR.extAdded {c : Cfg} (s : State) (p : Int) (i : String) (amt : Int) :
    UR c s (extAdded s p i amt) :=
  UR.of_eq rfl rfl rfl rfl (fun _ => le_refl _) rfl rfl

theorem Good.booked {c : Cfg} {s : State} (hg : Good c s) (p : IbcOut) (h : 0 < p.amount)
    (hs : c.IsUser p.sender ∨ p.sender = c.escrowAddr p.channel) : Good c (booked s p) where
  bal := hg.bal
  index := hg.index
  retry := hg.retry
  infl := fun q hq => by
    rcases List.mem_append.1 (show q ∈ s.inflight ++ [p] from hq) with hq | hq
    · exact hg.infl q hq
    · simp only [List.mem_singleton] at hq; subst hq; exact ⟨h, hs⟩
  coll := hg.coll
  collm := hg.collm
  col := hg.col

theorem booked_vouchersOf (s : State) (p : IbcOut) (ch : String) :
    (booked s p).vouchersOf ch = s.vouchersOf ch + (if ch = p.channel then p.amount else 0) := by
  show ((s.vouchers.set p.channel (s.vouchersOf p.channel + p.amount)).get? ch).getD 0 = _
  rw [getD_set]
  split
  · next h => rw [h]
  · simp [State.vouchersOf]

theorem UR0.booked {c : Cfg} {s : State} (p : IbcOut) (h : 0 < p.amount)
    (hs : p.sender = c.escrowAddr p.channel) (hr : hasYieldRecipient s IBC p.channel = true) :
    UR0 c s (booked s p) where
  frame := rfl
  sum := rfl
  sumP := rfl
  mono := fun _ _ => le_refl _
  same := fun _ _ _ => ⟨rfl, rfl⟩
  yprin := rfl
  infl := ⟨[p], rfl, rfl, by simp [h, hs, hr]⟩

theorem UR0.retryAdded {c : Cfg} {s : State} (p : Int) (i : String) (amt : Int) :
    UR0 c s (retryAdded s p i amt) where
  frame := rfl
  sum := rfl
  sumP := rfl
  mono := fun _ _ => le_refl _
  same := fun _ _ _ => ⟨rfl, rfl⟩
  yprin := rfl
  infl := ⟨[], by simp [Dollar.retryAdded], by simp [Dollar.retryAdded], by simp⟩

theorem retryOnError_eq (e : Option Err) (p : Int) (i : String) (amt : Int) (s : State) :
    retryOnError e p i amt s = .ok () (if e.isSome then retryAdded s p i amt else s) := by
  cases e <;> rfl

/-- One iteration of the IBC loop. -/
theorem ibcOne_dist {c : Cfg} (hc : c.WF) (env : Env) (recips : KV String String) (ch : String)
    {s : State} (hg : Good c s) : DistSpec c s (ibcOne c env recips ch) (fun _ _ => True) := by
  have hdist : Dist c s (c.escrowAddr ch) := .inr (.inr (.inr (.inr ⟨ch, rfl⟩)))
  unfold ibcOne
  refine wp.seq (claimModuleYield_wp c _ s) ?_ ?_
  swap
  · rintro _ s' rfl; exact ⟨hg, UR.refl _ _⟩
  rintro y s1 ⟨hy, hm1⟩
  have hy0 : 0 ≤ y := hy ▸ claimable_nonneg s _
  have hg1 := hg.of_moved hm1 hy0
  have hu1 : UR c s s1 := UR.of_yield hc hm1 hy0 (.inl hdist)
  have hr0 := hg1.retry IBC ch
  -- balances and bookkeeping after the claim
  have hb1 : ∀ x, s1.balance (c.escrowAddr x) =
      s.balance (c.escrowAddr x) + (if c.escrowAddr x = c.escrowAddr ch then y else 0) := by
    intro x
    rw [hm1.bal]; simp [hc.escrow_ne_yield x]
  have hgt := retryTaken_good hg1 IBC ch
  have hut := retryTaken_UR (c := c) hg1 IBC ch
  have hmod := hc.escrow_ne_module ch
  generalize hs2 : retryTaken s1 IBC ch = s2 at hgt hut
  have hb2 : ∀ x, s2.balance x = s1.balance x := by
    intro x; rw [← hs2]; unfold State.balance; rw [retryTaken_bal]
  have hv2 : ∀ x, s2.vouchersOf x = s.vouchersOf x := by
    intro x; rw [← hs2, ← hm1.vouchersOf]; unfold State.vouchersOf; rw [retryTaken_vouchers]
  have hr2 : ∀ p x, s2.retryOf p x = if (p, x) = (IBC, ch) then 0 else s.retryOf p x := by
    intro p x; rw [← hs2, retryTaken_retryOf s1 IBC ch hr0, hm1.retryOf]
  have hrs : s1.retryOf IBC ch = s.retryOf IBC ch := hm1.retryOf _ _
  have hd2 : Dist c s2 (c.escrowAddr ch) := .inr (.inr (.inr (.inr ⟨ch, rfl⟩)))
  simp only [wp.bind_iff]
  unfold wp
  simp only [takeRetry_eq, hs2]
  by_cases hpos : 0 < y + s1.retryOf IBC ch
  swap
  · simp only [hpos, if_false, pure_apply]
    exact ⟨⟨hgt, hu1.trans hut⟩, trivial⟩
  simp only [hpos, if_true]
  generalize hamt : y + s1.retryOf IBC ch = amt at hpos
  -- transfer
  have key : wp (attempt (ibcTransfer c env ch (c.escrowAddr ch) ((recips.get? ch).getD "") amt)) s2
      (fun e s3 => Good c (if e.isSome then retryAdded s3 IBC ch amt else s3) ∧
        UR c s (if e.isSome then retryAdded s3 IBC ch amt else s3)) (fun _ _ => False) := by
    rw [wp.attempt_iff]
    refine (ibcTransfer_wp hc env ch _ _ amt s2).mono ?_ ?_
    · rintro _ s' ⟨_, hyr, m, hm, rfl⟩
      simp only [Option.isSome_none, Bool.false_eq_true, if_false]
      have hgm := hgt.of_moved hm hpos.le
      have hum : UR c s2 m := UR.of_self hm hmod hd2
      have hyr' : hasYieldRecipient m IBC ch = true := by
        unfold hasYieldRecipient at hyr ⊢; rwa [hm.recipients]
      refine ⟨hgm.booked _ hpos (.inr rfl), ?_, ?_⟩
      · exact ((hu1.toUR0.trans hut.toUR0).trans hum.toUR0).trans (UR0.booked _ hpos rfl hyr')
      · intro x
        rw [booked_vouchersOf]
        show _ ≤ m.balance (c.escrowAddr x) - _ - m.retryOf IBC x
        rw [hm.self, hm.vouchersOf, hm.retryOf, hb2, hb1, hv2, hr2]
        by_cases hx : x = ch
        · subst hx; simp; omega
        · have hne : c.escrowAddr x ≠ c.escrowAddr ch := fun e => hx (hc.escrow_inj _ _ e)
          simp [hx, hne]
    · intro e s3 hs3
      simp only [Option.isSome_some, if_true]
      have hg3 : Good c s3 := by
        rcases hs3 with rfl | hm
        · exact hgt
        · exact hgt.of_moved hm hpos.le
      have hu3 : UR c s2 s3 := by
        rcases hs3 with rfl | hm
        · exact UR.refl _ _
        · exact UR.of_self hm hmod hd2
      have hb3 : ∀ x, s3.balance x = s2.balance x := by
        rcases hs3 with rfl | hm
        · intro x; rfl
        · exact hm.self
      have hv3 : ∀ x, s3.vouchersOf x = s2.vouchersOf x := by
        rcases hs3 with rfl | hm
        · intro x; rfl
        · exact hm.vouchersOf
      have hr3 : ∀ p x, s3.retryOf p x = s2.retryOf p x := by
        rcases hs3 with rfl | hm
        · intro p x; rfl
        · exact hm.retryOf
      refine ⟨hg3.retryAdded _ _ hpos.le, ?_, ?_⟩
      · exact ((hu1.toUR0.trans hut.toUR0).trans hu3.toUR0).trans (UR0.retryAdded _ _ _)
      · intro x
        rw [retryAdded_retryOf]
        show _ ≤ s3.balance (c.escrowAddr x) - s3.vouchersOf x - _
        rw [hb3, hv3, hr3, hb2, hb1, hv2, hr2]
        by_cases hx : x = ch
        · subst hx; simp; omega
        · have hne : c.escrowAddr x ≠ c.escrowAddr ch := fun e => hx (hc.escrow_inj _ _ e)
          simp [hx, hne]
  unfold wp at key
  simp only [bind_apply]
  cases hat : attempt (ibcTransfer c env ch (c.escrowAddr ch) ((recips.get? ch).getD "") amt) s2 with
  | ok e s3 =>
    rw [hat] at key
    simp only [retryOnError_eq]
    exact ⟨⟨key.1.extAdded IBC ch y, key.2.trans (UR.extAdded _ IBC ch y)⟩, trivial⟩
  | err e s3 => rw [hat] at key; exact key.elim
  | panic => trivial

theorem ibcLoop_dist {c : Cfg} (hc : c.WF) (env : Env) (recips : KV String String)
    (l : List String) : ∀ {s : State}, Good c s →
    DistSpec c s (ibcLoop c env recips l) (fun _ _ => True) := by
  induction l with
  | nil => intro s hg; exact DistSpec.pure hg trivial
  | cons id t ih =>
    intro s hg
    exact DistSpec.bind (ibcOne_dist hc env recips id hg) (fun _ s' hg' _ _ => ih hg')

theorem claimExternalIBC_dist {c : Cfg} (hc : c.WF) (env : Env) {s : State} (hg : Good c s) :
    DistSpec c s (claimExternalIBC c env) (fun _ _ => True) :=
  ibcLoop_dist hc env _ _ hg

end Dollar
