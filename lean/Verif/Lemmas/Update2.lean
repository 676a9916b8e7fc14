import Verif.Lemmas.Update

/-
Hyperlane distribution, vault yield and the whole index update.
-/
set_option linter.unusedSimpArgs false

namespace Dollar
open MM

/-! ### Hyperlane -/

theorem Good.set_collateral {c : Cfg} {s : State} (hg : Good c s) (t : Nat) (v : Int) (hv : 0 ≤ v) :
    Good c { s with collateral := s.collateral.set t v } where
  bal := hg.bal
  index := hg.index
  retry := hg.retry
  infl := hg.infl
  coll := hg.coll
  collm := hg.collm
  col := fun e he => by
    rcases KV.mem_set he with h | h
    · rw [h]; exact hv
    · exact hg.col e h

theorem Good.set_warpOut {c : Cfg} {s : State} (hg : Good c s) (l : List WarpOut) :
    Good c { s with warpOut := l } :=
  ⟨hg.bal, hg.index, hg.retry, hg.infl, hg.coll, hg.collm, hg.col⟩

theorem warpTransfer_dist {c : Cfg} (hc : c.WF) (env : Env) (r : Route) (d : Nat) (rcp : Bytes)
    (amt : Int) (ha : 0 ≤ amt) (hr : 0 ≤ r.collateral) {s : State} (hg : Good c s) :
    DistSpec c s (warpTransfer c env r d rcp amt) (fun _ _ => True) := by
  have hd : Dist c s c.warpAddr := .inr (.inr (.inl rfl))
  have hsend : DistSpec c s (sendCoins c c.warpAddr c.warpAddr amt) (fun _ _ => True) := by
    refine (sendCoins_wp c _ _ _ s).mono ?_ ?_
    · intro _ s' hm
      exact ⟨⟨hg.of_moved hm ha, UR.of_self hm hc.warp_ne_module hd⟩, trivial⟩
    · intro _ s' hf
      rw [hf.of_ne hc.warp_ne_yield]; exact ⟨hg, UR.refl _ _⟩
  have hcol : ∀ s', Good c s' → DistSpec c s' (modify fun s => { s with
      collateral := s.collateral.set r.tokenId (r.collateral + amt) } : M Unit)
      (fun _ _ => True) := by
    intro s' hg'
    exact ⟨⟨hg'.set_collateral _ _ (by omega),
      UR.of_eq rfl rfl rfl rfl (fun _ => le_refl _) rfl rfl⟩, trivial⟩
  unfold warpTransfer
  cases env.warp r.tokenId with
  | failEarly => exact DistSpec.fail hg
  | failLate =>
    refine DistSpec.bind hsend (fun _ s1 hg1 _ _ => ?_)
    refine DistSpec.bind (hcol s1 hg1) (fun _ s2 hg2 _ _ => ?_)
    exact DistSpec.fail hg2
  | success =>
    refine DistSpec.bind hsend (fun _ s1 hg1 _ _ => ?_)
    refine DistSpec.bind (hcol s1 hg1) (fun _ s2 hg2 _ _ => ?_)
    exact ⟨⟨hg2.set_warpOut _, UR.of_eq rfl rfl rfl rfl (fun _ => le_refl _) rfl rfl⟩, trivial⟩

theorem DistSpec.attempt {c : Cfg} {s : State} {x : M Unit} (h : DistSpec c s x (fun _ _ => True)) :
    DistSpec c s (MM.attempt x) (fun _ _ => True) := by
  unfold DistSpec at *
  rw [wp.attempt_iff]
  exact h.mono (fun _ _ h => h) (fun _ _ h => ⟨h, trivial⟩)

theorem DistSpec.modify {c : Cfg} {s : State} {f : State → State} (hg : Good c (f s))
    (hu : UR c s (f s)) : DistSpec c s (MM.modify f : M Unit) (fun _ _ => True) :=
  ⟨⟨hg, hu⟩, trivial⟩

/-- Retry amounts of other providers do not matter for IBC escrows. -/
theorem UR.retryAdded_hyp {c : Cfg} (s : State) (i : String) (amt : Int) :
    UR c s (retryAdded s HYPERLANE i amt) :=
  ⟨UR0.retryAdded _ _ _, fun ch => by
    have hne : ¬ ((IBC, ch) = (HYPERLANE, i)) := by simp [IBC, HYPERLANE]
    rw [retryAdded_retryOf, if_neg hne]
    show _ ≤ s.balance (c.escrowAddr ch) - s.vouchersOf ch - _
    omega⟩

theorem hypOne_dist {c : Cfg} (hc : c.WF) (env : Env) (recips : KV String String) (total y : Int)
    (r : Route) (hr : 0 ≤ r.collateral) {s : State} (hg : Good c s) :
    DistSpec c s (hypOne c env recips total y r) (fun _ _ => True) := by
  unfold hypOne
  simp only
  have htake : DistSpec c s (takeRetry HYPERLANE r.identifier) (fun _ _ => True) := by
    unfold DistSpec wp
    rw [takeRetry_eq]
    exact ⟨⟨retryTaken_good hg _ _, retryTaken_UR hg _ _⟩, trivial⟩
  refine DistSpec.bind htake (fun rt s1 hg1 _ _ => ?_)
  refine wp.ite (fun hpos => ?_) (fun _ => DistSpec.pure hg1 trivial)
  have hroute : DistSpec c s1 (hypRouter env r.tokenId) (fun _ _ => True) := by
    unfold hypRouter
    split
    · exact DistSpec.pure hg1 trivial
    · exact DistSpec.fail hg1
  refine DistSpec.bind hroute (fun d s2 hg2 _ _ => ?_)
  split
  · exact DistSpec.fail hg2
  · next rcp _ =>
    refine DistSpec.bind (DistSpec.attempt (warpTransfer_dist hc env r d rcp _ hpos.le hr hg2))
      (fun e s3 hg3 _ _ => ?_)
    have hre : DistSpec c s3 (retryOnError e HYPERLANE r.identifier
        (yieldPortion r.collateral total y + rt)) (fun _ _ => True) := by
      unfold DistSpec wp
      rw [retryOnError_eq]
      cases e
      · exact ⟨⟨hg3, UR.refl _ _⟩, trivial⟩
      · exact ⟨⟨hg3.retryAdded _ _ hpos.le, UR.retryAdded_hyp _ _ _⟩, trivial⟩
    refine DistSpec.bind hre (fun _ s4 hg4 _ _ => ?_)
    exact DistSpec.modify (hg4.extAdded _ _ _) (UR.extAdded _ _ _ _)

theorem hypLoop_dist {c : Cfg} (hc : c.WF) (env : Env) (recips : KV String String) (total y : Int)
    (l : List Route) (hl : ∀ r ∈ l, 0 ≤ r.collateral) : ∀ {s : State}, Good c s →
    DistSpec c s (hypLoop c env recips total y l) (fun _ _ => True) := by
  induction l with
  | nil => intro s hg; exact DistSpec.pure hg trivial
  | cons r t ih =>
    intro s hg
    exact DistSpec.bind (hypOne_dist hc env recips total y r (hl r (by simp)) hg)
      (fun _ s' hg' _ _ => ih (fun r hr => hl r (by simp [hr])) hg')

/-- The first pass only reads. -/
theorem hypRoutes_wp (c : Cfg) (ids : List String) (s : State) :
    wp (hypRoutes c ids) s
      (fun rs s' => s' = s ∧ rs.map Route.identifier = ids ∧
        ∀ r ∈ rs, s.collateral.get? r.tokenId = some r.collateral ∧
          ∃ raw, c.hexAddr r.identifier = some raw ∧ r.tokenId = c.internalId raw)
      (fun _ s' => s' = s) := by
  induction ids with
  | nil => exact ⟨rfl, rfl, by simp⟩
  | cons id t ih =>
    unfold hypRoutes
    split
    · rfl
    · next raw hraw =>
      simp only [wp.bind_iff, wp.get_iff]
      split
      · rfl
      · next col hcol =>
        refine wp.seq ih ?_ (fun _ _ h => h)
        rintro rs s' ⟨rfl, h1, h2⟩
        refine ⟨rfl, by simp [h1], ?_⟩
        intro r hr
        rcases List.mem_cons.1 hr with rfl | hr
        · exact ⟨hcol, raw, hraw, rfl⟩
        · exact h2 r hr

theorem claimExternalHyperlane_dist {c : Cfg} (hc : c.WF) (env : Env) {s : State} (hg : Good c s) :
    DistSpec c s (claimExternalHyperlane c env) (fun _ _ => True) := by
  have hd : Dist c s c.warpAddr := .inr (.inr (.inl rfl))
  unfold claimExternalHyperlane
  refine DistSpec.bind (x := get) (P := fun _ _ => True) ⟨⟨hg, UR.refl _ _⟩, trivial⟩ ?_
  intro s0 s1 hg1 hu1 _
  have hd1 : Dist c s1 c.warpAddr := .inr (.inr (.inl rfl))
  refine DistSpec.bind (claimModuleYield_dist hc hg1 hd1) ?_
  rintro y s2 hg2 hu2 ⟨hy, hm⟩
  refine wp.ite (fun hpos => ?_) (fun _ => DistSpec.pure hg2 trivial)
  have hroutes : DistSpec c s2 (hypRoutes c (sortedIds env s0 HYPERLANE))
      (fun rs _ => ∀ r ∈ rs, 0 ≤ r.collateral) := by
    refine (hypRoutes_wp c _ s2).mono ?_ ?_
    · rintro rs s' ⟨rfl, _, h⟩
      refine ⟨⟨hg2, UR.refl _ _⟩, fun r hr => ?_⟩
      exact hg2.col _ (KV.mem_of_get? (h r hr).1)
    · rintro _ s' rfl; exact ⟨hg2, UR.refl _ _⟩
  refine DistSpec.bind hroutes (fun rs s3 hg3 _ hrs => ?_)
  refine wp.ite (fun _ => ?_) (fun _ => DistSpec.pure hg3 trivial)
  exact hypLoop_dist hc env _ _ _ _ hrs hg3

/-! ### Vault yield -/

/-- State after changing an account's principal. -/
def prinAdded (s : State) (a : Addr) (d : Int) : State :=
  { s with principal := s.principal.set a (s.principalOf a + d) }

theorem prinAdded_principalOf (s : State) (a x : Addr) (d : Int) :
    (prinAdded s a d).principalOf x = s.principalOf x + (if x = a then d else 0) :=
  principalOf_addPrincipal s a x d

theorem prinAdded_sum (s : State) (a : Addr) (d : Int) :
    sumPrin (prinAdded s a d) = sumPrin s + d := sumPrin_addPrincipal s a d

theorem UR.of_prin_shift {c : Cfg} {s : State} (hc : c.WF) (d : Int) :
    UR c s (prinAdded (prinAdded s c.stakedAddr (-d)) c.flexibleAddr d) where
  frame := rfl
  sum := rfl
  sumP := by rw [prinAdded_sum, prinAdded_sum]; ring
  mono := fun _ _ => le_refl _
  same := fun x _ hx => by
    have n1 : x ≠ c.stakedAddr := fun e => hx (.inl e)
    have n2 : x ≠ c.flexibleAddr := fun e => hx (.inr (.inl e))
    refine ⟨rfl, ?_⟩
    rw [prinAdded_principalOf, prinAdded_principalOf]; simp [n1, n2]
  yprin := by
    rw [prinAdded_principalOf, prinAdded_principalOf]
    simp [hc.staked_ne_yield.symm, hc.flexible_ne_yield.symm]
  infl := ⟨[], by simp [prinAdded], by simp [prinAdded], by simp⟩
  esc := fun _ => le_refl _

/-- keeper/msg_server.go:213-256. -/
theorem claimStakedVaultYield_dist {c : Cfg} (hc : c.WF) {s : State} (hg : Good c s) :
    DistSpec c s (claimStakedVaultYield c)
      (fun y s' => 0 ≤ y ∧ s.balance c.flexibleAddr + y ≤ s'.balance c.flexibleAddr) := by
  have hd : Dist c s c.flexibleAddr := .inr (.inl rfl)
  unfold claimStakedVaultYield
  refine wp.seq (Q := fun a s' => a = s ∧ s' = s) (E := fun _ _ => False) ⟨rfl, rfl⟩ ?_
    (fun _ _ h => h.elim)
  rintro s0 s1 ⟨rfl, rfl⟩
  refine wp.ite (fun hpos => ?_) (fun _ => DistSpec.pure hg ⟨le_refl _, by simp⟩)
  refine wp.seq (sendModuleToAccount_wp c _ _ _ s1) ?_ ?_
  swap
  · rintro _ s' (h | h)
    · rw [h]; exact ⟨hg, UR.refl _ _⟩
    · rw [h.of_yield]; exact ⟨hg, UR.refl _ _⟩
  rintro _ s2 ⟨_, hm⟩
  have hg2 := hg.of_moved hm hpos.le
  have hu2 : UR c s1 s2 := UR.of_yield hc hm hpos.le (.inl hd)
  have hbal : s1.balance c.flexibleAddr + claimable s1 c.stakedAddr = s2.balance c.flexibleAddr := by
    rw [hm.bal]; simp [hc.flexible_ne_yield]
  simp only [wp.bind_iff, wp.get_iff]
  refine wp.ite (fun _ => trivial) (fun _ => ?_)
  simp only [addPrincipal, wp.bind_iff, wp.modify_iff, wp.pure_iff]
  have hu3 := UR.of_prin_shift (s := s2) hc (yieldPrincipal (claimable s1 c.stakedAddr) s2.index)
  refine ⟨⟨?_, hu2.trans hu3⟩, hpos.le, hbal.le⟩
  exact ⟨hg2.bal, hg2.index, hg2.retry, hg2.infl, hg2.coll, hg2.collm, hg2.col⟩

/-- Season one: the rewards record of the new index is funded. -/
theorem handleSeasonOne_wp {c : Cfg} (hc : c.WF) (i : Int) {s : State} (hg : Good c s) :
    wp (handleSeasonOne c i) s
      (fun _ s' => ∃ m r, Good c m ∧ UR c s m ∧ 0 ≤ r ∧
        s.balance c.flexibleAddr + r ≤ m.balance c.flexibleAddr ∧
        s' = { m with rewards := m.rewards.set i ⟨i, m.totalFlexible, r⟩ })
      (fun _ s' => Good c s' ∧ UR c s s') := by
  have hd : Dist c s c.flexibleAddr := .inr (.inl rfl)
  unfold handleSeasonOne
  refine wp.seq (claimModuleYield_dist hc hg hd) ?_ (fun _ _ h => h)
  rintro y1 s1 ⟨⟨hg1, hu1⟩, hy1, hm1⟩
  have hb1 : s.balance c.flexibleAddr + y1 = s1.balance c.flexibleAddr := by
    rw [hm1.bal]; simp [hc.flexible_ne_yield]
  have h1 : 0 ≤ y1 := hy1 ▸ claimable_nonneg s _
  refine wp.seq (claimStakedVaultYield_dist hc hg1) ?_ (fun _ _ h => ⟨h.1, hu1.trans h.2⟩)
  rintro y2 s2 ⟨⟨hg2, hu2⟩, h2, hb2⟩
  exact ⟨s2, y2 + y1, hg2, hu1.trans hu2, by omega, by omega, rfl⟩

/-- Season two: staked yield goes through the staked vault to the collector. -/
theorem handleSeasonTwo_wp {c : Cfg} (hc : c.WF) {s : State} (hg : Good c s) :
    wp (handleSeasonTwo c) s
      (fun _ s' => Good c s' ∧ UR c s s') (fun _ s' => Good c s' ∧ UR c s s') := by
  have hd : Dist c s c.stakedAddr := .inl rfl
  unfold handleSeasonTwo
  refine wp.seq (claimModuleYield_dist hc hg hd) ?_ (fun _ _ h => h)
  rintro y s1 ⟨⟨hg1, hu1⟩, hy, hm1⟩
  refine wp.ite (fun hpos => ?_) (fun _ => ⟨hg1, hu1⟩)
  simp only [wp.bind_iff, wp.get_iff]
  have hcoll : s1.collector = s.collector := hm1.collector
  have hne : s1.collector ≠ c.yieldAddr := hcoll ▸ hg.coll
  have hnm : s1.collector ≠ c.moduleAddr := hcoll ▸ hg.collm
  refine (sendCoins_wp c _ _ _ s1).mono ?_ ?_
  swap
  · intro _ s' hf
    rw [hf.of_ne hne]; exact ⟨hg1, hu1⟩
  intro _ s2 hm2
  have hg2 := hg1.of_moved hm2 hpos.le
  have hbal : ∀ x, x ≠ c.yieldAddr → s.balance x ≤ s2.balance x := by
    intro x hx
    rw [hm2.bal, hm1.bal]
    simp only [hx, if_false]
    by_cases h1 : x = c.stakedAddr <;> by_cases h2 : x = s1.collector <;> simp only [h1, h2, if_true, if_false] <;>
      (try split) <;> omega
  refine ⟨hg2, ⟨?_, ?_, ?_, hbal, ?_, ?_, ?_⟩, ?_⟩
  · exact (distCore_of_bank hm2.frame (hm2.total_of_ne_module hc.staked_ne_module hnm)).trans hu1.frame
  · exact hm2.sum.trans hu1.sum
  · exact (hm2.sumP_of_ne_module hc.staked_ne_module hnm).trans hu1.sumP
  · intro x hx hdx
    have n1 : x ≠ c.stakedAddr := fun e => hdx (.inl e)
    have n2 : x ≠ s1.collector := fun e => hdx (.inr (.inr (.inr (.inl (e.trans hcoll)))))
    have := hu1.same x hx hdx
    exact ⟨(hm2.same n1 n2).trans this.1, (hm2.prin_same n1 n2).trans this.2⟩
  · exact hm2.yield_prin.trans hu1.yprin
  · obtain ⟨l, h1, h2, h3⟩ := hu1.infl
    exact ⟨l, hm2.inflight.trans h1, hm2.ibcOut.trans h2, h3⟩
  · intro ch
    have := hbal _ (hc.escrow_ne_yield ch)
    rw [hm2.vouchersOf, hm2.retryOf, hm1.vouchersOf, hm1.retryOf]
    omega

/-! ### The whole index update -/

/-- The state without the fields an index update may change. -/
def updCore (s : State) : State :=
  { distCore s with supply := 0, index := 0, totalYield := 0, rewards := [], events := [] }

/-- Effect of an index update on the state, whatever its outcome (unless it panics). -/
structure UI (c : Cfg) (s : State) (i : Int) (s' : State) : Prop where
  good : Good c s'
  frame : updCore s' = updCore s
  index : s'.index = s.index ∨ (s'.index = i ∧ s.index < i)
  /-- the supply is left alone, or set to the value of the total principal at the new index -/
  issued : (s'.supply = s.supply ∧ s'.index = s.index) ∨
    (s'.index = i ∧ s.index < i ∧ s'.supply = present s.totalPrincipal i)
  ledger : sumBal s' - s'.supply = sumBal s - s.supply
  yield : s'.supply - s.supply = s'.totalYield - s.totalYield
  supply_mono : s.supply ≤ s'.supply
  sumP : sumPrin s' = sumPrin s
  mono : ∀ x, x ≠ c.yieldAddr → x ≠ c.moduleAddr → s.balance x ≤ s'.balance x
  same : ∀ x, x ≠ c.yieldAddr → ¬ Dist c s x →
    s'.balance x = s.balance x ∧ s'.principalOf x = s.principalOf x
  yprin : s'.principalOf c.yieldAddr = s.principalOf c.yieldAddr
  esc : ∀ ch, s.balance (c.escrowAddr ch) - s.vouchersOf ch - s.retryOf IBC ch ≤
    s'.balance (c.escrowAddr ch) - s'.vouchersOf ch - s'.retryOf IBC ch
  infl : ∃ l, s'.inflight = s.inflight ++ l ∧ s'.ibcOut = s.ibcOut ++ l ∧
    ∀ p ∈ l, 0 < p.amount ∧ p.sender = c.escrowAddr p.channel ∧
      hasYieldRecipient s IBC p.channel = true
  rewards : s'.rewards = s.rewards ∨
    (s.seasonOneEnded = false ∧ s'.index = i ∧ s.index < i ∧ ∃ r, 0 ≤ r ∧
      s'.rewards = s.rewards.set i ⟨i, s.totalFlexible, r⟩ ∧
      s.balance c.flexibleAddr + r ≤ s'.balance c.flexibleAddr)

namespace UI
variable {c : Cfg} {s s' : State} {i : Int}

theorem paused (h : UI c s i s') : s'.paused = s.paused := (congrArg State.paused h.frame :)
theorem totalPrincipal (h : UI c s i s') : s'.totalPrincipal = s.totalPrincipal := (congrArg State.totalPrincipal h.frame :)
theorem recipients (h : UI c s i s') : s'.recipients = s.recipients := (congrArg State.recipients h.frame :)
theorem owner (h : UI c s i s') : s'.owner = s.owner := (congrArg State.owner h.frame :)
theorem portalPaused (h : UI c s i s') : s'.portalPaused = s.portalPaused := (congrArg State.portalPaused h.frame :)
theorem peers (h : UI c s i s') : s'.peers = s.peers := (congrArg State.peers h.frame :)
theorem paths (h : UI c s i s') : s'.paths = s.paths := (congrArg State.paths h.frame :)
theorem nonce (h : UI c s i s') : s'.nonce = s.nonce := (congrArg State.nonce h.frame :)
theorem vPaused (h : UI c s i s') : s'.vPaused = s.vPaused := (congrArg State.vPaused h.frame :)
theorem seasonOneEnded (h : UI c s i s') : s'.seasonOneEnded = s.seasonOneEnded := (congrArg State.seasonOneEnded h.frame :)
theorem collector (h : UI c s i s') : s'.collector = s.collector := (congrArg State.collector h.frame :)
theorem positions (h : UI c s i s') : s'.positions = s.positions := (congrArg State.positions h.frame :)
theorem totalFlexible (h : UI c s i s') : s'.totalFlexible = s.totalFlexible := (congrArg State.totalFlexible h.frame :)
theorem vstats (h : UI c s i s') : s'.vstats = s.vstats := (congrArg State.vstats h.frame :)
theorem archive (h : UI c s i s') : s'.archive = s.archive := (congrArg State.archive h.frame :)
theorem posted (h : UI c s i s') : s'.posted = s.posted := (congrArg State.posted h.frame :)

theorem refl (hg : Good c s) : UI c s i s where
  good := hg
  frame := rfl
  index := .inl rfl
  issued := .inl ⟨rfl, rfl⟩
  ledger := rfl
  yield := by ring
  supply_mono := le_refl _
  sumP := rfl
  mono := fun _ _ _ => le_refl _
  same := fun _ _ _ => ⟨rfl, rfl⟩
  yprin := rfl
  esc := fun _ => le_refl _
  infl := ⟨[], by simp, by simp, by simp⟩
  rewards := .inl rfl

/-- An index update followed by more distribution. -/
theorem trans_UR (h : UI c s i s') {s'' : State} (hg : Good c s'') (hu : UR c s' s'')
    (hc : c.WF) : UI c s i s'' where
  good := hg
  frame := by
    have e1 : updCore s'' = { distCore s'' with
      supply := 0, index := 0, totalYield := 0, rewards := [], events := [] } := rfl
    rw [e1, hu.frame]; exact h.frame
  index := hu.index ▸ h.index
  issued := by rw [hu.supply, hu.index]; exact h.issued
  ledger := by rw [hu.sum, hu.supply]; exact h.ledger
  yield := by rw [hu.supply, hu.totalYield]; exact h.yield
  supply_mono := hu.supply ▸ h.supply_mono
  sumP := hu.sumP.trans h.sumP
  mono := fun x hx hm => (h.mono x hx hm).trans (hu.mono x hx)
  same := fun x hx hd => by
    have h1 := h.same x hx hd
    have hd' : ¬ Dist c s' x := by
      have : s'.collector = s.collector := h.collector
      unfold Dist; rw [this]; exact hd
    have h2 := hu.same x hx hd'
    exact ⟨h2.1.trans h1.1, h2.2.trans h1.2⟩
  yprin := hu.yprin.trans h.yprin
  esc := fun ch => (h.esc ch).trans (hu.esc ch)
  infl := by
    obtain ⟨l, h1, h2, h3⟩ := h.infl
    obtain ⟨l', h1', h2', h3'⟩ := hu.infl
    refine ⟨l ++ l', by rw [h1', h1, List.append_assoc], by rw [h2', h2, List.append_assoc], ?_⟩
    intro p hp
    rcases List.mem_append.1 hp with hp | hp
    · exact h3 p hp
    · have := h3' p hp
      refine ⟨this.1, this.2.1, ?_⟩
      have h4 := this.2.2
      unfold hasYieldRecipient at h4 ⊢
      rwa [h.recipients] at h4
  rewards := by
    rw [hu.rewards, hu.index]
    rcases h.rewards with h1 | ⟨h1, h2, h3, r, h4, h5, h6⟩
    · exact .inl h1
    · exact .inr ⟨h1, h2, h3, r, h4, h5, h6.trans (hu.mono _ hc.flexible_ne_yield)⟩

end UI

/-- The state without the fields that accruing yield may change. -/
def accCore (s : State) : State := { s with bal := [], supply := 0, totalYield := 0 }

/-- Effect of accruing yield. -/
structure Accrued (c : Cfg) (s : State) (d : Int) (s' : State) : Prop where
  nonneg : 0 ≤ d
  supply : s'.supply = s.supply + d
  totalYield : s'.totalYield = s.totalYield + d
  bal : ∀ x, s'.balance x = s.balance x + (if x = c.yieldAddr then d else 0)
  sum : sumBal s' = sumBal s + d
  frame : accCore s' = accCore s

/-- State after minting into the module account. -/
def minted (s : State) (a : Addr) (d : Int) : State :=
  { credit s a d with supply := s.supply + d }

theorem mintCoins_eq (c : Cfg) (d : Int) (s : State) :
    mintCoins c d s = .ok () (minted s c.moduleAddr d) := rfl

theorem minted_balance (s : State) (a x : Addr) (d : Int) :
    (minted s a d).balance x = s.balance x + (if x = a then d else 0) := balance_credit s a x d

theorem minted_sum (s : State) (a : Addr) (d : Int) : sumBal (minted s a d) = sumBal s + d :=
  sumBal_credit s a d

theorem accCore_of_bank {s s' : State} (h : bankCore s' = bankCore s)
    (hp : s'.principal = s.principal) (ht : s'.totalPrincipal = s.totalPrincipal)
    (hh : s'.holders = s.holders) : accCore s' = accCore s := by
  show ({ accCore (bankCore s') with principal := s'.principal, totalPrincipal := s'.totalPrincipal, holders := s'.holders } : State) =
    { accCore (bankCore s) with principal := s.principal, totalPrincipal := s.totalPrincipal, holders := s.holders }
  rw [h, ht, hp, hh]

/-- Minting yield. -/
theorem accrueYield_wp {c : Cfg} (hc : c.WF) (d : Int) {s : State} (hg : Good c s) :
    wp (accrueYield c d) s (fun _ s' => Accrued c s d s') (fun _ _ => False) := by
  unfold accrueYield newCoin
  simp only [wp.bind_iff]
  refine wp.ite (fun _ => trivial) (fun h0 => ?_)
  simp only [wp.pure_iff]
  refine wp.ite (fun hpos => ?_) (fun hn => ?_)
  swap
  · have : d = 0 := by omega
    subst this
    exact ⟨le_refl _, by simp, by simp, by simp, by simp, rfl⟩
  have hym := hc.yield_ne_module
  unfold wp
  simp only [bind_apply, mintCoins_eq]
  have hen : d ≤ (minted s c.moduleAddr d).balance c.moduleAddr := by
    rw [minted_balance]; have := hg.bal c.moduleAddr; simp; omega
  obtain ⟨s2, h2, hm⟩ := sendCoins_progress (c := c) (b := c.yieldAddr) hen
    (show (minted s c.moduleAddr d).index ≠ 0 from hg.index.ne') (.inr (.inr rfl))
  simp only [h2, incrementTotalYield, modify_apply]
  have hk := hm.skip (.inr rfl)
  refine ⟨by omega, ?_, ?_, ?_, ?_, ?_⟩
  · exact hm.supply
  · show s2.totalYield + d = _; rw [hm.totalYield]; rfl
  · intro x
    show s2.balance x = _
    rw [hm.bal, minted_balance]
    by_cases h1 : x = c.moduleAddr
    · simp [h1, hym.symm]
    · simp [h1]
  · show sumBal s2 = _; rw [hm.sum, minted_sum]
  · show accCore s2 = accCore s
    rw [accCore_of_bank hm.frame hk.1 hk.2.1 hk.2.2]; rfl

theorem Accrued.good {c : Cfg} {s s' : State} {d : Int} (h : Accrued c s d s') (hg : Good c s) :
    Good c s' where
  bal := fun x => by
    rw [h.bal]; have := hg.bal x; have := h.nonneg; split <;> omega
  index := by
    have e : s'.index = s.index := (congrArg State.index h.frame :)
    rw [e]; exact hg.index
  retry := fun p i => by
    have e : s'.retry = s.retry := (congrArg State.retry h.frame :)
    unfold State.retryOf; rw [e]; exact hg.retry p i
  infl := by
    have e : s'.inflight = s.inflight := (congrArg State.inflight h.frame :)
    rw [e]; exact hg.infl
  coll := by
    have e : s'.collector = s.collector := (congrArg State.collector h.frame :)
    rw [e]; exact hg.coll
  collm := by
    have e : s'.collector = s.collector := (congrArg State.collector h.frame :)
    rw [e]; exact hg.collm
  col := by
    have e : s'.collateral = s.collateral := (congrArg State.collateral h.frame :)
    rw [e]; exact hg.col

/-- State after storing a new index. -/
def indexSet (s : State) (i : Int) : State := { s with index := i }

theorem Good.indexSet {c : Cfg} {s : State} (hg : Good c s) {i : Int} (hi : 0 < i) :
    Good c (indexSet s i) :=
  ⟨hg.bal, hi, hg.retry, hg.infl, hg.coll, hg.collm, hg.col⟩

theorem UI.of_accrued {c : Cfg} {s s' : State} {i d : Int} (hc : c.WF) (hg : Good c s)
    (hi : s.index < i) (hd : s.supply + d = present s.totalPrincipal i)
    (h : Accrued c (indexSet s i) d s') : UI c s i s' where
  good := h.good (hg.indexSet (hg.index.trans hi))
  frame := by
    have e : updCore s' = updCore (accCore s') := rfl
    rw [e, h.frame]; rfl
  index := .inr ⟨(congrArg State.index h.frame :), hi⟩
  issued := .inr ⟨(congrArg State.index h.frame :), hi, by
    rw [h.supply]; show s.supply + d = _; exact hd⟩
  ledger := by
    rw [h.sum, h.supply]
    show sumBal s + d - (s.supply + d) = _
    ring
  yield := by
    rw [h.supply, h.totalYield]
    show s.supply + d - s.supply = s.totalYield + d - s.totalYield
    ring
  supply_mono := by
    rw [h.supply]; have := h.nonneg
    show s.supply ≤ s.supply + d; omega
  sumP := by
    have e : s'.principal = s.principal := (congrArg State.principal h.frame :)
    unfold sumPrin; rw [e]
  mono := fun x hx _ => by
    rw [h.bal]; simp only [hx, if_false]
    show s.balance x ≤ s.balance x + 0; omega
  same := fun x hx _ => by
    have e : s'.principal = s.principal := (congrArg State.principal h.frame :)
    refine ⟨?_, by unfold State.principalOf; rw [e]⟩
    rw [h.bal]; simp only [hx, if_false]
    show s.balance x + 0 = s.balance x; omega
  yprin := by
    have e : s'.principal = s.principal := (congrArg State.principal h.frame :)
    unfold State.principalOf; rw [e]
  esc := fun ch => by
    have e1 : s'.vouchers = s.vouchers := (congrArg State.vouchers h.frame :)
    have e2 : s'.retry = s.retry := (congrArg State.retry h.frame :)
    rw [h.bal]; simp only [hc.escrow_ne_yield ch, if_false]
    unfold State.vouchersOf State.retryOf
    rw [e1, e2]
    show _ ≤ s.balance _ + 0 - _ - _; omega
  infl := by
    have e1 : s'.inflight = s.inflight := (congrArg State.inflight h.frame :)
    have e2 : s'.ibcOut = s.ibcOut := (congrArg State.ibcOut h.frame :)
    exact ⟨[], by simp [e1], by simp [e2], by simp⟩
  rewards := .inl (congrArg State.rewards h.frame :)

theorem DistSpec.toUI {c : Cfg} (hc : c.WF) {s s0 : State} {i : Int} {x : M Unit}
    {Q : Unit → State → Prop} (h0 : UI c s0 i s) (h : DistSpec c s x Q) :
    wp x s (fun _ s' => UI c s0 i s' ∧ UR c s s') (fun _ s' => UI c s0 i s') :=
  wp.mono h (fun _ _ h => ⟨h0.trans_UR h.1.1 h.1.2 hc, h.1.2⟩) (fun _ _ h => h0.trans_UR h.1 h.2 hc)

/-- What a successful index update guarantees on top of `UI`. -/
structure Updated (s : State) (i : Int) (s' : State) : Prop where
  greater : s.index < i
  index : s'.index = i
  covered : s.supply ≤ present s.totalPrincipal i
  supply : s'.supply = present s.totalPrincipal i
  events : s'.events = s.events ++
    [.indexUpdated s.index i s.totalPrincipal (present s.totalPrincipal i - s.supply)]

theorem updateIndex_wp {c : Cfg} (hc : c.WF) (env : Env) (i : Int) {s : State} (hg : Good c s) :
    wp (updateIndex c env i) s (fun _ s' => UI c s i s' ∧ Updated s i s')
      (fun _ s' => UI c s i s') := by
  unfold updateIndex
  refine wp.seq (Q := fun a s' => a = s ∧ s' = s) (E := fun _ _ => False) ⟨rfl, rfl⟩ ?_
    (fun _ _ h => h.elim)
  rintro s0 s1 ⟨rfl, rfl⟩
  refine wp.ite (fun _ => UI.refl hg) (fun hlt => ?_)
  have hi : s1.index < i := by omega
  have hgi := hg.indexSet (hg.index.trans hi)
  refine wp.seq (Q := fun _ s' => s' = indexSet s1 i) (E := fun _ _ => False) rfl ?_
    (fun _ _ h => h.elim)
  rintro _ _ rfl
  refine wp.seq (accrueYield_wp hc _ hgi) ?_ (fun _ _ h => h.elim)
  intro _ s2 ha
  have hu2 : UI c s1 i s2 := UI.of_accrued hc hg hi (by ring) ha
  have hg2 := hu2.good
  have hi2 : s2.index = i := (congrArg State.index ha.frame :)
  have hsup2 : s2.supply = present s1.totalPrincipal i := by
    rw [ha.supply]; show s1.supply + _ = _; ring
  have hev2 : s2.events = s1.events := (congrArg State.events ha.frame :)
  -- vaults
  have hv : wp (handleVaults c i) s2
      (fun _ s' => UI c s1 i s' ∧ s'.index = i ∧ s'.supply = s2.supply ∧ s'.events = s2.events)
      (fun _ s' => UI c s1 i s') := by
    unfold handleVaults
    refine wp.seq (Q := fun a s' => a = s2 ∧ s' = s2) (E := fun _ _ => False) ⟨rfl, rfl⟩ ?_
      (fun _ _ h => h.elim)
    rintro s2a s2b ⟨e1, e2⟩
    replace e1 := e1.symm
    replace e2 := e2.symm
    subst e1 e2
    refine wp.ite (fun _ => ?_) (fun hs => ?_)
    · refine (handleSeasonTwo_wp hc hg2).mono ?_ ?_
      · rintro _ s' ⟨h1, h2⟩
        exact ⟨hu2.trans_UR h1 h2 hc, h2.index.trans hi2, h2.supply, h2.events⟩
      · rintro _ s' ⟨h1, h2⟩; exact hu2.trans_UR h1 h2 hc
    · refine (handleSeasonOne_wp hc i hg2).mono ?_ ?_
      · rintro _ s' ⟨m, r, h1, h2, h3, h4, rfl⟩
        have hum := hu2.trans_UR h1 h2 hc
        have hrw : m.rewards = s1.rewards := by
          rw [h2.rewards]
          exact (congrArg State.rewards ha.frame :)
        have htf : m.totalFlexible = s1.totalFlexible := hum.totalFlexible
        have hbf : s2.balance c.flexibleAddr = s1.balance c.flexibleAddr := by
          rw [ha.bal]; simp only [hc.flexible_ne_yield, if_false]
          show s1.balance _ + 0 = _; omega
        refine ⟨?_, h2.index.trans hi2, h2.supply, h2.events⟩
        exact {
          good := ⟨h1.bal, h1.index, h1.retry, h1.infl, h1.coll, h1.collm, h1.col⟩
          frame := by
            rw [← hum.frame]; rfl
          index := hum.index
          issued := hum.issued
          ledger := hum.ledger
          yield := hum.yield
          supply_mono := hum.supply_mono
          sumP := hum.sumP
          mono := hum.mono
          same := hum.same
          yprin := hum.yprin
          esc := hum.esc
          infl := hum.infl
          rewards := .inr ⟨by
              have : s2.seasonOneEnded = s1.seasonOneEnded := hu2.seasonOneEnded
              rw [← this]; simpa using hs, h2.index.trans hi2, hi, r, h3, by rw [hrw, htf], by
              show _ ≤ m.balance c.flexibleAddr
              omega⟩ }
      · rintro _ s' ⟨h1, h2⟩; exact hu2.trans_UR h1 h2 hc
  refine wp.seq hv ?_ (fun _ _ h => h)
  rintro _ s3 ⟨hu3, hi3, hsup3, hev3⟩
  refine wp.seq ((claimExternalIBC_dist hc env hu3.good).toUI hc hu3) ?_ (fun _ _ h => h)
  rintro _ s4 ⟨hu4, hr4⟩
  refine wp.seq ((claimExternalHyperlane_dist hc env hu4.good).toUI hc hu4) ?_ (fun _ _ h => h)
  rintro _ s5 ⟨hu5, hr5⟩
  refine ⟨⟨⟨hu5.good.bal, hu5.good.index, hu5.good.retry, hu5.good.infl, hu5.good.coll,
    hu5.good.collm, hu5.good.col⟩, hu5.frame, hu5.index, hu5.issued, hu5.ledger, hu5.yield, hu5.supply_mono,
    hu5.sumP, hu5.mono, hu5.same, hu5.yprin, hu5.esc, hu5.infl, hu5.rewards⟩, hi, ?_, ?_, ?_, ?_⟩
  · show s5.index = i; rw [hr5.index, hr4.index, hi3]
  · have := ha.nonneg; omega
  · show s5.supply = _; rw [hr5.supply, hr4.supply, hsup3, hsup2]
  · show s5.events ++ _ = _; rw [hr5.events, hr4.events, hev3, hev2]

end Dollar
