import Verif.Lemmas.Vault
import Verif.Spec.Reach

/-
The ledger invariant and what every kind of transaction does to the ledger.
-/
set_option linter.unusedSimpArgs false

namespace Dollar
open MM

/-- The ledger invariant. -/
structure Led (c : Cfg) (s : State) : Prop where
  good : Good c s
  sum : sumBal s = s.supply
  gap : sumPrin s ≤ s.totalPrincipal

/-- `Good` depends on a few fields only. -/
theorem Good.congr {c : Cfg} {s s' : State} (h : Good c s)
    (hb : s'.bal = s.bal := by rfl) (hi : s'.index = s.index := by rfl)
    (hr : s'.retry = s.retry := by rfl) (hf : s'.inflight = s.inflight := by rfl)
    (hc : s'.collector = s.collector := by rfl) (hk : s'.collateral = s.collateral := by rfl) :
    Good c s' where
  bal x := by have := h.bal x; unfold State.balance at *; rw [hb]; exact this
  index := hi ▸ h.index
  retry p i := by have := h.retry p i; unfold State.retryOf at *; rw [hr]; exact this
  infl := hf ▸ h.infl
  coll := hc ▸ h.coll
  collm := hc ▸ h.collm
  col := hk ▸ h.col

theorem Led.congr {c : Cfg} {s s' : State} (h : Led c s)
    (hb : s'.bal = s.bal := by rfl) (hi : s'.index = s.index := by rfl)
    (hr : s'.retry = s.retry := by rfl) (hf : s'.inflight = s.inflight := by rfl)
    (hc : s'.collector = s.collector := by rfl) (hk : s'.collateral = s.collateral := by rfl)
    (hs : s'.supply = s.supply := by rfl) (hp : s'.principal = s.principal := by rfl)
    (ht : s'.totalPrincipal = s.totalPrincipal := by rfl) : Led c s' where
  good := h.good.congr hb hi hr hf hc hk
  sum := by unfold sumBal; rw [hb, hs]; exact h.sum
  gap := by unfold sumPrin; rw [hp, ht]; exact h.gap

theorem Led.of_moved {c : Cfg} {s s' : State} {a b : Addr} {amt : Int} (hl : Led c s)
    (h : Moved c s a b amt s') (ha : 0 ≤ amt) : Led c s' where
  good := hl.good.of_moved h ha
  sum := by rw [h.sum, h.supply]; exact hl.sum
  gap := by have := h.gap ha hl.good.index; have := hl.gap; omega

/-! ### Transactions that leave supply, index and principal totals alone -/

/-- What every transaction except a portal delivery or transfer leaves unchanged. -/
structure Quiet (c : Cfg) (s s' : State) : Prop where
  supply : s'.supply = s.supply
  index : s'.index = s.index
  totalYield : s'.totalYield = s.totalYield
  totalPrincipal : s'.totalPrincipal = s.totalPrincipal
  sumP : sumPrin s' = sumPrin s
  sum : sumBal s' = sumBal s
  archive : s'.archive = s.archive
  posted : s'.posted = s.posted
  nonce : s'.nonce = s.nonce
  season : s'.seasonOneEnded = s.seasonOneEnded
  collector : s'.collector = s.collector
  yprin : s'.principalOf c.yieldAddr = s.principalOf c.yieldAddr
  module : s'.balance c.moduleAddr = s.balance c.moduleAddr
  /-- the yield account is never credited by such a transaction -/
  yield : s'.balance c.yieldAddr ≤ s.balance c.yieldAddr

namespace Quiet
variable {c : Cfg} {s s' s'' : State}

theorem refl (c : Cfg) (s : State) : Quiet c s s :=
  ⟨rfl, rfl, rfl, rfl, rfl, rfl, rfl, rfl, rfl, rfl, rfl, rfl, rfl, le_refl _⟩

theorem trans (h : Quiet c s s') (h' : Quiet c s' s'') : Quiet c s s'' :=
  ⟨h'.supply.trans h.supply, h'.index.trans h.index, h'.totalYield.trans h.totalYield,
   h'.totalPrincipal.trans h.totalPrincipal, h'.sumP.trans h.sumP, h'.sum.trans h.sum,
   h'.archive.trans h.archive, h'.posted.trans h.posted, h'.nonce.trans h.nonce,
   h'.season.trans h.season, h'.collector.trans h.collector, h'.yprin.trans h.yprin,
   h'.module.trans h.module, h'.yield.trans h.yield⟩

theorem of_eq (hb : s'.bal = s.bal := by rfl) (hp : s'.principal = s.principal := by rfl)
    (h1 : s'.supply = s.supply := by rfl) (h2 : s'.index = s.index := by rfl)
    (h3 : s'.totalYield = s.totalYield := by rfl)
    (h4 : s'.totalPrincipal = s.totalPrincipal := by rfl)
    (h5 : s'.archive = s.archive := by rfl) (h6 : s'.posted = s.posted := by rfl)
    (h7 : s'.nonce = s.nonce := by rfl) (h8 : s'.seasonOneEnded = s.seasonOneEnded := by rfl)
    (h9 : s'.collector = s.collector := by rfl) :
    Quiet c s s' :=
  ⟨h1, h2, h3, h4, by unfold sumPrin; rw [hp], by unfold sumBal; rw [hb], h5, h6, h7, h8, h9,
    by unfold State.principalOf; rw [hp], by unfold State.balance; rw [hb],
    by unfold State.balance; rw [hb]⟩

theorem of_moved {a b : Addr} {amt : Int} (h : Moved c s a b amt s') (h0 : 0 ≤ amt)
    (ha : a ≠ c.moduleAddr) (hb : b ≠ c.moduleAddr) : Quiet c s s' where
  supply := h.supply
  index := h.index
  totalYield := h.totalYield
  totalPrincipal := h.total_of_ne_module ha hb
  sumP := h.sumP_of_ne_module ha hb
  sum := h.sum
  archive := h.archive
  posted := h.posted
  nonce := h.nonce
  season := h.seasonOneEnded
  collector := h.collector
  yprin := h.yield_prin
  module := h.same (Ne.symm ha) (Ne.symm hb)
  yield := by
    by_cases hz : amt = 0
    · rw [h.zero hz]
    rw [h.bal]
    by_cases hby : b = c.yieldAddr
    · rcases h.not_yield hz hby with hh | hh
      · subst hh; subst hby; simp
      · exact absurd hh ha
    · rw [if_neg (Ne.symm hby)]
      split <;> omega

end Quiet

/-- Positions returned for a user and vault carry that user and vault. -/
theorem positionsOf_mem {s : State} {a : Addr} {v : Int} {p : PosEntry} (h : p ∈ positionsOf s a v) :
    p.address = a ∧ p.vault = v := by
  unfold positionsOf at h
  obtain ⟨e, _, he⟩ := List.mem_filterMap.1 h
  split at he
  · next hc => cases he; exact hc
  · cases he

/-- Ledger effect of removing from one position. -/
theorem OneOk.ledger {c : Cfg} (hc : c.WF) {signer : String} {a : Addr} {v : Int} {p : PosEntry}
    {amt : Int} {s s' : State} (hd : c.decode signer = some a) (hu : c.IsUser a)
    (hp : p.address = a) (hl : Led c s) (h : OneOk c signer a v p amt s s') :
    Led c s' ∧ Quiet c s s' := by
  cases h with
  | staked m hv ha hm e =>
    rw [posAddr_eq hc hd] at hm
    subst e
    exact ⟨(hl.of_moved hm ha).congr, (Quiet.of_moved hm ha (acctOf_ne_module hc _ _ _) hu.ne_module).trans
      Quiet.of_eq⟩
  | flexible s1 m3 m4 owed y hv hr hy h3 hn h4 e =>
    rw [posAddr_eq hc hd] at h3 h4 hy
    subst e
    have hl0 : Led c { s with totalFlexible := s.totalFlexible - roundedDown amt p.index } := hl.congr
    have q0 : Quiet c s { s with totalFlexible := s.totalFlexible - roundedDown amt p.index } :=
      Quiet.of_eq
    obtain ⟨hl1, q1⟩ : Led c s1 ∧ Quiet c s s1 := by
      rcases hr.run with ⟨_, _, rfl⟩ | ⟨_, _, _, m, hm, rfl⟩
      · exact ⟨hl0, q0⟩
      · have hl' : Led c { { s with totalFlexible := s.totalFlexible - roundedDown amt p.index } with
            rewards := rewardsAfter s.rewards p.index s.index (roundedDown amt p.index) } := hl.congr
        exact ⟨(hl'.of_moved hm hr.nonneg).congr,
          Quiet.trans (s' := { { s with totalFlexible := s.totalFlexible - roundedDown amt p.index } with
            rewards := rewardsAfter s.rewards p.index s.index (roundedDown amt p.index) })
            Quiet.of_eq ((Quiet.of_moved hm hr.nonneg hc.flexible_ne_module (hp ▸ hu.ne_module)).trans
              Quiet.of_eq)⟩
    have hl2 : Led c { s1 with vstats := { s1.vstats with flexDistributed := s1.vstats.flexDistributed + owed } } :=
      hl1.congr
    have q2 : Quiet c s1 { s1 with vstats := { s1.vstats with flexDistributed := s1.vstats.flexDistributed + owed } } :=
      Quiet.of_eq
    have hy0 : 0 ≤ y := by rw [hy]; exact claimable_nonneg _ _
    have hl3 := hl2.of_moved h3 hy0
    have q3 := Quiet.of_moved h3 hy0 hc.yield_ne_module (acctOf_ne_module hc _ _ _)
    have hl4 := hl3.of_moved h4 hn
    have q4 := Quiet.of_moved h4 hn (acctOf_ne_module hc _ _ _) hu.ne_module
    exact ⟨hl4.congr, ((q1.trans q2).trans (q3.trans q4)).trans Quiet.of_eq⟩

theorem LoopOk.ledger {c : Cfg} (hc : c.WF) {signer : String} {a : Addr} {v : Int} {l : List PosEntry}
    {rem removed rem' removed' : Int} {s s' : State} (hd : c.decode signer = some a)
    (hu : c.IsUser a) (hp : ∀ p ∈ l, p.address = a) (hl : Led c s)
    (h : LoopOk c signer a v l rem removed s rem' removed' s') : Led c s' ∧ Quiet c s s' := by
  induction h with
  | nil => exact ⟨hl, Quiet.refl _ _⟩
  | stop => exact ⟨hl, Quiet.refl _ _⟩
  | step p t rem removed s m rem' removed' s' h0 hi h1 _ ih =>
    obtain ⟨hl1, q1⟩ := h1.ledger hc hd hu (hp p List.mem_cons_self) hl
    obtain ⟨hl2, q2⟩ := ih (fun p hm => hp p (List.mem_cons_of_mem _ hm)) hl1
    exact ⟨hl2, q1.trans q2⟩

/-- Messages that go through the portal. -/
def Msg.isPortal : Msg → Bool
  | .deliver _ => true
  | .transfer .. => true
  | _ => false

theorem ownPacket_iff {c : Cfg} (hc : c.WF) (p : IbcOut) :
    ownPacket c p = true ↔ p.sender = c.escrowAddr p.channel := by
  unfold ownPacket
  rw [decide_eq_true_eq]
  exact ⟨fun h => hc.encode_inj _ _ h, fun h => by rw [h]; rfl⟩

/-- Ledger effect of every message that does not go through the portal. -/
theorem exec_quiet {c : Cfg} (hc : c.WF) {env : Env} {m : Msg} {s s' : State} (hl : Led c s)
    (hm : m.SignedByUser c) (hq : m.isPortal = false) (h : exec c env m s = .ok () s') :
    Led c s' ∧ Quiet c s s' := by
  cases m with
  | claimYield signer =>
    obtain ⟨_, a, m, hd, hb, hmv, rfl⟩ := claimYield_ok h
    have h0 := claimable_nonneg s a
    exact ⟨(hl.of_moved hmv h0).congr,
      (Quiet.of_moved hmv h0 hc.yield_ne_module (hm a hd).ne_module).trans Quiet.of_eq⟩
  | setPaused signer p =>
    obtain ⟨_, rfl⟩ := setPaused_ok h
    exact ⟨hl.congr, Quiet.of_eq⟩
  | setYieldRecipient signer p i r =>
    obtain ⟨_, _, rfl⟩ := setYieldRecipient_ok h
    exact ⟨hl.congr, Quiet.of_eq⟩
  | deliver v => cases hq
  | transfer => cases hq
  | portalSetPaused signer p =>
    obtain ⟨_, _, rfl⟩ := portalSetPaused_ok h
    exact ⟨hl.congr, Quiet.of_eq⟩
  | setPeer signer ch t mg =>
    obtain ⟨_, _, _, _, _, _, _, _, rfl⟩ := setPeer_ok h
    exact ⟨hl.congr, Quiet.of_eq⟩
  | setBridgingPath signer ch t b =>
    obtain ⟨_, _, _, _, _, rfl⟩ := setBridgingPath_ok h
    exact ⟨hl.congr, Quiet.of_eq⟩
  | transferOwnership signer o =>
    obtain ⟨_, _, _, _, rfl⟩ := transferOwnership_ok h
    exact ⟨hl.congr, Quiet.of_eq⟩
  | lock signer v amt? =>
    obtain ⟨amt, a, _, hk⟩ := lock_ok h
    obtain ⟨m, hmv, rfl⟩ := hk.run
    rw [posAddr_eq hc hk.dec] at hmv
    exact ⟨(hl.of_moved hmv hk.nonneg).congr,
      (Quiet.of_moved hmv hk.nonneg (hm a hk.dec).ne_module (acctOf_ne_module hc _ _ _)).trans Quiet.of_eq⟩
  | unlock signer v amt? =>
    obtain ⟨_, _, amt, a, _, hk⟩ := unlock_ok h
    obtain ⟨m, removed, hlp, rfl⟩ := hk.run
    obtain ⟨h1, h2⟩ := hlp.ledger hc hk.dec (hm a hk.dec) (fun p hp => (positionsOf_mem hp).1) hl
    exact ⟨h1.congr, h2.trans Quiet.of_eq⟩
  | vaultsSetPaused signer p =>
    obtain ⟨_, _, _, rfl⟩ := vaultsSetPaused_ok h
    exact ⟨hl.congr, Quiet.of_eq⟩
  | bankSend a b amt =>
    obtain ⟨h0, hb, hmv⟩ := bankSend_ok h
    have hbm : b ≠ c.moduleAddr := by rintro rfl; rw [hc.module_blocked] at hb; cases hb
    exact ⟨hl.of_moved hmv h0.le, Quiet.of_moved hmv h0.le (Cfg.IsUser.ne_module hm) hbm⟩
  | keeperSend a b amt =>
    obtain ⟨h0, hmv⟩ := keeperSend_ok h
    exact ⟨hl.of_moved hmv h0, Quiet.of_moved hmv h0 (Cfg.IsUser.ne_module hm.1) hm.2⟩
  | bankMultiSend a outs =>
    have hu : c.IsUser a := hm
    have hmm := bankMultiSend_ok hc hu.ne_yield hu.ne_module hl.good.index.ne' h
    have hbm : ∀ o ∈ outs, o.1 ≠ c.moduleAddr := by
      intro o ho e
      have := hmm.allowed o ho
      rw [e, hc.module_blocked] at this; cases this
    have f {α : Type} (g : State → α) (hg : ∀ x, g (bankCore x) = g x) : g s' = g s := by
      rw [← hg s', hmm.frame, hg]
    refine ⟨⟨⟨fun x => ?_, ?_, fun p i => ?_, ?_, ?_, ?_, ?_⟩, ?_, ?_⟩, ⟨?_, ?_, ?_, hmm.total, hmm.sumP, hmm.sum, ?_, ?_, ?_, ?_, ?_, ?_, ?_, ?_⟩⟩
    · rw [hmm.bal]
      have h1 := outTo_nonneg hmm.pos x
      have h2 := hl.good.bal x
      have := hmm.enough
      split
      · next e => subst e; omega
      · omega
    · rw [f State.index (fun _ => rfl)]; exact hl.good.index
    · have := f (fun s => State.retryOf s p i) (fun _ => rfl)
      rw [this]; exact hl.good.retry p i
    · rw [f State.inflight (fun _ => rfl)]; exact hl.good.infl
    · rw [f State.collector (fun _ => rfl)]; exact hl.good.coll
    · rw [f State.collector (fun _ => rfl)]; exact hl.good.collm
    · rw [f State.collateral (fun _ => rfl)]; exact hl.good.col
    · rw [hmm.sum, f State.supply (fun _ => rfl)]; exact hl.sum
    · rw [hmm.sumP, hmm.total]; exact hl.gap
    · exact f State.supply (fun _ => rfl)
    · exact f State.index (fun _ => rfl)
    · exact f State.totalYield (fun _ => rfl)
    · exact f State.archive (fun _ => rfl)
    · exact f State.posted (fun _ => rfl)
    · exact f State.nonce (fun _ => rfl)
    · exact f State.seasonOneEnded (fun _ => rfl)
    · exact f State.collector (fun _ => rfl)
    · exact hmm.prin _ hu.ne_yield.symm hmm.noYield
    · rw [hmm.bal, outTo_eq_zero hbm, if_neg hu.ne_module.symm]; ring
    · rw [hmm.bal, outTo_eq_zero hmm.noYield, if_neg hu.ne_yield.symm]; omega
  | ibcTransfer a ch r amt =>
    obtain ⟨h0, _, m, hmv, rfl⟩ := userIbcTransfer_ok h
    have hu : c.IsUser a := hm
    have hl1 := hl.of_moved hmv h0.le
    exact ⟨⟨hl1.good.booked _ h0 (.inl hu), hl1.sum, hl1.gap⟩,
      (Quiet.of_moved hmv h0.le hu.ne_module (hc.escrow_ne_module _)).trans Quiet.of_eq⟩
  | ibcReceive ch r amt =>
    obtain ⟨h0, _, hb, m, hmv, rfl⟩ := ibcReceive_ok h
    have hbm : r ≠ c.moduleAddr := by rintro rfl; rw [hc.module_blocked] at hb; cases hb
    exact ⟨(hl.of_moved hmv h0.le).congr,
      (Quiet.of_moved hmv h0.le (hc.escrow_ne_module _) hbm).trans Quiet.of_eq⟩
  | ibcTimeout p => exact packetFailed_quiet hc hl p true h
  | ibcAckError p => exact packetFailed_quiet hc hl p false h
  | ibcAckSuccess p =>
    obtain ⟨_, rfl⟩ := packetAcked_ok h
    refine ⟨⟨⟨hl.good.bal, hl.good.index, hl.good.retry, fun q hq => hl.good.infl q (List.mem_of_mem_erase hq),
      hl.good.coll, hl.good.collm, hl.good.col⟩, hl.sum, hl.gap⟩, Quiet.of_eq⟩
  | warpCreate t =>
    have h : warpCreate t s = .ok () s' := h
    unfold warpCreate at h
    have h := modify_ok.1 h
    subst h
    split
    · exact ⟨hl, Quiet.refl _ _⟩
    · exact ⟨⟨hl.good.set_collateral t 0 (le_refl _), hl.sum, hl.gap⟩, Quiet.of_eq⟩
  | warpTransfer a t d r amt =>
    obtain ⟨h0, col, m, hcol, hmv, rfl⟩ := warpSend_ok h
    have hu : c.IsUser a := hm
    have hl1 := hl.of_moved hmv h0.le
    have hcol0 : 0 ≤ col := hl.good.col _ (KV.mem_of_get? hcol)
    exact ⟨⟨(hl1.good.set_collateral t (col + amt) (by omega)).set_warpOut _, hl1.sum, hl1.gap⟩,
      (Quiet.of_moved hmv h0.le hu.ne_module hc.warp_ne_module).trans Quiet.of_eq⟩
  | warpReceive t a amt =>
    obtain ⟨h0, hb, col, hcol, hle, hmv⟩ := warpReceive_ok h
    have hbm : a ≠ c.moduleAddr := by rintro rfl; rw [hc.module_blocked] at hb; cases hb
    have hl0 : Led c { s with collateral := s.collateral.set t (col - amt) } :=
      ⟨hl.good.set_collateral t (col - amt) (by omega), hl.sum, hl.gap⟩
    exact ⟨hl0.of_moved hmv h0.le,
      Quiet.trans (s' := { s with collateral := s.collateral.set t (col - amt) }) Quiet.of_eq
        (Quiet.of_moved hmv h0.le hc.warp_ne_module hbm)⟩
where
  packetFailed_quiet {c : Cfg} (hc : c.WF) {s s' : State} (hl : Led c s) (p : IbcOut) (b : Bool)
      (h : packetFailed c p b s = .ok () s') : Led c s' ∧ Quiet c s s' := by
    obtain ⟨hin, _, m, hmv, rfl⟩ := packetFailed_ok h
    obtain ⟨h0, hs⟩ := hl.good.infl p hin
    have hsm : p.sender ≠ c.moduleAddr := by
      rcases hs with hs | hs
      · exact hs.ne_module
      · rw [hs]; exact hc.escrow_ne_module _
    have hl0 : Led c (if ownPacket c p then retryAdded s IBC p.channel p.amount else s) := by
      split
      · exact ⟨hl.good.retryAdded _ _ h0.le, hl.sum, hl.gap⟩
      · exact hl
    have q0 : Quiet c s (if ownPacket c p then retryAdded s IBC p.channel p.amount else s) := by
      split
      · exact Quiet.of_eq
      · exact Quiet.refl _ _
    have hl1 := hl0.of_moved hmv h0.le
    refine ⟨⟨⟨hl1.good.bal, hl1.good.index, hl1.good.retry,
      fun q hq => hl1.good.infl q (List.mem_of_mem_erase hq), hl1.good.coll, hl1.good.collm, hl1.good.col⟩,
      hl1.sum, hl1.gap⟩, (q0.trans (Quiet.of_moved hmv h0.le (hc.escrow_ne_module _) hsm)).trans Quiet.of_eq⟩

/-! ### Portal messages -/

theorem Led.of_UI {c : Cfg} {s s' : State} {i : Int} (hl : Led c s) (h : UI c s i s') : Led c s' where
  good := h.good
  sum := by have := h.ledger; have := hl.sum; omega
  gap := by rw [h.sumP, h.totalPrincipal]; exact hl.gap

theorem Good.minted {c : Cfg} {s : State} (hg : Good c s) (a : Addr) {d : Int} (hd : 0 ≤ d) :
    Good c (minted s a d) where
  bal x := by
    rw [minted_balance]
    have := hg.bal x
    split <;> omega
  index := hg.index
  retry := hg.retry
  infl := hg.infl
  coll := hg.coll
  collm := hg.collm
  col := hg.col

theorem Led.minted {c : Cfg} {s : State} (hl : Led c s) (a : Addr) {d : Int} (hd : 0 ≤ d) :
    Led c (minted s a d) where
  good := hl.good.minted a hd
  sum := by
    rw [minted_sum, hl.sum]; rfl
  gap := hl.gap

theorem Led.of_mint {c : Cfg} {s s' : State} {rcp : Addr} {amt : Int} (hl : Led c s)
    (h : MintOk c s rcp amt s') : Led c s' :=
  (hl.minted c.moduleAddr h.nonneg).of_moved h.moved h.nonneg

theorem Led.of_burn {c : Cfg} {s s' : State} {a : Addr} {amt : Int} (hl : Led c s)
    (h : BurnOk c s a amt s') : Led c s' := by
  obtain ⟨m, hm, he, rfl⟩ := h.mid
  have h1 := hl.of_moved hm h.nonneg
  refine ⟨⟨fun x => ?_, h1.good.index, h1.good.retry, h1.good.infl, h1.good.coll, h1.good.collm,
    h1.good.col⟩, ?_, h1.gap⟩
  · show 0 ≤ (debit m c.moduleAddr amt).balance x
    rw [balance_debit]
    have := h1.good.bal x
    split
    · next e => subst e; omega
    · omega
  · show sumBal (debit m c.moduleAddr amt) = m.supply - amt
    rw [sumBal_debit, h1.sum]

/-- What a successful delivery did, by kind of payload. -/
inductive DeliverKind (c : Cfg) (env : Env) (v : VAA) (payload : Sl) (s m : State) : Prop
  | ignored : payloadType payload = .ok .unknown → m = s → DeliverKind c env v payload s m
  | token (p : TokenPayload) (s1 m1 : State) : payloadType payload = .ok .token →
      decodeToken payload = .ok p → c.chain = p.chain → c.rawToken = p.token →
      ignore (updateIndex c env p.index) s = .ok () s1 → UI c s p.index s1 →
      MintOk c s1 p.recipient p.amount m1 → m = { m1 with events := m.events } →
      DeliverKind c env v payload s m
  | index (i : Int) : payloadType payload = .ok .index → decodeIndex payload = .ok (i, c.chain) →
      updateIndex c env i s = .ok () m → UI c s i m → Updated s i m → DeliverKind c env v payload s m

/-- What a successful delivery did. -/
structure DeliverEff (c : Cfg) (env : Env) (bz : Bytes) (s s' : State) : Prop where
  led : Led c s'
  notPaused : s.portalPaused = false
  run : ∃ v peer t mm m, env.verify bz = some v ∧ v.digest ∉ s.archive ∧
    s.peers.get? v.emitterChain = some peer ∧ peer.transceiver = v.emitterAddress ∧
    parseTransceiver v.payload = .ok t ∧ peer.manager = t.sourceManager.bytes ∧
    c.paddedManager = t.recipientManager.bytes ∧ parseManager t.managerPayload = .ok mm ∧
    DeliverKind c env v mm.payload { s with archive := s.archive ++ [v.digest] } m ∧
    s' = { m with events := m.events ++ [.delivered bz] }

theorem deliver_eff {c : Cfg} (hc : c.WF) {env : Env} {bz : Bytes} {s s' : State} {u : Unit}
    (hl : Led c s) (h : deliver c env bz s = .ok u s') : DeliverEff c env bz s s' := by
  obtain ⟨hp, v, peer, t, mm, m, h1, h2, h3, h4, h5, h6, h7, h8, h9, rfl⟩ := (deliver_ok h).run
  have hl0 : Led c { s with archive := s.archive ++ [v.digest] } := hl.congr
  cases h9 with
  | ignored ht e =>
    subst e
    exact ⟨hl0.congr, hp, v, peer, t, mm, _, h1, h2, h3, h4, h5, h6, h7, h8, .ignored ht rfl, rfl⟩
  | token p m1 ht hd hch htk hm e =>
    obtain ⟨s1, g1, g2, g3⟩ := mint_ok hc hl0.good hm
    subst e
    exact ⟨((hl0.of_UI g2).of_mint g3).congr, hp, v, peer, t, mm, _, h1, h2, h3, h4, h5, h6, h7, h8,
      .token p s1 m1 ht hd hch htk g1 g2 g3 rfl, rfl⟩
  | index i ht hd hm =>
    obtain ⟨g1, g2⟩ := (updateIndex_wp hc env i hl0.good).of_ok hm
    exact ⟨(hl0.of_UI g1).congr, hp, v, peer, t, mm, _, h1, h2, h3, h4, h5, h6, h7, h8,
      .index i ht hd hm g1 g2, rfl⟩

theorem TransferOk.led {c : Cfg} {env : Env} {signer : String} {amt : Int} {chain : Nat}
    {token recipient : Bytes} {s s' : State} (hl : Led c s)
    (h : TransferOk c env signer amt chain token recipient s s') : Led c s' := by
  obtain ⟨peer, sender, m, _, _, _, _, hb, e⟩ := h.run
  have hl0 : Led c { s with nonce := (s.nonce + 1) % 2 ^ 32 } := hl.congr
  rw [e]
  exact (hl0.of_burn hb).congr

/-- The ledger invariant is kept by every transaction. -/
theorem Led.exec {c : Cfg} (hc : c.WF) {env : Env} {m : Msg} {s s' : State} (hl : Led c s)
    (hm : m.SignedByUser c) (h : exec c env m s = .ok () s') : Led c s' := by
  cases hq : m.isPortal with
  | false => exact (exec_quiet hc hl hm hq h).1
  | true =>
    cases m with
    | deliver v => exact (deliver_eff hc hl h).led
    | transfer signer a ch tk r =>
      obtain ⟨amt, _, hk⟩ := transfer_ok h
      exact hk.led hl
    | _ => cases hq

theorem runTx_cases (x : M Unit) (s : State) : runTx x s = s ∨ ∃ s', x s = .ok () s' ∧ runTx x s = s' := by
  unfold runTx
  cases x s with
  | ok u s' => exact .inr ⟨s', rfl, rfl⟩
  | err e s' => exact .inl rfl
  | panic => exact .inl rfl

/-- A step is a successful transaction or nothing. -/
theorem step_cases (c : Cfg) (env : Env) (m : Msg) (s : State) :
    step c env m s = s ∨ exec c env m s = .ok () (step c env m s) := by
  rcases runTx_cases (Dollar.exec c env m) s with h | ⟨s', h1, h2⟩
  · exact .inl h
  · right; rw [h1]; congr 1; exact h2.symm

theorem Led.step {c : Cfg} (hc : c.WF) {env : Env} {m : Msg} {s : State} (hl : Led c s)
    (hm : m.SignedByUser c) : Led c (step c env m s) := by
  rcases step_cases c env m s with h | h
  · rw [h]; exact hl
  · exact hl.exec hc hm h

theorem Led.initial {c : Cfg} {s : State} (h : Initial c s) : Led c s where
  good :=
    { bal := fun x => by unfold State.balance; rw [h.bal]; exact le_refl _
      index := h.index
      retry := fun p i => by unfold State.retryOf; rw [h.retry]; exact le_refl _
      infl := by rw [h.inflight]; intro p hp; cases hp
      coll := h.collector_yield
      collm := h.collector_module
      col := by rw [h.collateral]; intro p hp; cases hp }
  sum := by unfold sumBal; rw [h.bal, h.supply]; rfl
  gap := by unfold sumPrin; rw [h.principal, h.totalPrincipal]; exact le_refl _

/-- Every reachable state satisfies the ledger invariant. -/
theorem Led.upgrade {c : Cfg} {s s' : State} (h : Led c s) (hu : Upgrade c s s') : Led c s' := by
  obtain ⟨⟨_, _, _, _, _, _, _, _, _, rfl⟩, _, _, _, h4, h5⟩ := hu
  exact ⟨⟨h.good.bal, h.good.index, h.good.retry, h.good.infl, h4, h5, h.good.col⟩, h.sum, h.gap⟩

theorem Reachable.led {c : Cfg} (hc : c.WF) {s : State} (h : Reachable c s) : Led c s :=
  Reachable.induct (fun _ h => Led.initial h) (fun _ _ _ hl hm => hl.step hc hm)
    (fun _ _ hl hu => hl.upgrade hu) h

end Dollar
