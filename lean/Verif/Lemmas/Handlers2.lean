import Verif.Lemmas.Handlers
import Verif.Model.System
import Verif.Lemmas.GoInt
import Std.Data.String.ToInt

/-
Effects of the remaining successful message handlers.
-/
set_option linter.unusedSimpArgs false

namespace Dollar
open MM

/-! ### Settings -/

theorem setPaused_ok {c : Cfg} {signer : String} {b : Bool} {s s' : State} {u : Unit}
    (h : setPaused c signer b s = .ok u s') : signer = c.authority ∧
      s' = { s with paused := b, events := s.events ++ [.pausedSet b] } := by
  unfold setPaused at h
  rw [ite_ok] at h
  rcases h with ⟨_, h⟩ | ⟨h0, h⟩
  · cases h
  simp only [bind_ok, modify_ok] at h
  obtain ⟨_, _, rfl, h⟩ := h
  exact ⟨by simpa using h0, emit_ok h⟩

theorem vaultsSetPaused_ok {c : Cfg} {signer : String} {b : Int} {s s' : State} {u : Unit}
    (h : vaultsSetPaused c signer b s = .ok u s') : signer = c.authority ∧ 0 ≤ b ∧ b ≤ 3 ∧
      s' = { s with vPaused := b, events := s.events ++ [.vaultsPausedSet b] } := by
  unfold vaultsSetPaused at h
  rw [ite_ok] at h
  rcases h with ⟨_, h⟩ | ⟨h0, h⟩
  · cases h
  rw [ite_ok] at h
  rcases h with ⟨_, h⟩ | ⟨h1, h⟩
  · cases h
  simp only [bind_ok, modify_ok] at h
  obtain ⟨_, _, rfl, h⟩ := h
  exact ⟨by simpa using h0, by omega, by omega, emit_ok h⟩

/-- The conditions under which a route may get a recipient. -/
def RouteOk (c : Cfg) (env : Env) (s : State) (provider : Int) (id : String) : Prop :=
  (provider = IBC → env.channelExists id = true) ∧
  (provider = HYPERLANE → ∃ raw d, c.hexAddr id = some raw ∧
    s.collateral.has (c.internalId raw) = true ∧ env.routers (c.internalId raw) = [d])

theorem checkRoute_ok {c : Cfg} {env : Env} {p : Int} {id : String} {s s' : State} {u : Unit}
    (h : checkRoute c env p id s = .ok u s') : s' = s ∧ RouteOk c env s p id := by
  unfold checkRoute at h
  rw [ite_ok] at h
  rcases h with ⟨hp, h⟩ | ⟨hp, h⟩
  · rw [ite_ok] at h
    rcases h with ⟨hx, h⟩ | ⟨_, h⟩
    · exact ⟨(pure_ok.1 h).2.symm, fun _ => hx, fun hh => by rw [hp] at hh; cases hh⟩
    · cases h
  rw [ite_ok] at h
  rcases h with ⟨hy, h⟩ | ⟨hy, h⟩
  · cases hx : c.hexAddr id with
    | none => simp only [hx] at h; cases h
    | some raw =>
      simp only [hx] at h
      simp only [bind_ok, get_ok] at h
      obtain ⟨_, _, ⟨rfl, rfl⟩, h⟩ := h
      rw [ite_ok] at h
      rcases h with ⟨hc, h⟩ | ⟨_, h⟩
      · simp only [bind_ok, pure_ok] at h
        obtain ⟨d, s1, h, _, rfl⟩ := h
        unfold hypRouter at h
        rcases hr : env.routers (c.internalId raw) with _ | ⟨d', _ | ⟨d2, l⟩⟩
        · rw [hr] at h; cases h
        · rw [hr] at h
          obtain ⟨rfl, rfl⟩ := pure_ok.1 h
          exact ⟨rfl, fun hh => absurd hh hp, fun _ => ⟨raw, _, hx, hc, hr⟩⟩
        · rw [hr] at h; cases h
      · cases h
  · exact ⟨(pure_ok.1 h).2.symm, fun hh => absurd hh hp, fun hh => absurd hh hy⟩

theorem setYieldRecipient_ok {c : Cfg} {env : Env} {signer : String} {p : Int} {id r : String}
    {s s' : State} {u : Unit} (h : setYieldRecipient c env signer p id r s = .ok u s') :
    signer = c.authority ∧ RouteOk c env s p id ∧
      s' = { s with recipients := s.recipients.set (p, id) r,
                    events := s.events ++ [.yieldRecipientSet p id r] } := by
  unfold setYieldRecipient at h
  rw [ite_ok] at h
  rcases h with ⟨_, h⟩ | ⟨h0, h⟩
  · cases h
  simp only [bind_ok, modify_ok] at h
  obtain ⟨_, _, h1, _, _, rfl, h⟩ := h
  obtain ⟨rfl, hr⟩ := checkRoute_ok h1
  exact ⟨by simpa using h0, hr, emit_ok h⟩

theorem ensureOwner_ok {signer : String} {s s' : State} {u : Unit}
    (h : ensureOwner signer s = .ok u s') : s' = s ∧ s.owner ≠ "" ∧ signer = s.owner := by
  unfold ensureOwner at h
  simp only [bind_ok, get_ok] at h
  obtain ⟨_, _, ⟨rfl, rfl⟩, h⟩ := h
  rw [ite_ok] at h
  rcases h with ⟨_, h⟩ | ⟨h0, h⟩
  · cases h
  rw [ite_ok] at h
  rcases h with ⟨_, h⟩ | ⟨h1, h⟩
  · cases h
  exact ⟨(pure_ok.1 h).2.symm, h0, by simpa using h1⟩

theorem portalSetPaused_ok {signer : String} {b : Bool} {s s' : State} {u : Unit}
    (h : portalSetPaused signer b s = .ok u s') : s.owner ≠ "" ∧ signer = s.owner ∧
      s' = { s with portalPaused := b, events := s.events ++ [.portalPausedSet b] } := by
  unfold portalSetPaused at h
  simp only [bind_ok, modify_ok] at h
  obtain ⟨_, _, h0, _, _, rfl, h⟩ := h
  obtain ⟨rfl, h0, h1⟩ := ensureOwner_ok h0
  exact ⟨h0, h1, emit_ok h⟩

theorem setPeer_ok {c : Cfg} {signer : String} {chain : Nat} {t m : Bytes} {s s' : State} {u : Unit}
    (h : setPeer c signer chain t m s = .ok u s') : s.owner ≠ "" ∧ signer = s.owner ∧
      chain ≠ 0 ∧ chain ≠ c.chain ∧ t.length = 32 ∧ t ≠ zero32 ∧ m.length = 32 ∧ m ≠ zero32 ∧
      s' = { s with peers := s.peers.set chain ⟨t, m⟩,
                    events := s.events ++ [.peerUpdated chain (s.peers.get? chain) ⟨t, m⟩] } := by
  unfold setPeer at h
  simp only [bind_ok, get_ok] at h
  obtain ⟨_, _, h0, _, _, ⟨rfl, rfl⟩, h⟩ := h
  obtain ⟨rfl, h0, h1⟩ := ensureOwner_ok h0
  iterate 6
    rw [ite_ok] at h
    rcases h with ⟨_, h⟩ | ⟨_, h⟩
    · cases h
  simp only [bind_ok, modify_ok] at h
  obtain ⟨_, _, rfl, h⟩ := h
  have h := emit_ok h
  exact ⟨h0, h1, by assumption, by assumption, by simp_all, by simp_all, by simp_all, by assumption, h⟩

theorem setBridgingPath_ok {c : Cfg} {signer : String} {chain : Nat} {t : Bytes} {b : Bool}
    {s s' : State} {u : Unit}
    (h : setBridgingPath c signer chain t b s = .ok u s') : s.owner ≠ "" ∧ signer = s.owner ∧
      chain ≠ c.chain ∧ t.length = 32 ∧ t ≠ zero32 ∧
      s' = { s with paths := s.paths.set (chain, t) b,
                    events := s.events ++ [.bridgingPathSet chain t b] } := by
  unfold setBridgingPath at h
  simp only [bind_ok] at h
  obtain ⟨_, _, h0, h⟩ := h
  obtain ⟨rfl, h0, h1⟩ := ensureOwner_ok h0
  iterate 3
    rw [ite_ok] at h
    rcases h with ⟨_, h⟩ | ⟨_, h⟩
    · cases h
  simp only [bind_ok, modify_ok] at h
  obtain ⟨_, _, rfl, h⟩ := h
  have h := emit_ok h
  exact ⟨h0, h1, by assumption, by simp_all, by assumption, h⟩

theorem transferOwnership_ok {c : Cfg} {signer o : String} {s s' : State} {u : Unit}
    (h : transferOwnership c signer o s = .ok u s') : s.owner ≠ "" ∧ signer = s.owner ∧
      o ≠ signer ∧ (∃ a, c.decode o = some a) ∧
      s' = { s with owner := o, events := s.events ++ [.ownershipTransferred signer o] } := by
  unfold transferOwnership at h
  simp only [bind_ok] at h
  obtain ⟨_, _, h0, h⟩ := h
  obtain ⟨rfl, h0, h1⟩ := ensureOwner_ok h0
  cases hd : c.decode o with
  | none => simp only [hd] at h; cases h
  | some a =>
    simp only [hd] at h
    rw [ite_ok] at h
    rcases h with ⟨_, h⟩ | ⟨h2, h⟩
    · cases h
    simp only [bind_ok, modify_ok] at h
    obtain ⟨_, _, rfl, h⟩ := h
    exact ⟨h0, h1, h2, ⟨a, rfl⟩, emit_ok h⟩

/-! ### Bank messages -/

theorem bankSend_ok {c : Cfg} {a b : Addr} {amt : Int} {s s' : State} {u : Unit}
    (h : bankSend c a b amt s = .ok u s') : 0 < amt ∧ c.blocked b = false ∧ Moved c s a b amt s' := by
  unfold bankSend at h
  rw [ite_ok] at h
  rcases h with ⟨_, h⟩ | ⟨h0, h⟩
  · cases h
  rw [ite_ok] at h
  rcases h with ⟨_, h⟩ | ⟨h1, h⟩
  · cases h
  exact ⟨by omega, by simpa using h1, sendCoins_ok h⟩

theorem keeperSend_ok {c : Cfg} {a b : Addr} {amt : Int} {s s' : State} {u : Unit}
    (h : keeperSend c a b amt s = .ok u s') : 0 ≤ amt ∧ Moved c s a b amt s' := by
  unfold keeperSend at h
  rw [ite_ok] at h
  rcases h with ⟨_, h⟩ | ⟨h0, h⟩
  · cases h
  exact ⟨by omega, sendCoins_ok h⟩

/-- What the outputs of a multi-send pay to one account. -/
def outTo (outs : List (Addr × Int)) (x : Addr) : Int :=
  (outs.map fun o => if o.1 = x then o.2 else 0).sum

/-- Effect of the outputs of a multi-send. -/
structure OutsMoved (c : Cfg) (s : State) (a : Addr) (outs : List (Addr × Int)) (s' : State) :
    Prop where
  frame : bankCore s' = bankCore s
  bal : ∀ x, s'.balance x = s.balance x + outTo outs x
  sum : sumBal s' = sumBal s + (outs.map Prod.snd).sum
  total : s'.totalPrincipal = s.totalPrincipal
  sumP : sumPrin s' = sumPrin s
  noYield : ∀ o ∈ outs, o.1 ≠ c.yieldAddr
  prin : ∀ x, x ≠ a → (∀ o ∈ outs, o.1 ≠ x) → s'.principalOf x = s.principalOf x
  prinEq : ∀ x, s'.principalOf x = s.principalOf x
    - (if x = a then (outs.map fun o => roundedUp o.2 s.index).sum else 0)
    + (outs.map fun o => if o.1 = x then roundedUp o.2 s.index else 0).sum

theorem multiSendOutputs_ok {c : Cfg} {a : Addr} (ha : a ≠ c.yieldAddr) (ham : a ≠ c.moduleAddr)
    {outs : List (Addr × Int)} (hp : ∀ o ∈ outs, o.2 ≠ 0) (hm : ∀ o ∈ outs, o.1 ≠ c.moduleAddr)
    {s s' : State} {u : Unit} (hi : s.index ≠ 0) (h : multiSendOutputs c a outs s = .ok u s') :
    OutsMoved c s a outs s' := by
  induction outs generalizing s with
  | nil =>
    obtain ⟨_, rfl⟩ := pure_ok.1 h
    exact ⟨rfl, fun x => by simp [outTo], by simp, rfl, rfl, by simp, fun _ _ _ => rfl,
      fun x => by simp⟩
  | cons o t ih =>
    obtain ⟨b, amt⟩ := o
    unfold multiSendOutputs at h
    simp only [bind_ok] at h
    obtain ⟨_, s1, h1, _, s2, h2, h3⟩ := h
    have hb : b ≠ c.yieldAddr := by
      intro hb
      unfold sendRestriction at h1
      rw [if_neg (hp _ List.mem_cons_self), if_neg ha, if_pos hb, if_neg ham] at h1
      cases h1
    have hbm := hm _ List.mem_cons_self
    obtain ⟨s1', h1', r⟩ := restrict_spec c a b amt s (hp _ List.mem_cons_self) ha hb hi
    rw [h1] at h1'
    cases h1'
    rw [addCoins_eq] at h2
    cases h2
    have hi2 : (credit s1 b amt).index ≠ 0 := by
      show s1.index ≠ 0
      rw [r.frame]; exact hi
    have r2 := ih (fun o ho => hp o (List.mem_cons_of_mem _ ho))
      (fun o ho => hm o (List.mem_cons_of_mem _ ho)) hi2 h3
    have hb1 : ∀ x, s1.balance x = s.balance x := fun x => by
      show ((s1.bal).get? x).getD 0 = _
      rw [r.frame]; rfl
    have hs1 : sumBal s1 = sumBal s := by unfold sumBal; rw [r.frame]
    have hi1 : (credit s1 b amt).index = s.index := by
      show s1.index = _
      rw [r.frame]
    refine ⟨?_, ?_, ?_, ?_, ?_, ?_, ?_, ?_⟩
    · rw [r2.frame]
      show bankCore s1 = _
      rw [r.frame]; rfl
    · intro x
      rw [r2.bal, balance_credit, hb1]
      unfold outTo
      rw [List.map_cons, List.sum_cons]
      by_cases hx : x = b
      · subst hx; simp; ring
      · simp [hx, Ne.symm hx]
    · rw [r2.sum, sumBal_credit, hs1, List.map_cons, List.sum_cons]
      ring
    · rw [r2.total]
      show s1.totalPrincipal = _
      rw [r.total, if_neg ham, if_neg hbm]; ring
    · rw [r2.sumP]
      show sumPrin s1 = _
      rw [r.sumP]; simp [ham, hbm]
    · intro o ho
      rcases List.mem_cons.1 ho with rfl | ho
      · exact hb
      · exact r2.noYield o ho
    · intro x hx ho
      rw [r2.prin x hx (fun o h => ho o (List.mem_cons_of_mem _ h))]
      show s1.principalOf x = _
      rw [r.prin]
      have : x ≠ b := fun e => ho _ List.mem_cons_self e.symm
      simp [hx, this]
    · intro x
      rw [r2.prinEq x, hi1]
      show s1.principalOf x - _ + _ = _
      rw [r.prin, List.map_cons, List.sum_cons, List.map_cons, List.sum_cons]
      by_cases hx : x = a <;> by_cases hy : x = b
      · subst hx; subst hy; simp [ham]; ring
      · subst hx; simp [ham, hy, Ne.symm hy]; ring
      · subst hy; simp [ham, hx, hbm]; ring
      · simp [hx, hy, Ne.symm hy]

/-- Effect of a multi-send. -/
structure MultiMoved (c : Cfg) (s : State) (a : Addr) (outs : List (Addr × Int)) (s' : State) :
    Prop where
  frame : bankCore s' = bankCore s
  pos : ∀ o ∈ outs, 0 < o.2
  allowed : ∀ o ∈ outs, c.blocked o.1 = false
  enough : (outs.map Prod.snd).sum ≤ s.balance a
  bal : ∀ x, s'.balance x = s.balance x - (if x = a then (outs.map Prod.snd).sum else 0) + outTo outs x
  sum : sumBal s' = sumBal s
  total : s'.totalPrincipal = s.totalPrincipal
  sumP : sumPrin s' = sumPrin s
  noYield : ∀ o ∈ outs, o.1 ≠ c.yieldAddr
  prin : ∀ x, x ≠ a → (∀ o ∈ outs, o.1 ≠ x) → s'.principalOf x = s.principalOf x
  prinEq : ∀ x, s'.principalOf x = s.principalOf x
    - (if x = a then (outs.map fun o => roundedUp o.2 s.index).sum else 0)
    + (outs.map fun o => if o.1 = x then roundedUp o.2 s.index else 0).sum

theorem bankMultiSend_ok {c : Cfg} (hc : c.WF) {a : Addr} (ha : a ≠ c.yieldAddr)
    (ham : a ≠ c.moduleAddr) {outs : List (Addr × Int)} {s s' : State} {u : Unit}
    (hi : s.index ≠ 0) (h : bankMultiSend c a outs s = .ok u s') : MultiMoved c s a outs s' := by
  unfold bankMultiSend at h
  rw [ite_ok] at h
  rcases h with ⟨_, h⟩ | ⟨_, h⟩
  · cases h
  rw [ite_ok] at h
  rcases h with ⟨_, h⟩ | ⟨h0, h⟩
  · cases h
  rw [ite_ok] at h
  rcases h with ⟨_, h⟩ | ⟨h1, h⟩
  · cases h
  have hpos : ∀ o ∈ outs, 0 < o.2 := by
    intro o ho
    by_contra hn
    exact h0 (List.any_eq_true.2 ⟨o, ho, by simpa using hn⟩)
  have hall : ∀ o ∈ outs, c.blocked o.1 = false := by
    intro o ho
    by_contra hn
    exact h1 (List.any_eq_true.2 ⟨o, ho, by simpa using hn⟩)
  unfold multiSend at h
  simp only [bind_ok] at h
  obtain ⟨_, s1, h2, h⟩ := h
  rw [subCoins_eq] at h2
  split at h2
  · cases h2
  next hlt =>
  cases h2
  have r := multiSendOutputs_ok ha ham (fun o ho => by have := hpos o ho; omega)
    (fun o ho e => by
      have := hall o ho
      rw [e, hc.module_blocked] at this; cases this)
    (s := debit s a (outs.map Prod.snd).sum) hi h
  exact ⟨r.frame, hpos, hall, by omega, fun x => by rw [r.bal, balance_debit],
    by rw [r.sum, sumBal_debit]; ring, r.total, r.sumP, r.noYield, r.prin, r.prinEq⟩

theorem outTo_nonneg {outs : List (Addr × Int)} (h : ∀ o ∈ outs, 0 < o.2) (x : Addr) :
    0 ≤ outTo outs x := by
  unfold outTo
  apply List.sum_nonneg
  intro y hy
  obtain ⟨o, ho, rfl⟩ := List.mem_map.1 hy
  have := h o ho
  show 0 ≤ if o.1 = x then o.2 else 0
  split <;> omega

theorem outTo_eq_zero {outs : List (Addr × Int)} {x : Addr} (h : ∀ o ∈ outs, o.1 ≠ x) :
    outTo outs x = 0 := by
  unfold outTo
  apply List.sum_eq_zero
  intro y hy
  obtain ⟨o, ho, rfl⟩ := List.mem_map.1 hy
  simp [h o ho]

/-! ### IBC -/

theorem ics4Check_ok {ch : String} {s s' : State} {u : Unit} (h : ics4Check ch s = .ok u s') :
    s' = s ∧ hasYieldRecipient s IBC ch = true := by
  unfold ics4Check at h
  simp only [bind_ok, get_ok] at h
  obtain ⟨_, _, ⟨rfl, rfl⟩, h⟩ := h
  rw [ite_ok] at h
  rcases h with ⟨h0, h⟩ | ⟨_, h⟩
  · exact ⟨(pure_ok.1 h).2.symm, h0⟩
  · cases h

theorem userIbcTransfer_ok {c : Cfg} {env : Env} {a : Addr} {ch rcv : String} {amt : Int}
    {s s' : State} {u : Unit} (h : userIbcTransfer c env a ch rcv amt s = .ok u s') :
    0 < amt ∧ hasYieldRecipient s IBC ch = true ∧
      ∃ m, Moved c s a (c.escrowAddr ch) amt m ∧ s' = booked m ⟨ch, a, rcv, amt⟩ := by
  unfold userIbcTransfer at h
  rw [ite_ok] at h
  rcases h with ⟨_, h⟩ | ⟨h0, h⟩
  · cases h
  unfold ibcTransfer at h
  cases hx : env.ibc ch with
  | failEarly => simp only [hx] at h; cases h
  | failLate =>
    simp only [hx] at h
    simp only [bind_ok] at h
    obtain ⟨_, _, _, _, _, _, h⟩ := h
    cases h
  | success =>
    simp only [hx] at h
    simp only [bind_ok] at h
    obtain ⟨_, m, h1, _, m2, h2, h3⟩ := h
    obtain ⟨rfl, hy⟩ := ics4Check_ok h2
    have hm := sendCoins_ok h1
    refine ⟨by omega, ?_, _, hm, (modify_ok.1 h3).symm⟩
    have := hm.recipients
    unfold hasYieldRecipient at hy ⊢
    rw [← this]; exact hy

/-- Vouchers of a channel reduced. -/
def vouchersTaken (s : State) (ch : String) (amt : Int) : State :=
  { s with vouchers := s.vouchers.set ch (s.vouchersOf ch - amt) }

theorem vouchersTaken_of (s : State) (ch : String) (amt : Int) (x : String) :
    (vouchersTaken s ch amt).vouchersOf x = s.vouchersOf x - (if x = ch then amt else 0) := by
  show ((s.vouchers.set ch (s.vouchersOf ch - amt)).get? x).getD 0 = _
  rw [getD_set]
  split
  · next h => subst h; rfl
  · show _ = s.vouchersOf x - 0; rw [Int.sub_zero]; rfl

theorem ibcReceive_ok {c : Cfg} {ch : String} {rcv : Addr} {amt : Int} {s s' : State} {u : Unit}
    (h : ibcReceive c ch rcv amt s = .ok u s') : 0 < amt ∧ amt ≤ s.vouchersOf ch ∧
      c.blocked rcv = false ∧
      ∃ m, Moved c s (c.escrowAddr ch) rcv amt m ∧ s' = vouchersTaken m ch amt := by
  unfold ibcReceive at h
  simp only [bind_ok, get_ok] at h
  obtain ⟨_, _, ⟨rfl, rfl⟩, h⟩ := h
  rw [ite_ok] at h
  rcases h with ⟨_, h⟩ | ⟨h0, h⟩
  · cases h
  rw [ite_ok] at h
  rcases h with ⟨_, h⟩ | ⟨h1, h⟩
  · cases h
  simp only [bind_ok] at h
  obtain ⟨_, m, h2, h3⟩ := h
  exact ⟨by omega, by omega, by simpa using h1, m, sendCoins_ok h2, (modify_ok.1 h3).symm⟩

/-- Whether a packet is queued for retry when it fails. -/
def ownPacket (c : Cfg) (p : IbcOut) : Bool :=
  decide (c.encode p.sender = c.encode (c.escrow "transfer" p.channel))

/-- The refund after a failed packet. -/
def refunded (m : State) (p : IbcOut) : State :=
  { m with inflight := m.inflight.erase p,
           vouchers := m.vouchers.set p.channel (m.vouchersOf p.channel - p.amount) }

theorem intOfString_toString (i : Int) : intOfString (toString i) = some i := GoInt.parse_toString i

theorem addAmountToRetry_packet (c : Cfg) (p : IbcOut) (s : State) :
    addAmountToRetry c "transfer" p.channel (some (packetData c p)) s =
      .ok () (if ownPacket c p then retryAdded s IBC p.channel p.amount else s) := by
  unfold addAmountToRetry packetData ownPacket
  simp only [if_true]
  by_cases hx : c.encode p.sender = c.encode (c.escrow "transfer" p.channel)
  · simp only [hx, if_true, intOfString_toString]
    simp only [decide_true, if_true]
    rfl
  · simp only [hx, if_false, decide_false]
    rfl

theorem packetFailed_ok {c : Cfg} {p : IbcOut} {b : Bool} {s s' : State} {u : Unit}
    (h : packetFailed c p b s = .ok u s') : p ∈ s.inflight ∧ p.amount ≤ s.vouchersOf p.channel ∧
      ∃ m, Moved c (if ownPacket c p then retryAdded s IBC p.channel p.amount else s)
        (c.escrowAddr p.channel) p.sender p.amount m ∧ s' = refunded m p := by
  unfold packetFailed at h
  simp only [bind_ok, get_ok] at h
  obtain ⟨_, _, ⟨rfl, rfl⟩, h⟩ := h
  rw [ite_ok] at h
  rcases h with ⟨_, h⟩ | ⟨h0, h⟩
  · cases h
  rw [ite_ok] at h
  rcases h with ⟨_, h⟩ | ⟨h1, h⟩
  · cases h
  refine ⟨by simpa using h0, by omega, ?_⟩
  have key : ∀ {x}, (do addAmountToRetry c "transfer" p.channel (some (packetData c p)); refund c p : M Unit) s
      = .ok x s' → ∃ m, Moved c (if ownPacket c p then retryAdded s IBC p.channel p.amount else s)
        (c.escrowAddr p.channel) p.sender p.amount m ∧ s' = refunded m p := by
    intro x hx
    simp only [bind_ok] at hx
    obtain ⟨_, s1, h2, h3⟩ := hx
    rw [addAmountToRetry_packet] at h2
    cases h2
    unfold refund at h3
    simp only [bind_ok] at h3
    obtain ⟨_, m, h4, h5⟩ := h3
    exact ⟨m, sendCoins_ok h4, (modify_ok.1 h5).symm⟩
  rw [ite_ok] at h
  rcases h with ⟨_, h⟩ | ⟨_, h⟩
  · exact key h
  · exact key h

theorem packetAcked_ok {c : Cfg} {p : IbcOut} {s s' : State} {u : Unit}
    (h : packetAcked c p s = .ok u s') : p ∈ s.inflight ∧
      s' = { s with inflight := s.inflight.erase p } := by
  unfold packetAcked at h
  simp only [bind_ok, get_ok] at h
  obtain ⟨_, _, ⟨rfl, rfl⟩, h⟩ := h
  rw [ite_ok] at h
  rcases h with ⟨_, h⟩ | ⟨h0, h⟩
  · cases h
  have h : ackSuccess p s = .ok u s' := h
  exact ⟨by simpa using h0, (modify_ok.1 h).symm⟩

/-! ### Warp -/

theorem warpSend_ok {c : Cfg} {t d : Nat} {a : Addr} {r : Bytes} {amt : Int} {s s' : State} {u : Unit}
    (h : warpSend c t d a r amt s = .ok u s') : 0 < amt ∧ ∃ col m, s.collateral.get? t = some col ∧
      Moved c s a c.warpAddr amt m ∧
      s' = { m with collateral := m.collateral.set t (col + amt),
                    warpOut := m.warpOut ++ [⟨t, d, r, amt⟩] } := by
  unfold warpSend at h
  simp only [bind_ok, get_ok] at h
  obtain ⟨_, _, ⟨rfl, rfl⟩, h⟩ := h
  cases hx : s.collateral.get? t with
  | none => simp only [hx] at h; cases h
  | some col =>
    simp only [hx] at h
    rw [ite_ok] at h
    rcases h with ⟨_, h⟩ | ⟨h0, h⟩
    · cases h
    simp only [bind_ok] at h
    obtain ⟨_, m, h1, h2⟩ := h
    exact ⟨by omega, col, m, rfl, sendCoins_ok h1, (modify_ok.1 h2).symm⟩

theorem warpReceive_ok {c : Cfg} {t : Nat} {a : Addr} {amt : Int} {s s' : State} {u : Unit}
    (h : warpReceive c t a amt s = .ok u s') : 0 < amt ∧ c.blocked a = false ∧
      ∃ col, s.collateral.get? t = some col ∧ amt ≤ col ∧
      Moved c { s with collateral := s.collateral.set t (col - amt) } c.warpAddr a amt s' := by
  unfold warpReceive at h
  simp only [bind_ok, get_ok] at h
  obtain ⟨_, _, ⟨rfl, rfl⟩, h⟩ := h
  cases hx : s.collateral.get? t with
  | none => simp only [hx] at h; cases h
  | some col =>
    simp only [hx] at h
    rw [ite_ok] at h
    rcases h with ⟨_, h⟩ | ⟨h0, h⟩
    · cases h
    simp only [bind_ok, modify_ok] at h
    obtain ⟨_, _, rfl, h1⟩ := h
    have := (sendModuleToAccount_wp c c.warpAddr a amt _).of_ok h1
    exact ⟨by omega, this.1, col, rfl, by omega, this.2⟩

end Dollar
