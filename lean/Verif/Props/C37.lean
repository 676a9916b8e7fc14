import Verif.Lemmas.Local
import Verif.Lemmas.Deliver
import Verif.Spec.Demo

/-
C37: USDN leaves over IBC only on channels with a yield recipient.
C38: only failed yield packets are queued for retry.
-/
set_option maxRecDepth 100000
set_option linter.unusedSimpArgs false
namespace Dollar
open MM Spec

theorem hasRecipient_eq (s : State) (p : Int) (ch : String) :
    hasYieldRecipient s p ch = (s.recipients.get? (p, ch)).isSome := rfl

/-- `SendPacket` of the ICS-4 wrapper: a packet that decodes as ICS-20 data in USDN on a channel
without IBC yield recipient (provider 0) is refused and nothing changes; every other packet is
passed to the wrapped `SendPacket` in the unchanged state. -/
theorem C37_send_packet (c : Cfg) (channel : String) (decoded : Option PacketData) (next : M Unit)
    (s : State) :
    ((∃ d, decoded = some d ∧ d.denom = c.denom) ∧ s.recipients.get? (0, channel) = none →
      sendPacket c channel decoded next s = .err .ibcDisabled s) ∧
    (¬ ((∃ d, decoded = some d ∧ d.denom = c.denom) ∧ s.recipients.get? (0, channel) = none) →
      sendPacket c channel decoded next s = next s) := by
  cases decoded with
  | none => exact ⟨fun h => (nomatch h.1.choose_spec.1), fun _ => rfl⟩
  | some d =>
    have e : sendPacket c channel (some d) next s =
        if d.denom = c.denom ∧ hasYieldRecipient s IBC channel = false then .err .ibcDisabled s
        else next s := by
      unfold sendPacket
      simp only [bind_apply, get_apply]
      split <;> rfl
    have e2 : hasYieldRecipient s IBC channel = false ↔ s.recipients.get? (0, channel) = none := by
      rw [hasRecipient_eq]
      show (s.recipients.get? (0, channel)).isSome = false ↔ _
      cases s.recipients.get? (0, channel) <;> simp
    rw [e]
    constructor
    · rintro ⟨⟨d', hd, h1⟩, h2⟩
      cases hd
      rw [if_pos ⟨h1, e2.2 h2⟩]
    · intro h
      rw [if_neg]
      rintro ⟨h1, h2⟩
      exact h ⟨⟨d, rfl, h1⟩, e2.1 h2⟩

/-- The check the model makes inside a USDN transfer is this wrapper. -/
theorem ics4Check_eq (c : Cfg) (channel sender receiver amount : String) :
    ics4Check channel = sendPacket c channel (some ⟨c.denom, amount, sender, receiver⟩) (pure ()) := by
  funext s
  unfold ics4Check sendPacket
  simp only [bind_apply, get_apply]
  by_cases h : hasYieldRecipient s IBC channel = true
  · rw [if_pos h, if_neg (by rw [h]; simp)]
  · have h : hasYieldRecipient s IBC channel = false := by simpa using h
    rw [if_neg (by rw [h]; simp), if_pos ⟨trivial, h⟩]

/-- Whatever happens on the chain, every USDN packet handed to IBC core goes out on a channel that
has a yield recipient at that moment. -/
theorem C37_packets_leave_on_enabled_channels {c : Cfg} (hc : c.WF) (env : Env) (msg : Msg) (s : State)
    (hr : Reachable c s) (hm : msg.SignedByUser c) :
    ∃ l, (step c env msg s).ibcOut = s.ibcOut ++ l ∧
      ∀ p ∈ l, ∃ r, s.recipients.get? (0, p.channel) = some r := by
  have hl := hr.led hc
  have of_has : ∀ {ch}, hasYieldRecipient s IBC ch = true → ∃ r, s.recipients.get? (0, ch) = some r := by
    intro ch h
    exact Option.isSome_iff_exists.1 (by rw [← h]; rfl)
  have nochange : ∀ {s' : State}, s'.ibcOut = s.ibcOut → ∃ l, s'.ibcOut = s.ibcOut ++ l ∧
      ∀ p ∈ l, ∃ r, s.recipients.get? (0, p.channel) = some r :=
    fun e => ⟨[], by simp [e], nofun⟩
  rcases step_cases c env msg s with h | h
  · rw [h]; exact nochange rfl
  generalize step c env msg s = s' at h
  by_cases ho : msg.noOther = true
  · exact nochange (congrArg (fun x => x.2.2.2.2.1) ((Other.msg c env msg ho).ok h) :)
  have ho : msg.noOther = false := by simpa using ho
  cases msg with
  | lock signer v amt? =>
    exact nochange (congrArg (fun x => x.2.2.2.1)
      ((RouteF.lock c env signer v amt?).ok (show lock c env signer v amt? s = .ok () s' from h)) :)
  | unlock signer v amt? =>
    exact nochange (congrArg (fun x => x.2.2.2.1)
      ((RouteF.unlock c signer v amt?).ok (show unlock c signer v amt? s = .ok () s' from h)) :)
  | deliver vaa =>
    obtain ⟨v, sA, _, _, rfl, hA, hR, hd⟩ := deliver_did hc hl
      (show deliver c env vaa s = .ok () s' from h)
    have hui : ∀ {i m}, UI c { s with archive := s.archive ++ [v.digest] } i m →
        ∃ l, m.ibcOut = s.ibcOut ++ l ∧ ∀ p ∈ l, ∃ r, s.recipients.get? (0, p.channel) = some r := by
      intro i m hui
      obtain ⟨l, _, h2, h3⟩ := hui.infl
      exact ⟨l, h2, fun p hp => of_has (h3 p hp).2.2⟩
    generalize content env vaa = q at hd
    cases hd with
    | ignored _ _ _ _ _ _ _ _ e => rw [e]; exact nochange rfl
    | token amount i rcp s1 _ hu hm =>
      rw [show s'.ibcOut = s1.ibcOut from hm.moved.ibcOut]; exact hui hu
    | index i m _ e hu _ =>
      have := hui hu
      rwa [← show s'.ibcOut = m.ibcOut from (congrArg State.ibcOut e :)] at this
  | ibcTransfer a ch r amt =>
    obtain ⟨_, hy, m, hmv, rfl⟩ := userIbcTransfer_ok (show userIbcTransfer c env a ch r amt s = .ok () s' from h)
    refine ⟨[⟨ch, a, r, amt⟩], ?_, ?_⟩
    · show m.ibcOut ++ _ = _
      rw [hmv.ibcOut]
    · intro p hp
      cases List.mem_singleton.1 hp
      exact of_has hy
  | ibcReceive ch r amt =>
    obtain ⟨_, _, _, m, hmv, rfl⟩ := ibcReceive_ok (show ibcReceive c ch r amt s = .ok () s' from h)
    exact nochange hmv.ibcOut
  | ibcTimeout p =>
    obtain ⟨_, _, m, hmv, rfl⟩ := packetFailed_ok (show packetFailed c p true s = .ok () s' from h)
    refine nochange (hmv.ibcOut.trans ?_)
    split <;> rfl
  | ibcAckError p =>
    obtain ⟨_, _, m, hmv, rfl⟩ := packetFailed_ok (show packetFailed c p false s = .ok () s' from h)
    refine nochange (hmv.ibcOut.trans ?_)
    split <;> rfl
  | ibcAckSuccess p =>
    obtain ⟨_, rfl⟩ := packetAcked_ok (show packetAcked c p s = .ok () s' from h)
    exact nochange rfl
  | warpCreate t =>
    have h : warpCreate t s = .ok () s' := h
    unfold warpCreate at h
    have h := modify_ok.1 h
    subst h
    split <;> exact nochange rfl
  | warpTransfer a t d r amt =>
    obtain ⟨_, _, m, _, hmv, rfl⟩ := warpSend_ok (show warpSend c t d a r amt s = .ok () s' from h)
    exact nochange hmv.ibcOut
  | warpReceive t a amt =>
    obtain ⟨_, _, _, _, _, hmv⟩ := warpReceive_ok (show warpReceive c t a amt s = .ok () s' from h)
    exact nochange hmv.ibcOut
  | _ => exact Bool.noConfusion ho

/-- The retry amount a failed packet adds: the packet's amount if it decodes as ICS-20 USDN data
that was sent by the channel's own escrow account and the amount is a number, otherwise nothing. -/
def Spec.retryFor (c : Cfg) (port channel : String) (decoded : Option PacketData) : Option Int :=
  match decoded with
  | none => none
  | some d =>
    if d.denom = c.denom ∧ d.sender = c.encode (c.escrow port channel) then intOfString d.amount else none

theorem addAmountToRetry_eq (c : Cfg) (port channel : String) (decoded : Option PacketData) (s : State) :
    addAmountToRetry c port channel decoded s = .ok () (match retryFor c port channel decoded with
      | none => s
      | some a => { s with retry := s.retry.set (0, channel) (s.retryOf 0 channel + a) }) := by
  cases decoded with
  | none => rfl
  | some d =>
    unfold addAmountToRetry retryFor
    simp only
    by_cases h1 : d.denom = c.denom
    · by_cases h2 : d.sender = c.encode (c.escrow port channel)
      · rw [if_pos h1, if_pos h2, if_pos ⟨h1, h2⟩]
        show (match intOfString d.amount with | none => _ | some a => _ : M Unit) s = _
        cases intOfString d.amount <;> rfl
      · rw [if_pos h1, if_neg h2, if_neg (fun h => h2 h.2)]; rfl
    · rw [if_neg h1, if_neg (fun h => h1 h.1)]; rfl

/-- Middleware callbacks, for every packet, acknowledgement, wrapped module and state: on a timeout
or an error acknowledgement the retry amount of the channel grows by `retryFor` and then the
wrapped module is called; on a success or undecodable acknowledgement the wrapped module is called
directly. -/
theorem C38_middleware (c : Cfg) (port channel : String) (decoded : Option PacketData) (next : M Unit)
    (s : State) :
    (retryFor c port channel decoded = none →
      onTimeout c port channel decoded next s = next s ∧
      onAck c port channel decoded (some false) next s = next s) ∧
    (∀ a, retryFor c port channel decoded = some a →
      onTimeout c port channel decoded next s =
        next { s with retry := s.retry.set (0, channel) (s.retryOf 0 channel + a) } ∧
      onAck c port channel decoded (some false) next s =
        next { s with retry := s.retry.set (0, channel) (s.retryOf 0 channel + a) }) ∧
    onAck c port channel decoded (some true) next s = next s ∧
    onAck c port channel decoded none next s = next s := by
  refine ⟨fun h => ?_, fun a h => ?_, rfl, rfl⟩
  · constructor
    · unfold onTimeout
      simp only [bind_apply, addAmountToRetry_eq, h]
    · unfold onAck
      simp only [bind_apply, addAmountToRetry_eq, h]
  · constructor
    · unfold onTimeout
      simp only [bind_apply, addAmountToRetry_eq, h]
    · unfold onAck
      simp only [bind_apply, addAmountToRetry_eq, h]

/-- A USDN packet that times out or is acknowledged with an error: if it was sent by the channel's
escrow account its amount is queued for retry, and nothing is queued otherwise. -/
theorem C38_failed_packet {c : Cfg} (hc : c.WF) (env : Env) (msg : Msg) (p : IbcOut) (s s' : State)
    (hmsg : msg = .ibcTimeout p ∨ msg = .ibcAckError p) (h : exec c env msg s = .ok () s') :
    (∀ prov ch, s'.retryOf prov ch = s.retryOf prov ch +
      (if p.sender = c.escrowAddr p.channel ∧ prov = 0 ∧ ch = p.channel then p.amount else 0)) ∧
    p ∈ s.inflight ∧
    (p.sender ≠ c.escrowAddr p.channel → p.sender ≠ c.yieldAddr →
      s'.balance p.sender = s.balance p.sender + p.amount ∧
      s'.balance (c.escrowAddr p.channel) = s.balance (c.escrowAddr p.channel) - p.amount) := by
  have hx : ∃ b, packetFailed c p b s = .ok () s' := by
    rcases hmsg with rfl | rfl
    · exact ⟨true, h⟩
    · exact ⟨false, h⟩
  obtain ⟨b, hx⟩ := hx
  obtain ⟨hin, _, m, hmv, rfl⟩ := packetFailed_ok hx
  refine ⟨fun prov ch => ?_, hin, fun hne hy => ?_⟩
  · show m.retryOf prov ch = _
    rw [hmv.retryOf]
    by_cases ho : p.sender = c.escrowAddr p.channel
    · rw [if_pos ((ownPacket_iff hc p).2 ho)]
      simp only [ho, true_and]
      show ((s.retry.set (0, p.channel) _).get? (prov, ch)).getD 0 = _
      rw [getD_set]
      by_cases he : prov = 0 ∧ ch = p.channel
      · obtain ⟨rfl, rfl⟩ := he
        simp
        rfl
      · rw [if_neg he, if_neg (fun e => he (Prod.mk.inj e))]
        simp [State.retryOf]
    · rw [if_neg (fun e => ho ((ownPacket_iff hc p).1 e)), if_neg (fun e => ho e.1), add_zero]
  · have e : (if ownPacket c p = true then retryAdded s IBC p.channel p.amount else s) = s :=
      if_neg (fun e => hne ((ownPacket_iff hc p).1 e))
    rw [e] at hmv
    constructor
    · show m.balance _ = _
      rw [hmv.bal]; simp [hne]
    · show m.balance _ = _
      rw [hmv.bal]; simp [Ne.symm hne]

/-- A success acknowledgement changes no retry amount and no balance. -/
theorem C38_acked_packet {c : Cfg} (env : Env) (p : IbcOut) (s s' : State)
    (h : exec c env (.ibcAckSuccess p) s = .ok () s') :
    s'.retry = s.retry ∧ s'.bal = s.bal := by
  obtain ⟨_, rfl⟩ := packetAcked_ok (show packetAcked c p s = .ok () s' from h)
  exact ⟨rfl, rfl⟩

/-! ### Non-vacuity -/

/-- After `hist1` two packets are in flight on channel-0: Alice's transfer and the yield packet of
the escrow account. -/
example : (run Demo.cfg Demo.hist1 Demo.start).ibcOut =
    [⟨"channel-0", Demo.alice, "noble1remote", 1000000⟩,
     ⟨"channel-0", Demo.cfg.escrowAddr "channel-0", "noble1remote", 100000⟩] := by
  decide +kernel

/-- How a failed packet runs, without converting the amount to text and back. -/
theorem packetFailed_eq (c : Cfg) (p : IbcOut) (b : Bool) (s : State) (h1 : p ∈ s.inflight)
    (h2 : ¬ s.vouchersOf p.channel < p.amount) :
    packetFailed c p b s =
      refund c p (if ownPacket c p then retryAdded s IBC p.channel p.amount else s) := by
  unfold packetFailed
  simp only [bind_apply, get_apply]
  rw [if_neg (not_not.2 h1), if_neg h2]
  cases b
  · rw [if_neg (by decide)]
    unfold onAck
    simp only [bind_apply, addAmountToRetry_packet]
  · rw [if_pos rfl]
    unfold onTimeout
    simp only [bind_apply, addAmountToRetry_packet]

/-- The yield packet fails: 100000 are queued. -/
example : let s := run Demo.cfg Demo.hist1 Demo.start
    let p : IbcOut := ⟨"channel-0", Demo.cfg.escrowAddr "channel-0", "noble1remote", 100000⟩
    (exec Demo.cfg (Demo.env 9) (.ibcTimeout p) s).isOk = true ∧
    (exec Demo.cfg (Demo.env 9) (.ibcAckError p) s).isOk = true := by
  intro s p
  have h1 : p ∈ s.inflight := by decide +kernel
  have h2 : ¬ s.vouchersOf p.channel < p.amount := by decide +kernel
  have h3 : (refund Demo.cfg p (if ownPacket Demo.cfg p then retryAdded s IBC p.channel p.amount
    else s)).isOk = true := by decide +kernel
  constructor
  · show (packetFailed Demo.cfg p true s).isOk = true
    rw [packetFailed_eq _ _ _ _ h1 h2]; exact h3
  · show (packetFailed Demo.cfg p false s).isOk = true
    rw [packetFailed_eq _ _ _ _ h1 h2]; exact h3

/-- Alice's packet fails or succeeds. -/
example : let s := run Demo.cfg Demo.hist1 Demo.start
    let p : IbcOut := ⟨"channel-0", Demo.alice, "noble1remote", 1000000⟩
    (exec Demo.cfg (Demo.env 9) (.ibcAckError p) s).isOk = true ∧
    (exec Demo.cfg (Demo.env 9) (.ibcAckSuccess p) s).isOk = true := by
  intro s p
  have h1 : p ∈ s.inflight := by decide +kernel
  have h2 : ¬ s.vouchersOf p.channel < p.amount := by decide +kernel
  have h3 : (refund Demo.cfg p (if ownPacket Demo.cfg p then retryAdded s IBC p.channel p.amount
    else s)).isOk = true := by decide +kernel
  constructor
  · show (packetFailed Demo.cfg p false s).isOk = true
    rw [packetFailed_eq _ _ _ _ h1 h2]; exact h3
  · decide +kernel

/-- A USDN packet on a channel without recipient, one with, and a foreign denom. -/
example : let s := Demo.start
    s.recipients.get? (0, "channel-1") = none ∧ s.recipients.get? (0, "channel-0") ≠ none ∧
    (sendPacket Demo.cfg "channel-1" (some ⟨"uusdn", "1", "a", "b"⟩) (pure ()) s).isOk = false ∧
    (sendPacket Demo.cfg "channel-1" (some ⟨"uusdc", "1", "a", "b"⟩) (pure ()) s).isOk = true ∧
    (sendPacket Demo.cfg "channel-0" (some ⟨"uusdn", "1", "a", "b"⟩) (pure ()) s).isOk = true := by
  decide +kernel

end Dollar
