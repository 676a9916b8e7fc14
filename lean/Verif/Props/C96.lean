import Verif.Props.C34
import Verif.Props.C92

/-
C96: USDN that left over IBC can come home: vouchers can be redeemed and failed transfers are refunded.
-/
set_option maxRecDepth 100000
namespace Dollar
open MM Spec

/-- **C96.** In every reachable state, vouchers that exist on the other side of a channel can be sent
back: the transfer is accepted, whatever else happens on the chain, and the receiver gets the coins.
(The receiver may not be the module's yield account, nor an account the bank blocks.) -/
theorem C96_vouchers_redeemable {c : Cfg} (hc : c.WF) {s : State} (hr : Reachable c s) (env : Env) (channel : String)
    (receiver : Addr) (amount : Int) (h0 : 0 < amount) (hv : amount ≤ s.vouchersOf channel)
    (hb : c.blocked receiver = false) (hy : receiver ≠ c.yieldAddr) :
    ∃ s', exec c env (.ibcReceive channel receiver amount) s = .ok () s' ∧
      s'.vouchersOf channel = s.vouchersOf channel - amount ∧
      (receiver ≠ c.escrow "transfer" channel →
        s'.balance receiver = s.balance receiver + amount ∧
        s'.balance (c.escrow "transfer" channel) = s.balance (c.escrow "transfer" channel) - amount) := by
  obtain ⟨k1, k2, k3⟩ := C34_escrow_covers hc hr channel
  have k3 : s.vouchersOf channel + s.retryOf 0 channel ≤ s.balance (c.escrowAddr channel) := k3
  obtain ⟨m, e, hmv⟩ := sendCoins_progress (c := c) (a := c.escrowAddr channel) (b := receiver) (amt := amount) (s := s)
    (by omega) (hr.led hc).good.index.ne' (.inl hy)
  refine ⟨{ m with vouchers := m.vouchers.set channel (m.vouchersOf channel - amount) }, ?_, ?_, fun hne => ?_⟩
  · show ibcReceive c channel receiver amount s = _
    unfold ibcReceive
    have h1 : ¬ (amount ≤ 0 ∨ s.vouchersOf channel < amount) := by omega
    simp only [bind_apply, get_apply, h1, if_false, hb, Bool.false_eq_true, e, modify_apply]
  · have : ∀ x : Int, ({ m with vouchers := m.vouchers.set channel x } : State).vouchersOf channel = x := by
      intro x; unfold State.vouchersOf; simp only [KV.get?_set, if_true, Option.getD_some]
    rw [this, hmv.vouchersOf]
  · have hne : receiver ≠ c.escrowAddr channel := hne
    show m.balance receiver = _ ∧ m.balance (c.escrowAddr channel) = s.balance (c.escrowAddr channel) - amount
    rw [hmv.bal, hmv.bal, if_neg hne, if_pos rfl, if_pos rfl, if_neg (Ne.symm hne)]
    omega

/-- **C96, refunds.** In every reachable state, a packet that is still in flight and that the other
side did not receive (so that its vouchers cannot have been sent back) can time out or be refused: the
message is accepted and the sender gets the coins back.  For a packet of the module itself the sender
is the escrow account, and the amount waits for a retry. -/
theorem C96_refunds_succeed {c : Cfg} (hc : c.WF) {s : State} (hr : Reachable c s) (env : Env) (p : IbcOut)
    (hp : p ∈ s.inflight) (hv : p.amount ≤ s.vouchersOf p.channel) (m : Msg)
    (hm : m = .ibcTimeout p ∨ m = .ibcAckError p) :
    ∃ s', exec c env m s = .ok () s' ∧ s'.inflight = s.inflight.erase p ∧
      (p.sender ≠ c.escrow "transfer" p.channel → s'.balance p.sender = s.balance p.sender + p.amount ∧
        s'.retryOf 0 p.channel = s.retryOf 0 p.channel) ∧
      (p.sender = c.escrow "transfer" p.channel → s'.balance p.sender = s.balance p.sender ∧
        s'.retryOf 0 p.channel = s.retryOf 0 p.channel + p.amount) := by
  obtain ⟨k1, k2, k3⟩ := C34_escrow_covers hc hr p.channel
  have k3 : s.vouchersOf p.channel + s.retryOf 0 p.channel ≤ s.balance (c.escrowAddr p.channel) := k3
  obtain ⟨h0, hs⟩ := (hr.led hc).good.infl p hp
  have hs : p.sender ≠ c.yieldAddr := hs.elim (fun h => h.ne_yield) fun h => h ▸ hc.escrow_ne_yield _
  have hf : packetFailed c p true s = packetFailed c p false s := rfl
  have he : exec c env m s = packetFailed c p false s := by
    rcases hm with rfl | rfl
    · exact hf
    · rfl
  rw [he]
  generalize hS : (if ownPacket c p then retryAdded s IBC p.channel p.amount else s) = S
  have hbal : S.balance (c.escrowAddr p.channel) = s.balance (c.escrowAddr p.channel) := by rw [← hS]; split <;> rfl
  have hidx : S.index = s.index := by rw [← hS]; split <;> rfl
  obtain ⟨q, e, hmv⟩ := sendCoins_progress (c := c) (a := c.escrowAddr p.channel) (b := p.sender) (amt := p.amount) (s := S)
    (by rw [hbal]; omega) (by rw [hidx]; exact (hr.led hc).good.index.ne') (.inl hs)
  refine ⟨refunded q p, ?_, ?_, fun hne => ?_, fun hne => ?_⟩
  · unfold packetFailed
    have h1 : ¬ s.vouchersOf p.channel < p.amount := by omega
    simp only [bind_apply, get_apply, hp, not_true, h1, if_false, Bool.false_eq_true]
    show ((do addAmountToRetry c "transfer" p.channel (some (packetData c p)); refund c p : M Unit) s) = _
    simp only [bind_apply, addAmountToRetry_packet, hS]
    unfold refund
    simp only [bind_apply, e, modify_apply]
    rfl
  · show q.inflight.erase p = _
    rw [hmv.inflight, ← hS]
    split <;> rfl
  · have hne : p.sender ≠ c.escrowAddr p.channel := hne
    have hS : S = s := by rw [← hS]; exact if_neg fun h => hne ((ownPacket_iff hc p).1 h)
    show q.balance p.sender = _ ∧ q.retryOf 0 p.channel = _
    rw [hmv.bal, hmv.retryOf, if_neg hne, if_pos rfl, hS]
    exact ⟨by omega, rfl⟩
  · have hne : p.sender = c.escrowAddr p.channel := hne
    have hS : S = retryAdded s IBC p.channel p.amount := by rw [← hS]; exact if_pos ((ownPacket_iff hc p).2 hne)
    show q.balance p.sender = _ ∧ q.retryOf 0 p.channel = _
    rw [hmv.bal, hmv.retryOf, if_pos hne, if_pos rfl, hS]
    refine ⟨?_, ?_⟩
    · show s.balance p.sender - _ + _ = _; omega
    · have := retryAdded_retryOf s IBC p.channel p.amount IBC p.channel
      rw [if_pos rfl] at this
      exact this

/-- Non-vacuity: 1 USDN sent by a user is on the other side of the channel and in flight, and so is
the yield the module sent after it. -/
example : Reachable Demo.cfg (run Demo.cfg Demo.hist1 Demo.start) ∧
    (let s := run Demo.cfg Demo.hist1 Demo.start;
      s.vouchersOf "channel-0" = 1100000 ∧ s.inflight.map IbcOut.amount = [1000000, 100000] ∧
      s.inflight.map (fun p => decide (p.sender = Demo.cfg.escrow "transfer" "channel-0")) = [false, true] ∧
      Demo.cfg.blocked Demo.bob = false ∧ Demo.bob ≠ Demo.cfg.yieldAddr) := by
  refine ⟨.of_run Demo.start_initial Demo.hist1_signed, ?_⟩
  decide +kernel

end Dollar
