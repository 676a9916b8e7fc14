import Verif.Lemmas.ExtRun
import Verif.Lemmas.VInv2
import Verif.Lemmas.VPay
import Verif.Lemmas.Deliver

/-
Escrow accounts stay backed over histories.
-/
set_option linter.unusedSimpArgs false
namespace Dollar
open MM Spec

theorem HypDone.vouchers {c : Cfg} {env : Env} {s s' : State} (h : HypDone c env s s') :
    s'.vouchers = s.vouchers := by
  obtain ⟨m, hm, ⟨_, rfl⟩ | ⟨_, rs, _, ⟨_, rfl⟩ | ⟨_, hr⟩⟩⟩ := h
  · exact hm.vouchers
  · exact hm.vouchers
  · exact hr.vouchers.trans hm.vouchers

theorem HypFailed.vouchers {c : Cfg} {env : Env} {s s' : State} (h : HypFailed c env s s') :
    s'.vouchers = s.vouchers := by
  obtain rfl | ⟨m, hm, rfl | ⟨_, rs, d, r, rest, _, _, _, hr⟩⟩ := h
  · rfl
  · exact hm.vouchers
  · exact hr.vouchers.trans hm.vouchers

theorem IbcRounds.vouchers_mono {c : Cfg} {env : Env} {recips : KV String String} {done : List String}
    {s s' : State} (h : IbcRounds c env recips done s s') (ch : String) :
    s.vouchersOf ch ≤ s'.vouchersOf ch := by
  rw [h.vouchers]
  split
  · next hx => have := hx.2.2; omega
  · omega

theorem vouchersOf_congr {s s' : State} (h : s'.vouchers = s.vouchers) (ch : String) :
    s'.vouchersOf ch = s.vouchersOf ch := by unfold State.vouchersOf; rw [h]

theorem routeF_vouchers {s s' : State} (h : routeF s' = routeF s) : s'.vouchers = s.vouchers :=
  (congrArg (fun x => x.2.2.2.2.2.1) h :)

theorem routeF_retry {s s' : State} (h : routeF s' = routeF s) : s'.retry = s.retry :=
  (congrArg (fun x => x.2.1) h :)

/-- The messages of the portal and of the bank never lower an escrow balance. -/
theorem escrow_mono_plain {c : Cfg} (hc : c.WF) {env : Env} {m : Msg} {s s' : State} (hl : Led c s)
    (hm : m.SignedByUser c) (ho : m.noOther = true) (h : exec c env m s = .ok () s') (ch : String) :
    s.balance (c.escrowAddr ch) ≤ s'.balance (c.escrowAddr ch) := by
  have mv : ∀ {s s' : State} {a b : Addr} {x : Int}, Moved c s a b x s' → 0 ≤ x → c.escrowAddr ch ≠ a →
      s.balance (c.escrowAddr ch) ≤ s'.balance (c.escrowAddr ch) := by
    intro s s' a b x hv h0 h1
    rw [hv.bal, if_neg h1]
    split <;> omega
  cases m with
  | claimYield signer =>
    obtain ⟨_, a, m, hd, hb, hmv, rfl⟩ := claimYield_ok h
    exact (mv hmv (claimable_nonneg s a) (hc.escrow_ne_yield ch) :)
  | setPaused a b => obtain ⟨_, rfl⟩ := setPaused_ok h; exact le_refl _
  | setYieldRecipient a b i r => obtain ⟨_, _, rfl⟩ := setYieldRecipient_ok h; exact le_refl _
  | transfer signer amt? chain token rcp =>
    obtain ⟨amt, rfl, ht⟩ := transfer_ok (show transfer c env signer amt? chain token rcp s = .ok () s' from h)
    obtain ⟨a, ha⟩ := ht.sender
    have hu : c.IsUser a := hm a ha
    rw [(ht.did ha).bal, if_neg (fun e => hu.ne_escrow ch e.symm)]; omega
  | portalSetPaused a b => obtain ⟨_, _, rfl⟩ := portalSetPaused_ok h; exact le_refl _
  | setPeer a b t r => obtain ⟨_, _, _, _, _, _, _, _, rfl⟩ := setPeer_ok h; exact le_refl _
  | setBridgingPath a b t r => obtain ⟨_, _, _, _, _, rfl⟩ := setBridgingPath_ok h; exact le_refl _
  | transferOwnership a b => obtain ⟨_, _, _, _, rfl⟩ := transferOwnership_ok h; exact le_refl _
  | vaultsSetPaused a b => obtain ⟨_, _, _, rfl⟩ := vaultsSetPaused_ok h; exact le_refl _
  | bankSend a b x =>
    have hu : c.IsUser a := hm
    obtain ⟨h0, _, hv⟩ := bankSend_ok (show bankSend c a b x s = .ok () s' from h)
    exact mv hv h0.le (hu.ne_escrow ch).symm
  | keeperSend a b x =>
    have hu : c.IsUser a := hm.1
    obtain ⟨h0, hv⟩ := keeperSend_ok (show keeperSend c a b x s = .ok () s' from h)
    exact mv hv h0 (hu.ne_escrow ch).symm
  | bankMultiSend a outs =>
    have hu : c.IsUser a := hm
    have hv := bankMultiSend_ok hc hu.ne_yield hu.ne_module hl.good.index.ne'
      (show bankMultiSend c a outs s = .ok () s' from h)
    rw [hv.bal, if_neg (fun e => hu.ne_escrow ch e.symm)]
    have := outTo_nonneg hv.pos (c.escrowAddr ch)
    omega
  | _ => exact Bool.noConfusion ho

theorem Backed.mono {c : Cfg} {s s' : State} (h : Backed c s) (hv : s'.vouchers = s.vouchers)
    (hr : s'.retry = s.retry)
    (hb : ∀ ch, s.balance (c.escrowAddr ch) ≤ s'.balance (c.escrowAddr ch)) : Backed c s' := by
  intro ch
  have h1 := h ch
  have h2 := hb ch
  rw [vouchersOf_congr hv]
  have : s'.retryOf IBC ch = s.retryOf IBC ch := by unfold State.retryOf; rw [hr]
  omega

theorem Backed.update {c : Cfg} (hc : c.WF) {env : Env} {i : Int} {s s' : State} (hb : Backed c s)
    (hg : Good c s) (hs : s.recipients.Sorted) (hu : UI c s i s')
    (hx : updateIndex c env i s = .ok () s' ∨ ∃ e, updateIndex c env i s = .err e s') : Backed c s' := by
  have hw := updateIndex_ext hc env i hg hb hs
  have hv : ∀ ch, s.vouchersOf ch ≤ s'.vouchersOf ch := by
    rcases hx with hx | ⟨e, hx⟩
    · obtain ⟨m, m2, m3, hbf, _, hi, _, hh, e⟩ := hw.of_ok hx
      intro ch
      rw [vouchersOf_congr ((congrArg State.vouchers e :).trans hh.vouchers), ]
      have := hi.vouchers_mono ch
      rw [vouchersOf_congr (routeF_vouchers hbf.route)] at this
      exact this
    · obtain hr | ⟨m, hbf, _, ⟨d, _, hi⟩ | ⟨m2, hi, _, hh⟩⟩ := hw.of_err hx
      · intro ch; rw [vouchersOf_congr (routeF_vouchers hr)]
      · intro ch
        have := hi.vouchers_mono ch
        rw [vouchersOf_congr (routeF_vouchers hbf.route)] at this
        exact this
      · intro ch
        rw [vouchersOf_congr hh.vouchers]
        have := hi.vouchers_mono ch
        rw [vouchersOf_congr (routeF_vouchers hbf.route)] at this
        exact this
  intro ch
  have := hu.esc ch
  have := hb ch
  have := hv ch
  omega

theorem ignore_split {x : M Unit} {s s' : State} (h : ignore x s = .ok () s') :
    x s = .ok () s' ∨ ∃ e, x s = .err e s' := by
  unfold ignore at h
  cases hx : x s with
  | ok a m => rw [hx] at h; cases h; exact .inl rfl
  | err e m => rw [hx] at h; cases h; exact .inr ⟨e, rfl⟩
  | panic => rw [hx] at h; cases h

theorem Backed.step {c : Cfg} (hc : c.WF) {env : Env} {msg : Msg} {s : State} (hb : Backed c s)
    (hl : Led c s) (hi : VInv c s) (hs : s.recipients.Sorted)
    (hm : msg.SignedByUser c) : Backed c (step c env msg s) := by
  rcases step_cases c env msg s with h | h
  · rw [h]; exact hb
  generalize Dollar.step c env msg s = s' at h
  by_cases ho : msg.noOther = true
  · have := (Other.msg c env msg ho).ok h
    have hr : routeF s' = routeF s := (congrArg Prod.snd this :)
    exact hb.mono (routeF_vouchers hr) (routeF_retry hr) (escrow_mono_plain hc hl hm ho h)
  have ho : msg.noOther = false := by simpa using ho
  have failed : ∀ {p : IbcOut} {m : State}, p ∈ s.inflight → p.amount ≤ s.vouchersOf p.channel →
      Moved c (if ownPacket c p then retryAdded s IBC p.channel p.amount else s)
        (c.escrowAddr p.channel) p.sender p.amount m → Backed c (refunded m p) := by
    intro p m hin h1 hmv x
    have h2 := hb x
    have h3 := (hl.good.infl p hin).1
    have e1 : (refunded m p).vouchersOf x = s.vouchersOf x - (if x = p.channel then p.amount else 0) := by
      have := vouchersTaken_of m p.channel p.amount x
      rw [show (refunded m p).vouchersOf x = (vouchersTaken m p.channel p.amount).vouchersOf x from rfl,
        this, vouchersOf_congr hmv.vouchers]
      split <;> rfl
    by_cases hown : ownPacket c p = true
    · have hs := (ownPacket_iff hc p).1 hown
      rw [if_pos hown] at hmv
      rw [hs] at hmv
      have e2 : (refunded m p).retryOf IBC x = s.retryOf IBC x + (if x = p.channel then p.amount else 0) := by
        show m.retryOf IBC x = _
        have : m.retryOf IBC x = (retryAdded s IBC p.channel p.amount).retryOf IBC x := by
          unfold State.retryOf; rw [hmv.retry]
        rw [this, retryAdded_retryOf]
        simp
      have e3 : (refunded m p).balance (c.escrowAddr x) = s.balance (c.escrowAddr x) := by
        show m.balance _ = _
        rw [hmv.bal]
        show s.balance _ - _ + _ = _
        split <;> omega
      rw [e1, e2, e3]
      split
      · next e => subst e; omega
      · omega
    · have hs : p.sender ≠ c.escrowAddr p.channel := fun e => hown ((ownPacket_iff hc p).2 e)
      rw [if_neg hown] at hmv
      have e2 : (refunded m p).retryOf IBC x = s.retryOf IBC x := by
        show m.retryOf IBC x = _
        unfold State.retryOf; rw [hmv.retry]
      have e3 : s.balance (c.escrowAddr x) - (if x = p.channel then p.amount else 0) ≤
          (refunded m p).balance (c.escrowAddr x) := by
        show _ ≤ m.balance _
        rw [hmv.bal]
        by_cases hx : x = p.channel
        · subst hx; simp; split <;> omega
        · rw [if_neg (fun e : c.escrowAddr x = c.escrowAddr _ => hx (hc.escrow_inj _ _ e)), if_neg hx]; split <;> omega
      rw [e1, e2]
      by_cases hx : x = p.channel
      · subst hx; simp at e3 ⊢; omega
      · simp [hx] at e3 ⊢; omega
  cases msg with
  | lock signer v amt? =>
    have hr := (RouteF.lock c env signer v amt?).ok (show lock c env signer v amt? s = .ok () s' from h)
    refine hb.mono (routeF_vouchers hr) (routeF_retry hr) fun ch => ?_
    obtain ⟨amt, a, rfl, hk⟩ := lock_ok (show lock c env signer v amt? s = .ok () s' from h)
    obtain ⟨q, hv, rfl⟩ := hk.run
    have hu : c.IsUser a := hm a hk.dec
    show _ ≤ q.balance _
    have := hk.nonneg
    rw [hv.bal, if_neg (fun e => hu.ne_escrow ch e.symm)]
    split <;> omega
  | unlock signer v amt? =>
    have hr := (RouteF.unlock c signer v amt?).ok (show unlock c signer v amt? s = .ok () s' from h)
    refine hb.mono (routeF_vouchers hr) (routeF_retry hr) fun ch => ?_
    obtain ⟨hv, _, amt, a, rfl, hk⟩ := unlock_ok (show unlock c signer v amt? s = .ok () s' from h)
    have hu : c.IsUser a := hm a hk.dec
    obtain ⟨m, removed, hlp, rfl⟩ := hk.run
    show _ ≤ m.balance _
    have hpend := pending_positionsOf hi.toV0 a v
    rcases hk.vault with hv | hv
    · have := hlp.pay_staked hc hk.dec hv hpend.vault (c.escrowAddr ch)
      have h7 : c.escrowAddr ch ≠ c.stakedAddr := hc.escrow_ne_mod ch _
      rw [this, if_neg h7, if_neg (fun e => hu.ne_escrow ch e.symm)]
      omega
    · have := (hlp.pay_flexible hc hk.dec hu hv hi.toV0 hpend hk.pos.le).1.other (c.escrowAddr ch)
        (fun e => hu.ne_escrow ch e.symm) (hc.escrow_ne_mod ch _) (hc.escrow_ne_yield ch)
        (fun t => hc.escrow_ne_mod ch _)
      rw [this]
  | deliver vaa =>
    obtain ⟨v, sA, _, _, rfl, hA, hR, hd⟩ := deliver_did hc hl
      (show deliver c env vaa s = .ok () s' from h)
    have hbA : Backed c { s with archive := s.archive ++ [v.digest] } := hb
    generalize content env vaa = q at hd
    cases hd with
    | ignored _ _ _ _ _ _ _ _ e => rw [e]; exact hb
    | token amount i rcp s1 hx hu hmt =>
      rw [hA] at hx
      have h1 := hbA.update hc hR.good hs hu (ignore_split hx)
      refine h1.mono (show s'.vouchers = s1.vouchers from hmt.moved.vouchers)
        (show s'.retry = s1.retry from hmt.moved.retry) fun ch => ?_
      have h2 : s'.balance (c.escrowAddr ch) = s1.balance (c.escrowAddr ch) +
        (if c.escrowAddr ch = rcp then (amount : Int) else 0) := hmt.bal _
      rw [h2]
      split <;> omega
    | index i m hx e hu _ =>
      rw [hA] at hx
      have := hbA.update hc hR.good hs hu (.inl hx)
      rw [e]
      exact this
  | ibcTransfer a ch r amt =>
    obtain ⟨h0, hy, m, hmv, rfl⟩ := userIbcTransfer_ok (show userIbcTransfer c env a ch r amt s = .ok () s' from h)
    have hu : c.IsUser a := hm
    intro x
    have := hb x
    have hbk : (booked m ⟨ch, a, r, amt⟩).vouchersOf x = m.vouchersOf x + (if x = ch then amt else 0) := by
      show ((m.vouchers.set ch (m.vouchersOf ch + amt)).get? x).getD 0 = _
      rw [getD_set]
      split
      · next h => rw [h]
      · show _ = m.vouchersOf x + 0; rw [Int.add_zero]; rfl
    rw [hbk, vouchersOf_congr hmv.vouchers]
    have e1 : (booked m ⟨ch, a, r, amt⟩).retryOf IBC x = s.retryOf IBC x := by
      show m.retryOf IBC x = _
      unfold State.retryOf; rw [hmv.retry]
    have e2 : (booked m ⟨ch, a, r, amt⟩).balance (c.escrowAddr x) = s.balance (c.escrowAddr x) +
        (if x = ch then amt else 0) := by
      show m.balance _ = _
      rw [hmv.bal, if_neg (fun e => hu.ne_escrow x e.symm)]
      by_cases hx : x = ch
      · simp [hx]
      · rw [if_neg (fun e : c.escrowAddr x = c.escrowAddr _ => hx (hc.escrow_inj _ _ e)), if_neg hx]; omega
    rw [e1, e2]
    split <;> omega
  | ibcReceive ch r amt =>
    obtain ⟨h0, h1, _, m, hmv, rfl⟩ := ibcReceive_ok (show ibcReceive c ch r amt s = .ok () s' from h)
    intro x
    have := hb x
    rw [vouchersTaken_of, vouchersOf_congr hmv.vouchers]
    have e1 : (vouchersTaken m ch amt).retryOf IBC x = s.retryOf IBC x := by
      show m.retryOf IBC x = _
      unfold State.retryOf; rw [hmv.retry]
    have e2 : s.balance (c.escrowAddr x) - (if x = ch then amt else 0) ≤
        (vouchersTaken m ch amt).balance (c.escrowAddr x) := by
      show _ ≤ m.balance _
      rw [hmv.bal]
      by_cases hx : x = ch
      · subst hx; simp; split <;> omega
      · rw [if_neg (fun e : c.escrowAddr x = c.escrowAddr _ => hx (hc.escrow_inj _ _ e)), if_neg hx]; split <;> omega
    rw [e1]
    by_cases hx : x = ch
    · subst hx; simp at e2 ⊢; omega
    · simp [hx] at e2 ⊢; omega
  | ibcTimeout p =>
    obtain ⟨hin, h1, m, hmv, rfl⟩ := packetFailed_ok (show packetFailed c p true s = .ok () s' from h)
    exact failed hin h1 hmv
  | ibcAckError p =>
    obtain ⟨hin, h1, m, hmv, rfl⟩ := packetFailed_ok (show packetFailed c p false s = .ok () s' from h)
    exact failed hin h1 hmv
  | ibcAckSuccess p =>
    obtain ⟨_, rfl⟩ := packetAcked_ok (show packetAcked c p s = .ok () s' from h)
    exact hb
  | warpCreate t =>
    have h : warpCreate t s = .ok () s' := h
    unfold warpCreate at h
    have h := modify_ok.1 h
    subst h
    split <;> exact hb
  | warpTransfer a t d r amt =>
    obtain ⟨h0, _, m, _, hmv, rfl⟩ := warpSend_ok (show warpSend c t d a r amt s = .ok () s' from h)
    have hu : c.IsUser a := hm
    refine hb.mono hmv.vouchers hmv.retry fun ch => ?_
    show _ ≤ m.balance _
    rw [hmv.bal, if_neg (fun e => hu.ne_escrow ch e.symm)]
    split <;> omega
  | warpReceive t a amt =>
    obtain ⟨h0, _, _, _, _, hmv⟩ := warpReceive_ok (show warpReceive c t a amt s = .ok () s' from h)
    refine hb.mono hmv.vouchers hmv.retry fun ch => ?_
    have h9 := hmv.bal (c.escrowAddr ch)
    have h7 : c.escrowAddr ch ≠ c.warpAddr := hc.escrow_ne_mod ch _
    rw [if_neg h7] at h9
    have h9 : s'.balance (c.escrowAddr ch) = s.balance (c.escrowAddr ch) - 0 + _ := h9
    rw [h9]
    split <;> omega
  | _ => exact Bool.noConfusion ho

/-- In every reachable state the escrow account of a channel holds at least the vouchers
outstanding on the channel plus the retry amount. -/
theorem Reachable.backed {c : Cfg} (hc : c.WF) {s : State} (h : Reachable c s) : Backed c s := by
  suffices h : Led c s ∧ VInv c s ∧ Shape s ∧ Backed c s from h.2.2.2
  refine Reachable.induct (P := fun s => Led c s ∧ VInv c s ∧ Shape s ∧ Backed c s) ?_ ?_ ?_ h
  · intro s hi
    refine ⟨Led.initial hi, VInv.initial hi, hi.shape, fun ch => ?_⟩
    have e1 : s.vouchersOf ch = 0 := by unfold State.vouchersOf; rw [hi.vouchers]; rfl
    have e2 : s.retryOf IBC ch = 0 := by unfold State.retryOf; rw [hi.retry]; rfl
    have e3 : s.balance (c.escrowAddr ch) = 0 := by unfold State.balance; rw [hi.bal]; rfl
    omega
  · rintro s env m ⟨h1, h2, h3, h4⟩ hm
    exact ⟨h1.step hc hm, h2.step hc h1 hm, (Shape.exec c env m).step h3, h4.step hc h1 h2 h3.recipients hm⟩
  · rintro s s' ⟨h1, h2, h3, h4⟩ hu
    refine ⟨h1.upgrade hu, h2.upgrade hu, h3.upgrade hu, ?_⟩
    obtain ⟨⟨_, _, _, _, _, _, _, _, _, rfl⟩, _⟩ := hu
    exact h4

end Dollar
