import Verif.Lemmas.CheckedAll3

/-
The checked handlers agree with the unchecked ones while the numbers are small (C122): the portal, IBC, warp, x/bank and
the vaults.
-/
set_option linter.unusedSimpArgs false
set_option linter.unusedVariables false

namespace Dollar
open MM Spec

namespace Checked.Full

/-- The numbers a message starts with. -/
structure Start (Q : Int) (s : State) : Prop where
  tame : Tame Q (2 ^ 127) 0 s
  tot : s.totalPrincipal ≤ 2 ^ 103
  col : Q ≤ 2 ^ 190

/-- The numbers a delivery ends with. -/
abbrev Done (Q : Int) (s : State) : Prop := Tame (Q + 2 ^ 128) (2 ^ 129) (2 ^ 45) s

variable {c : Cfg} {env : Env} {Q : Int} {s : State}

theorem Start.index_at {i : Int} (h : Start Q s) (hi : i < 2 ^ 63) :
    At s (updateIndex c env i) (Dollar.updateIndex c env i) (fun _ s' => Tame (Q + 2 ^ 128) (2 ^ 128) (2 ^ 44) s')
      (Tame (Q + 2 ^ 128) (2 ^ 128) (2 ^ 44)) :=
  updateIndex_at (Q := Q) (B := 2 ^ 127) (n := 0) (N := 2 ^ 44) (by decide) (by decide) h.tame (by decide) hi h.tot
    (by have := h.col; omega)

theorem up {B n : Int} {t : State} (h : Tame (Q + 2 ^ 128) B n t) (h1 : B ≤ 2 ^ 129) (h2 : n ≤ 2 ^ 45) : Done Q t :=
  (h.widen h1).mono h2

theorem mint_at {a : Addr} {x i : Int} (h : Start Q s) (hi : i < 2 ^ 63) (hx : x < 2 ^ 64) :
    At s (mint c env a x i) (Dollar.mint c env a x i) (fun _ s' => Done Q s') (Done Q) := by
  unfold mint Dollar.mint
  refine .bind (.ignore (h.index_at hi)) fun _ s1 h1 => .newCoin fun h0 => ?_
  refine .bind (mintCoins_at (by decide) h1 h0 (by omega)) fun _ s2 h2 => ?_
  have h2 := h2.widen (C := 2 ^ 129) (by omega)
  exact (sendModule_at (by decide) (by decide) h2 h0 (N := 2 ^ 44) (by decide)).mono
    (fun _ _ h => up h.1 (by decide) (by decide)) fun _ h => up h (by decide) (by decide)

theorem Start.done (h : Start Q s) : Done Q s := up (h.tame.raise (by omega)) (by decide) (by decide)

theorem done_congr {t t' : State} (h : Done Q t) (e : t' = { t with archive := t'.archive, events := t'.events }) : Done Q t' := by
  rw [e]; exact Tame.congr h

theorem handleToken_at (h : Start Q s) (payload : Sl) (ev : EventsPayload) :
    At s (handleToken c env payload ev) (Dollar.handleToken c env payload ev) (fun _ s' => Done Q s') (Done Q) := by
  unfold handleToken Dollar.handleToken
  refine .parse h.done fun p hp => .ite (fun _ => .fail h.done) fun _ => .ite (fun _ => .fail h.done) fun _ => ?_
  obtain ⟨b1, b2⟩ := decodeToken_bounds hp
  refine .bind (mint_at h b2 (by exact_mod_cast b1)) fun _ s1 h1 => ?_
  exact .bind (emit_at h1 (le_refl _)) fun _ s2 h2 => emit_at h2 (le_refl _)

theorem handleIndex_at (h : Start Q s) (payload : Sl) :
    At s (handleIndex c env payload) (Dollar.handleIndex c env payload) (fun _ s' => Done Q s') (Done Q) := by
  unfold handleIndex Dollar.handleIndex
  refine .parse h.done fun p hp => .ite (fun _ => .fail h.done) fun _ => ?_
  exact (h.index_at (decodeIndex_bound hp)).mono (fun _ _ h => up h (by decide) (by decide))
    fun _ h => up h (by decide) (by decide)

theorem handlePayload_at (h : Start Q s) (payload : Sl) (ev : EventsPayload) :
    At s (handlePayload c env payload ev) (Dollar.handlePayload c env payload ev) (fun _ s' => Done Q s') (Done Q) := by
  unfold handlePayload Dollar.handlePayload
  refine .parse h.done fun t ht => ?_
  cases t with
  | unknown => exact .pure h.done
  | token => exact handleToken_at h payload ev
  | index => exact handleIndex_at h payload

theorem deliverPayload_at (h : Start Q s) (peer : Peer) (v : VAA) :
    At s (deliverPayload c env peer v) (Dollar.deliverPayload c env peer v) (fun _ s' => Done Q s') (Done Q) := by
  unfold deliverPayload Dollar.deliverPayload
  refine .parse h.done fun t ht => .ite (fun _ => .fail h.done) fun _ => .ite (fun _ => .fail h.done) fun _ => ?_
  exact .parse h.done fun m hm => handlePayload_at h _ _

theorem deliver_at (h : Start Q s) (vaa : Bytes) :
    At s (deliver c env vaa) (Dollar.deliver c env vaa) (fun _ s' => Done Q s') (Done Q) := by
  unfold deliver Dollar.deliver deliverInner Dollar.deliverInner
  refine .bind (.get (.ite (fun _ => .fail h.done) fun _ => ?_)) fun _ s1 h1 => emit_at h1 (le_refl _)
  refine .bind (J := fun _ s' => Start Q s') (.refl ?_) fun v s1 h1 => ?_
  · unfold verifyVAA
    cases env.verify vaa with
    | none => exact h.done
    | some v =>
      simp only [wp.bind_iff, wp.get_iff]
      split
      · exact h.done
      · exact ⟨h.tame.congr, h.tot, h.col⟩
  · cases s.peers.get? v.emitterChain with
    | none => exact .fail h1.done
    | some peer => exact .ite (fun _ => .fail h1.done) fun _ => deliverPayload_at h1 peer v

/-! ### The portal's way out -/

theorem burn_at {a : Addr} {v : Int} (h : Tame Q (2 ^ 127) 0 s) :
    At s (burn c a v) (Dollar.burn c a v) (fun _ _ => True) (fun _ => True) := by
  unfold burn Dollar.burn
  refine .newCoin fun h0 => .bind ((sendCoins_at (by decide) (by decide) h h0 (N := 0) (by decide)).mono (fun _ _ h => h)
    fun _ _ => trivial) fun _ s1 h1 => ?_
  unfold burnCoins Dollar.burnCoins
  refine .bind (J := fun _ s2 => s2.supply = s1.supply ∧ v ≤ 2 ^ 127) (.refl ?_) fun _ s2 h2 => ?_
  · unfold wp
    rw [subCoins_eq]
    by_cases hv : s1.balance c.moduleAddr < v
    · rw [if_pos hv]; trivial
    · rw [if_neg hv]
      have := h1.1.bal_le c.moduleAddr
      exact ⟨rfl, by omega⟩
  · have := h1.1.sup
    exact .get_left (.lift (sub_small (by omega) (by omega)) (.modify' (by rfl) trivial))

theorem transfer_at (h : Tame Q (2 ^ 127) 0 s) (signer : String) (amount? : Option Int) (chain : Nat)
    (token recipient : Bytes) :
    At s (transfer c env signer amount? chain token recipient) (Dollar.transfer c env signer amount? chain token recipient)
      (fun _ _ => True) (fun _ => True) := by
  unfold transfer Dollar.transfer
  refine .get (.ite (fun _ => .any) fun _ => ?_)
  cases s.peers.get? chain with
  | none => exact .any
  | some peer =>
    refine .ite (fun _ => .any) fun _ => .ite (fun _ => .any) fun _ => ?_
    cases amount? with
    | none => exact .any
    | some amount =>
      refine .ite (fun _ => .any) fun _ => ?_
      unfold transferSend Dollar.transferSend
      refine .get ?_
      cases c.decode signer with
      | none => exact .any
      | some sender =>
        refine .parse trivial fun raw _ => ?_
        refine .bind (J := fun _ s' => Tame Q (2 ^ 127) 0 s') (.refl ?_) fun nonce s1 h1 => ?_
        · exact h.congr
        · exact .bind (burn_at h1) fun _ _ _ => .any

/-! ### Yield, x/bank and the other modules -/

theorem claim_at (h : Tame Q (2 ^ 127) 0 s) (signer : String) :
    At s (claimYield c signer) (Dollar.claimYield c signer) (fun _ _ => True) (fun _ => True) :=
  (claimYield_at (by decide) (by decide) h (N := 1) (by decide)).mono (fun _ _ _ => trivial) fun _ _ => trivial

theorem send_at {a b : Addr} {v : Int} (h : Tame Q (2 ^ 127) 0 s) (h0 : 0 ≤ v) :
    At s (sendCoins c a b v) (Dollar.sendCoins c a b v) (fun _ _ => True) (fun _ => True) :=
  (sendCoins_at (by decide) (by decide) h h0 (N := 0) (by decide)).mono (fun _ _ _ => trivial) fun _ _ => trivial

theorem bankSend_at {a b : Addr} {v : Int} (h : Tame Q (2 ^ 127) 0 s) :
    At s (bankSend c a b v) (Dollar.bankSend c a b v) (fun _ _ => True) (fun _ => True) :=
  .ite (fun _ => .any) fun _ => .ite (fun _ => .any) fun _ => send_at h (by omega)

theorem keeperSend_at {a b : Addr} {v : Int} (h : Tame Q (2 ^ 127) 0 s) :
    At s (keeperSend c a b v) (Dollar.keeperSend c a b v) (fun _ _ => True) (fun _ => True) :=
  .ite (fun _ => .any) fun _ => send_at h (by omega)

theorem userIbc_at {a : Addr} {ch r : String} {v : Int} (h : Tame Q (2 ^ 127) 0 s) :
    At s (userIbcTransfer c env a ch r v) (Dollar.userIbcTransfer c env a ch r v) (fun _ _ => True) (fun _ => True) :=
  .ite (fun _ => .any) fun _ => (ibcTransfer_at (by decide) (by decide) h (by omega)).mono (fun _ _ _ => trivial)
    fun _ _ => trivial

theorem ibcReceive_at {ch : String} {r : Addr} {v : Int} (h : Tame Q (2 ^ 127) 0 s) :
    At s (ibcReceive c ch r v) (Dollar.ibcReceive c ch r v) (fun _ _ => True) (fun _ => True) := by
  unfold ibcReceive Dollar.ibcReceive
  exact .get (.ite (fun _ => .any) fun _ => .ite (fun _ => .any) fun _ => .bind (send_at h (by omega)) fun _ _ _ => .any)

theorem refund_at {p : IbcOut} {n : Int} (h : Tame Q (2 ^ 127) n s) (hn : n ≤ 2 ^ 45) (h0 : 0 ≤ p.amount) :
    At s (refund c p) (Dollar.refund c p) (fun _ _ => True) (fun _ => True) := by
  unfold refund Dollar.refund
  exact .bind ((sendCoins_at (by decide) hn h h0 (N := n) (by omega)).mono (fun _ _ _ => trivial) fun _ _ => trivial)
    fun _ _ _ => .any

theorem addAmountToRetry_at {p : IbcOut} (h : Tame Q (2 ^ 127) 0 s) (h0 : 0 ≤ p.amount) (h1 : p.amount ≤ 2 ^ 127) :
    At s (addAmountToRetry c "transfer" p.channel (some (packetData c p)))
      (Dollar.addAmountToRetry c "transfer" p.channel (some (packetData c p))) (fun _ s' => Tame Q (2 ^ 127) 1 s')
      (fun _ => True) := by
  unfold addAmountToRetry Dollar.addAmountToRetry
  refine .ite (fun _ => .ite (fun _ => ?_) fun _ => .pure (h.mono (by decide))) fun _ => .pure (h.mono (by decide))
  have e : intOfString (packetData c p).amount = some p.amount := intOfString_toString _
  rw [e]
  have := h.retry IBC p.channel
  exact (incrementRetry_at (N := 1) (by decide) h h0 (by omega)).mono (fun _ _ h => h.1) fun _ _ => trivial

theorem packetFailed_at {p : IbcOut} {b : Bool} (h : Tame Q (2 ^ 127) 0 s) (hp : p ∈ s.inflight → 0 < p.amount)
    (hv : s.vouchersOf p.channel ≤ 2 ^ 127) :
    At s (packetFailed c p) (Dollar.packetFailed c p b) (fun _ _ => True) (fun _ => True) := by
  unfold packetFailed Dollar.packetFailed
  refine .get (.ite (fun _ => .any) fun hin => .ite (fun _ => .any) fun hle => ?_)
  have h0 := hp (not_not.1 hin)
  have key : At s (do addAmountToRetry c "transfer" p.channel (some (packetData c p)); refund c p)
      (do Dollar.addAmountToRetry c "transfer" p.channel (some (packetData c p)); Dollar.refund c p)
      (fun _ _ => True) (fun _ => True) :=
    .bind (addAmountToRetry_at h h0.le (by omega)) fun _ s1 h1 => refund_at h1 (by decide) h0.le
  cases b <;> exact key

theorem warpSend_at {t d : Nat} {a : Addr} {r : Bytes} {v : Int} (h : Start Q s) :
    At s (warpSend c t d a r v) (Dollar.warpSend c t d a r v) (fun _ _ => True) (fun _ => True) := by
  unfold warpSend Dollar.warpSend
  refine .get ?_
  cases hc : s.collateral.get? t with
  | none => exact .any
  | some col =>
    have h1 := h.tame.col t col hc
    have h2 := h.col
    refine .ite (fun _ => .any) fun hv => ?_
    refine .bind ((sendCoins_at (by decide) (by decide) h.tame (by omega) (N := 0) (by decide)).mono
      (fun _ _ h => h) fun _ _ => trivial) fun _ s1 h3 => ?_
    have h4 : v ≤ 2 ^ 127 := by
      rcases h3.2.enough with e | e
      · omega
      · exact e.trans (h.tame.bal_le _)
    exact .lift (add_small (by omega) (by omega)) (.modify' rfl trivial)

theorem warpReceive_at {t : Nat} {a : Addr} {v : Int} (h : Start Q s) :
    At s (warpReceive c t a v) (Dollar.warpReceive c t a v) (fun _ _ => True) (fun _ => True) := by
  unfold warpReceive Dollar.warpReceive
  refine .get ?_
  cases hc : s.collateral.get? t with
  | none => exact .any
  | some col =>
    have h1 := h.tame.col t col hc
    have h2 := h.col
    refine .ite (fun _ => .any) fun hv => .lift (sub_small (by omega) (by omega)) (.modify_bind ?_)
    refine (sendModule_at (Q := Q) (B := 2 ^ 127) (n := 0) (N := 0) (by decide) (by decide) ?_ (by omega) (by decide)).mono
      (fun _ _ _ => trivial) fun _ _ => trivial
    have h' := h.tame
    refine ⟨h'.srt, h'.bal, h'.sum, h'.sup, h'.prin, h'.tot, h'.idx, h'.retry, h'.ext, fun k w hk => ?_, h'.yield, h'.recs⟩
    change (s.collateral.set t (col - v)).get? k = some w at hk
    rw [KV.get?_set] at hk
    split at hk
    · cases hk; omega
    · exact h'.col k w hk

/-! ### A transfer to several accounts -/

theorem multiSendOutputs_eq {a : Addr} (ha : a ≠ c.yieldAddr) (ham : a ≠ c.moduleAddr) (l : List (Addr × Int))
    (hl : ∀ o ∈ l, 0 < o.2) {s : State} (hi : SCALE ≤ s.index) (hi' : s.index < 2 ^ 63) (hb : ∀ x, 0 ≤ s.balance x)
    (hb' : ∀ x, s.balance x + (l.map Prod.snd).sum ≤ 2 ^ 130)
    (hp : ∀ x, -2 ^ 200 + (l.map Prod.snd).sum ≤ s.principalOf x ∧ s.principalOf x + (l.map Prod.snd).sum ≤ 2 ^ 200)
    (ht : -2 ^ 200 + (l.map Prod.snd).sum ≤ s.totalPrincipal ∧ s.totalPrincipal + (l.map Prod.snd).sum ≤ 2 ^ 200) :
    multiSendOutputs c a l s = Dollar.multiSendOutputs c a l s := by
  induction l generalizing s with
  | nil => rfl
  | cons o t ih =>
    obtain ⟨b, v⟩ := o
    have hv : 0 < v := hl _ List.mem_cons_self
    have h0 : 0 ≤ (t.map Prod.snd).sum := List.sum_nonneg fun x hx => by
      obtain ⟨o, ho, rfl⟩ := List.mem_map.1 hx
      exact (hl o (List.mem_cons_of_mem _ ho)).le
    simp only [List.map_cons, List.sum_cons] at hb' hp ht
    have hbb := hb' b
    have hb0 := hb b
    have hi0 : 0 < s.index := lt_of_lt_of_le (by decide) hi
    have u0 := roundedUp_nonneg hv.le hi0
    have u1 := up_le_self hv.le hi
    unfold multiSendOutputs Dollar.multiSendOutputs
    refine bind_at (sendRestriction_eq hv.le (by omega) hi hi' (fun x => by have := hp x; omega) (by omega))
      fun _ s1 h1 => ?_
    have hby : b ≠ c.yieldAddr := by
      intro hby
      unfold Dollar.sendRestriction at h1
      rw [if_neg hv.ne', if_neg ha, if_pos hby, if_neg ham] at h1
      cases h1
    obtain ⟨s1', e1, r⟩ := restrict_spec c a b v s hv.ne' ha hby hi0.ne'
    rw [h1] at e1
    cases e1
    have hbal : ∀ x, s1.balance x = s.balance x := fun x => by
      show ((s1.bal).get? x).getD 0 = _
      rw [r.frame]; rfl
    have hidx : s1.index = s.index := by rw [r.frame]
    refine bind_at ?_ fun _ s2 h2 => ?_
    · unfold addCoins
      rw [bind_apply, get_apply]
      simp only
      rw [lift_bind (add_small (by rw [hbal]; omega) (by rw [hbal]; omega))]
      rfl
    · rw [addCoins_eq] at h2
      cases h2
      refine ih (fun o ho => hl o (List.mem_cons_of_mem _ ho)) (by show SCALE ≤ s1.index; omega)
        (by show s1.index < _; omega) (fun x => ?_) (fun x => ?_) (fun x => ?_) ?_
      · rw [balance_credit, hbal]; have := hb x; split <;> omega
      · rw [balance_credit, hbal]; have := hb' x; split <;> omega
      · show _ ≤ s1.principalOf x ∧ s1.principalOf x + _ ≤ _
        rw [r.prin, if_neg ham]
        have := hp x
        split <;> split <;> omega
      · show _ ≤ s1.totalPrincipal ∧ s1.totalPrincipal + _ ≤ _
        rw [r.total, if_neg ham]
        split <;> omega

theorem bankMultiSend_eq {a : Addr} (ha : a ≠ c.yieldAddr) (ham : a ≠ c.moduleAddr) (l : List (Addr × Int))
    (h : Tame Q (2 ^ 127) 0 s) : bankMultiSend c a l s = Dollar.bankMultiSend c a l s := by
  unfold bankMultiSend Dollar.bankMultiSend
  split
  · rfl
  split
  · rfl
  next hl =>
  split
  · rfl
  have hl : ∀ o ∈ l, 0 < o.2 := fun o ho => by
    by_contra hn
    exact hl (List.any_eq_true.2 ⟨o, ho, by simpa using hn⟩)
  unfold multiSend Dollar.multiSend
  refine bind_at rfl fun _ s1 h1 => ?_
  rw [subCoins_eq] at h1
  split at h1
  · cases h1
  next hv =>
  cases h1
  have h0 : 0 ≤ (l.map Prod.snd).sum := List.sum_nonneg fun x hx => by
    obtain ⟨o, ho, rfl⟩ := List.mem_map.1 hx
    exact (hl o ho).le
  have hle := h.bal_le a
  have h2 := h.debit h0 (not_lt.1 hv)
  have ht := h2.tot
  refine multiSendOutputs_eq ha ham l hl h2.idx.1 h2.idx.2 h2.bal (fun x => ?_) (fun x => ?_) ?_
  · have := h2.bal_le x; omega
  · have := h2.prin x; omega
  · omega

/-! ### The vaults -/

theorem lock_at (h : Tame Q (2 ^ 127) 0 s) (signer : String) (v : Int) (a? : Option Int) :
    At s (lock c env signer v a?) (Checked.lock c env signer v a?) (fun _ _ => True) (fun _ => True) := by
  unfold lock Checked.lock
  refine .get (.ite (fun _ => .any) fun _ => .ite (fun _ => .any) fun _ => ?_)
  cases c.decode signer with
  | none => exact .any
  | some addr =>
    cases a? with
    | none => exact .any
    | some x =>
      refine .ite (fun _ => .any) fun _ => .ite (fun _ => .any) fun _ => .ite (fun _ => .any) fun _ =>
        .ite (fun _ => .any) fun _ => .newCoin fun h0 => .bind (send_at h h0) fun _ _ _ => .any

theorem claimRewards_at {pos : PosEntry} {x n : Int} (h : Tame Q (2 ^ 127) n s) (hn : n ≤ 2 ^ 45) :
    At s (claimRewards c pos x) (Checked.claimRewards c pos x) (fun _ s' => Tame Q (2 ^ 127) (n + 1) s') (fun _ => True) := by
  unfold claimRewards Checked.claimRewards
  refine .get (.ite (fun _ => .pure (h.mono (by omega))) fun _ => .lift_both fun p => .lift_both fun r => .modify_bind ?_)
  refine .newCoin fun h0 => .bind ((sendCoins_at (Q := Q) (B := 2 ^ 127) (n := n) (N := n) (by decide) hn h.congr h0 (le_refl _)).mono
    (fun _ _ h => h.1) fun _ _ => trivial) fun _ s1 h1 => ?_
  exact .bind (J := fun _ s' => Tame Q (2 ^ 127) (n + 1) s') (.modify h1.congr) fun _ s2 h2 => .pure h2

theorem unlockOne_at {signer : String} {addr : Addr} {v : Int} {pos : PosEntry} {rem n : Int} (h : Tame Q (2 ^ 127) n s)
    (hn : n + 3 ≤ 2 ^ 45) :
    At s (unlockOne c signer addr v pos rem) (Checked.unlockOne c signer addr v pos rem)
      (fun _ s' => Tame Q (2 ^ 127) (n + 3) s') (fun _ => True) := by
  unfold unlockOne Checked.unlockOne
  refine .lift_both fun p => ?_
  refine .bind (J := fun _ s' => Tame Q (2 ^ 127) (n + 2) s') ?_ fun x s1 h1 => .newCoin fun h0 => ?_
  · unfold unlockPayout Checked.unlockPayout
    refine .ite (fun _ => ?_) fun _ => .pure (h.mono (by omega))
    unfold unlockFlexible Checked.unlockFlexible
    refine .get (.lift_both fun y => .modify_bind ?_)
    refine .bind (claimRewards_at (Q := Q) (n := n) h.congr (by omega)) fun rw s1 h1 => ?_
    refine .bind (J := fun _ s' => Tame Q (2 ^ 127) (n + 1) s') (.refl ?_) fun _ s2 h2 => ?_
    · unfold incrementDistributed
      simp only [wp.bind_iff, wp.get_iff]
      cases add s1.vstats.flexDistributed rw with
      | none => exact trivial
      | some z => exact h1.congr
    · refine .bind ((claimModuleYield_at (by decide) (by omega) h2 (N := n + 1) (le_refl _)).mono (fun _ _ h => h.1)
        fun _ _ => trivial) fun y s3 h3 => .ite (fun _ => ?_) fun _ => .pure (h3.mono (by omega))
      cases add (amountToRemove pos rem) y with
      | none => exact .crash
      | some z => exact .pure (h3.mono (by omega))
  · refine .bind ((sendCoins_at (by decide) (by omega) h1 h0 (N := n + 2) (le_refl _)).mono (fun _ _ h => h.1)
      fun _ _ => trivial) fun _ s2 h2 => ?_
    refine .bind (J := fun _ s' => Tame Q (2 ^ 127) (n + 3) s') (.refl ?_) fun _ s3 h3 => ?_
    · unfold Checked.updatePosition
      split
      · exact (h2.mono (m := n + 3) (by omega)).congr
      · simp only [wp.bind_iff, wp.get_iff]
        cases sub pos.principal p with
        | none => exact trivial
        | some z =>
          cases sub pos.amount (amountToRemove pos rem) with
          | none => exact trivial
          | some w => exact (h2.mono (m := n + 3) (by omega)).congr
    · exact .bind (J := fun _ s' => Tame Q (2 ^ 127) (n + 3) s') (.modify h3.congr) fun _ s4 h4 => .pure h4

theorem unlockLoop_at {signer : String} {addr : Addr} {v : Int} (l : List PosEntry) {rem rmd n : Int}
    (h : Tame Q (2 ^ 127) n s) (hn : n + 3 * l.length ≤ 2 ^ 45) :
    At s (unlockLoop c signer addr v l rem rmd) (Checked.unlockLoop c signer addr v l rem rmd)
      (fun _ _ => True) (fun _ => True) := by
  induction l generalizing s rem rmd n with
  | nil => exact .any
  | cons pos t ih =>
    rw [List.length_cons] at hn
    push_cast at hn
    unfold unlockLoop Checked.unlockLoop
    refine .ite (fun _ => .any) fun _ => .bind (unlockOne_at h (by omega)) fun r s1 h1 => ?_
    exact .lift_both fun a => .lift_both fun b => ih h1 (by omega)

theorem unlock_at (h : Tame Q (2 ^ 127) 0 s) (signer : String) (v : Int) (a? : Option Int)
    (hl : ∀ a, (positionsOf s a v).length ≤ 2 ^ 39) :
    At s (unlock c signer v a?) (Checked.unlock c signer v a?) (fun _ _ => True) (fun _ => True) := by
  unfold unlock Checked.unlock
  refine .get (.ite (fun _ => .any) fun _ => .ite (fun _ => .any) fun _ => ?_)
  unfold unlockInner Checked.unlockInner
  cases c.decode signer with
  | none => exact .any
  | some addr =>
    cases a? with
    | none => exact .any
    | some x =>
      have := hl addr
      refine .ite (fun _ => .any) fun _ => .ite (fun _ => .any) fun _ => .get (.lift_both fun tot =>
        .ite (fun _ => .any) fun _ => .ite (fun _ => .any) fun _ => ?_)
      exact .bind (unlockLoop_at _ h (by omega)) fun r s1 _ => .any

end Checked.Full
end Dollar
