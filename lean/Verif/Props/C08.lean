import Verif.Lemmas.Deliver
import Verif.Spec.Demo
import Verif.Spec.Views

/-
C08: nobody but the module can fund or spend the yield account.
-/
set_option maxRecDepth 100000
namespace Dollar
open Spec MM

/-- A successful transaction other than a portal delivery never credits the yield account. -/
theorem C08_not_credited {c : Cfg} (hc : c.WF) {s s' : State} (hr : Reachable c s) (env : Env)
    (m : Msg) (hm : m.SignedByUser c) (hd : ∀ vaa, m ≠ .deliver vaa)
    (h : exec c env m s = .ok () s') : s'.balance c.yieldAddr ≤ s.balance c.yieldAddr := by
  have hl := hr.led hc
  by_cases hp : m.isPortal = false
  · exact (exec_quiet hc hl hm hp h).2.yield
  · cases m <;> first | (exact absurd rfl (hd _)) | (exact absurd rfl hp) | skip
    rename_i signer amt? chain token rcp
    obtain ⟨amt, rfl, ht⟩ := transfer_ok (show transfer c env signer amt? chain token rcp s = .ok () s' from h)
    obtain ⟨a, ha⟩ := ht.sender
    have hn := ht.nonneg
    rw [(ht.did ha).bal]
    split <;> omega

/-- The principal recorded for the yield account is the same along every history. -/
theorem C08_principal_constant {c : Cfg} (hc : c.WF) {s : State} (hr : Reachable c s) :
    s.principalOf c.yieldAddr = 0 := by
  suffices h : Led c s ∧ s.principalOf c.yieldAddr = 0 from h.2
  refine Reachable.induct (P := fun s => Led c s ∧ s.principalOf c.yieldAddr = 0) ?_ ?_ ?_ hr
  · intro s hi
    refine ⟨Led.initial hi, ?_⟩
    unfold State.principalOf
    rw [hi.principal]; rfl
  · rintro s env m ⟨hl, h0⟩ hm
    refine ⟨hl.step hc hm, ?_⟩
    rcases step_cases c env m s with h | h
    · rw [h]; exact h0
    · generalize step c env m s = s' at h
      by_cases hp : m.isPortal = false
      · rw [(exec_quiet hc hl hm hp h).2.yprin]; exact h0
      · cases m <;> first | (exact absurd rfl hp) | skip
        · rename_i vaa
          obtain ⟨v, sA, _, _, rfl, _, _, hd⟩ := deliver_did hc hl (show deliver c env vaa s = .ok () s' from h)
          generalize content env vaa = q at hd
          cases hd with
          | ignored _ _ _ _ _ _ _ hp => unfold State.principalOf; rw [hp]; exact h0
          | token amount i r s1 _ hu hmint =>
            have := hmint.moved.yield_prin
            show State.principalOf { s' with events := s1.events } c.yieldAddr = 0
            rw [this]
            exact hu.yprin.trans h0
          | index i m' _ e hu _ =>
            rw [e]; exact hu.yprin.trans h0
        · rename_i signer amt? chain token rcp
          obtain ⟨amt, rfl, ht⟩ := transfer_ok (show transfer c env signer amt? chain token rcp s = .ok () s' from h)
          obtain ⟨a, ha⟩ := ht.sender
          rw [(ht.did ha).yprin]; exact h0
  · rintro s s' ⟨hl, h0⟩ hu
    refine ⟨hl.upgrade hu, ?_⟩
    obtain ⟨⟨_, _, _, _, _, _, _, _, _, rfl⟩, _⟩ := hu
    exact h0

/-- A transfer to the yield account by a user, an escrow account or the bridge account fails and
changes nothing: bank sends, keeper-level sends by other modules, multi-sends, and transfers arriving over IBC or Hyperlane. -/
theorem C08_transfers_to_yield_fail {c : Cfg} (hc : c.WF) {s : State} (hr : Reachable c s) (env : Env)
    (m : Msg) (hm : m.SignedByUser c)
    (hk : (∃ a x, m = .bankSend a c.yieldAddr x) ∨ (∃ a x, m = .keeperSend a c.yieldAddr x) ∨
      (∃ a outs, m = .bankMultiSend a outs ∧ ∃ o ∈ outs, o.1 = c.yieldAddr) ∨
      (∃ ch x, m = .ibcReceive ch c.yieldAddr x) ∨ (∃ t x, m = .warpReceive t c.yieldAddr x)) :
    step c env m s = s := by
  have hl := hr.led hc
  rcases step_cases c env m s with h | h
  · exact h
  generalize step c env m s = s' at h ⊢
  by_cases hkp : ∃ a x, m = .keeperSend a c.yieldAddr x
  · obtain ⟨a, x, rfl⟩ := hkp
    obtain ⟨h0, hv⟩ := keeperSend_ok (show keeperSend c a c.yieldAddr x s = .ok () s' from h)
    have hu : c.IsUser a := hm.1
    by_cases hx : x = 0
    · exact hv.zero hx
    · rcases hv.not_yield hx rfl with e | e
      · exact absurd e hu.ne_yield
      · exact absurd e hu.ne_module
  exfalso
  rcases hk with ⟨a, x, rfl⟩ | hk | ⟨a, outs, rfl, o, ho, hy⟩ | ⟨ch, x, rfl⟩ | ⟨t, x, rfl⟩
  · obtain ⟨h0, _, hv⟩ := bankSend_ok (show bankSend c a c.yieldAddr x s = .ok () s' from h)
    have hu : c.IsUser a := hm
    rcases hv.not_yield (by omega) rfl with e | e
    · exact hu.ne_yield e
    · exact hu.ne_module e
  · exact hkp hk
  · have hu : c.IsUser a := hm
    have := bankMultiSend_ok hc hu.ne_yield hu.ne_module (by have := hl.good.index; omega)
      (show bankMultiSend c a outs s = .ok () s' from h)
    exact this.noYield o ho hy
  · obtain ⟨h0, _, _, q, hv, _⟩ := ibcReceive_ok (show ibcReceive c ch c.yieldAddr x s = .ok () s' from h)
    rcases hv.not_yield (by omega) rfl with e | e
    · exact hc.escrow_ne_yield _ e
    · exact hc.escrow_ne_module _ e
  · obtain ⟨h0, _, q, _, _, hv⟩ := warpReceive_ok (show warpReceive c t c.yieldAddr x s = .ok () s' from h)
    rcases hv.not_yield (by omega) rfl with e | e
    · exact hc.warp_ne_yield e
    · exact hc.warp_ne_module e

/-- The messages that can debit the yield account. -/
def paysYield : Msg → Bool
  | .claimYield _ | .unlock .. | .deliver _ => true
  | _ => false

/-- Every other transaction leaves the balance of the yield account exactly as it is. -/
theorem C08_only_claims_debit {c : Cfg} (hc : c.WF) {s : State} (hr : Reachable c s) (env : Env)
    (m : Msg) (hm : m.SignedByUser c) (hk : paysYield m = false) :
    (step c env m s).balance c.yieldAddr = s.balance c.yieldAddr := by
  have hl := hr.led hc
  have hi : s.index ≠ 0 := by have := hl.good.index; omega
  rcases step_cases c env m s with h | h
  · rw [h]
  generalize step c env m s = s' at h
  have mv : ∀ {s s' : State} {a b : Addr} {x : Int}, Moved c s a b x s' → a ≠ c.yieldAddr →
      a ≠ c.moduleAddr → s'.balance c.yieldAddr = s.balance c.yieldAddr := by
    intro s s' a b x hv h1 h2
    by_cases h0 : x = 0
    · rw [hv.zero h0]
    · refine hv.same (Ne.symm h1) fun e => ?_
      rcases hv.not_yield h0 e.symm with e | e
      · exact h1 e
      · exact h2 e
  cases m with
  | claimYield _ => cases hk
  | unlock _ _ _ => cases hk
  | deliver _ => cases hk
  | setPaused a b => obtain ⟨_, rfl⟩ := setPaused_ok h; rfl
  | setYieldRecipient a b i r => obtain ⟨_, _, rfl⟩ := setYieldRecipient_ok h; rfl
  | transfer signer amt? chain token rcp =>
    obtain ⟨amt, rfl, ht⟩ := transfer_ok (show transfer c env signer amt? chain token rcp s = .ok () s' from h)
    obtain ⟨a, ha⟩ := ht.sender
    have hu : c.IsUser a := hm a ha
    rw [(ht.did ha).bal, if_neg (fun e => hu.ne_yield e.symm)]; omega
  | portalSetPaused a b => obtain ⟨_, _, rfl⟩ := portalSetPaused_ok h; rfl
  | setPeer a b t r => obtain ⟨_, _, _, _, _, _, _, _, rfl⟩ := setPeer_ok h; rfl
  | setBridgingPath a b t r => obtain ⟨_, _, _, _, _, rfl⟩ := setBridgingPath_ok h; rfl
  | transferOwnership a b => obtain ⟨_, _, _, _, rfl⟩ := transferOwnership_ok h; rfl
  | lock signer v amt? =>
    obtain ⟨amt, a, rfl, hl2⟩ := lock_ok (show lock c env signer v amt? s = .ok () s' from h)
    have hu : c.IsUser a := hm a hl2.dec
    obtain ⟨q, hv, rfl⟩ := hl2.run
    exact (mv hv hu.ne_yield hu.ne_module :)
  | vaultsSetPaused a b => obtain ⟨_, _, _, rfl⟩ := vaultsSetPaused_ok h; rfl
  | bankSend a b x =>
    have hu : c.IsUser a := hm
    exact mv (bankSend_ok (show bankSend c a b x s = .ok () s' from h)).2.2 hu.ne_yield hu.ne_module
  | keeperSend a b x =>
    have hu : c.IsUser a := hm.1
    exact mv (keeperSend_ok (show keeperSend c a b x s = .ok () s' from h)).2 hu.ne_yield hu.ne_module
  | bankMultiSend a outs =>
    have hu : c.IsUser a := hm
    have hv := bankMultiSend_ok hc hu.ne_yield hu.ne_module hi
      (show bankMultiSend c a outs s = .ok () s' from h)
    rw [hv.bal, if_neg (fun e => hu.ne_yield e.symm), outTo_eq_zero hv.noYield]; omega
  | ibcTransfer a ch r x =>
    have hu : c.IsUser a := hm
    obtain ⟨_, _, q, hv, rfl⟩ := userIbcTransfer_ok
      (show userIbcTransfer c env a ch r x s = .ok () s' from h)
    exact (mv hv hu.ne_yield hu.ne_module :)
  | ibcReceive ch r x =>
    obtain ⟨h0, _, _, q, hv, rfl⟩ := ibcReceive_ok (show ibcReceive c ch r x s = .ok () s' from h)
    exact (mv hv (hc.escrow_ne_yield _) (hc.escrow_ne_module _) :)
  | ibcTimeout p =>
    obtain ⟨_, _, q, hv, rfl⟩ := packetFailed_ok (show packetFailed c p true s = .ok () s' from h)
    have := mv hv (hc.escrow_ne_yield _) (hc.escrow_ne_module _)
    show q.balance _ = _
    rw [this]; split <;> rfl
  | ibcAckError p =>
    obtain ⟨_, _, q, hv, rfl⟩ := packetFailed_ok (show packetFailed c p false s = .ok () s' from h)
    have := mv hv (hc.escrow_ne_yield _) (hc.escrow_ne_module _)
    show q.balance _ = _
    rw [this]; split <;> rfl
  | ibcAckSuccess p =>
    obtain ⟨_, rfl⟩ := packetAcked_ok (show packetAcked c p s = .ok () s' from h); rfl
  | warpCreate t =>
    have : s' = _ := (modify_ok.1 (show warpCreate t s = .ok () s' from h)).symm
    rw [this]; split <;> rfl
  | warpTransfer a t d r x =>
    have hu : c.IsUser a := hm
    obtain ⟨_, col, q, _, hv, rfl⟩ := warpSend_ok (show warpSend c t d a r x s = .ok () s' from h)
    exact (mv hv hu.ne_yield hu.ne_module :)
  | warpReceive t r x =>
    obtain ⟨_, _, col, _, _, hv⟩ := warpReceive_ok (show warpReceive c t r x s = .ok () s' from h)
    exact (mv hv hc.warp_ne_yield hc.warp_ne_module :)

/-- A delivery changes only the balances of the yield account, the vault accounts, the bridge and
escrow accounts, the collector and (by the delivered amount) the recipient of a token delivery;
no balance except the yield account's shrinks. -/
theorem C08_deliver_accounts {c : Cfg} (hc : c.WF) {s s' : State} (hr : Reachable c s) (env : Env)
    (vaa : Bytes) (h : exec c env (.deliver vaa) s = .ok () s') :
    (∀ x, x ≠ c.yieldAddr → x ≠ c.modAddr "dollar/vaults/staked" →
      x ≠ c.modAddr "dollar/vaults/flexible" → x ≠ c.modAddr "warp" → x ≠ s.collector →
      (∀ ch, x ≠ c.escrow "transfer" ch) →
      (∀ amount i ch tok, content env vaa ≠ some (.token amount i x ch tok)) →
      s'.balance x = s.balance x ∧ s'.principalOf x = s.principalOf x) ∧
    ∀ x, x ≠ c.yieldAddr → x ≠ c.moduleAddr → s.balance x ≤ s'.balance x := by
  obtain ⟨v, sA, _, _, rfl, _, _, hd⟩ := deliver_did hc (hr.led hc) (show deliver c env vaa s = .ok () s' from h)
  have nd : ∀ x, x ≠ c.modAddr "dollar/vaults/staked" →
      x ≠ c.modAddr "dollar/vaults/flexible" → x ≠ c.modAddr "warp" → x ≠ s.collector →
      (∀ ch, x ≠ c.escrow "transfer" ch) → ¬ Dist c s x := by
    rintro x h1 h2 h3 h4 h5 (e | e | e | e | ⟨ch, e⟩)
    · exact h1 e
    · exact h2 e
    · exact h3 e
    · exact h4 e
    · exact h5 ch e
  generalize content env vaa = q at hd
  cases hd with
  | ignored _ _ _ _ _ _ hb hp =>
    have e : ∀ x, s'.balance x = s.balance x := fun x => by unfold State.balance; rw [hb]
    have e' : ∀ x, s'.principalOf x = s.principalOf x := fun x => by unfold State.principalOf; rw [hp]
    exact ⟨fun x _ _ _ _ _ _ _ => ⟨e x, e' x⟩, fun x _ _ => le_of_eq (e x).symm⟩
  | token amount i r s1 _ hu hmint =>
    have hb : ∀ x, s'.balance x = s1.balance x + (if x = r then (amount : Int) else 0) := hmint.bal
    constructor
    · intro x hy h1 h2 h3 h4 h5 h6
      have hx : x ≠ r := fun e => h6 amount i c.chain c.rawToken (by rw [e])
      have hs := hu.same x hy (nd x h1 h2 h3 h4 h5)
      refine ⟨by rw [hb, if_neg hx, hs.1]; exact add_zero _, ?_⟩
      by_cases hm : x = c.moduleAddr
      · subst hm
        have hs2 : s1.principalOf c.moduleAddr = s.principalOf c.moduleAddr := hs.2
        rw [← hs2]
        show State.principalOf { s' with events := s1.events } c.moduleAddr =
          (minted s1 c.moduleAddr amount).principalOf c.moduleAddr
        have hv := hmint.moved
        by_cases h0 : (amount : Int) = 0
        · rw [hv.zero h0]
        by_cases hry : r = c.yieldAddr
        · unfold State.principalOf; rw [(hv.skip (.inr hry)).1]
        rw [hv.prin h0 hc.yield_ne_module.symm hry, if_neg (by simp), if_neg (by tauto)]
        omega
      · have := hmint.moved.prin_same hm hx
        exact Eq.trans this hs.2
    · intro x hy hm
      rw [hb]
      have := hu.mono x hy hm
      have : s.balance x ≤ s1.balance x := this
      split <;> omega
  | index i m' _ e hu _ =>
    rw [e]
    exact ⟨fun x hy h1 h2 h3 h4 h5 _ => hu.same x hy (nd x h1 h2 h3 h4 h5), hu.mono⟩

-- Non-vacuity: a send to the yield account in a reachable state where the sender has funds and
-- where the same send to another account succeeds; the yield account is funded.
example : Reachable Demo.cfg (run Demo.cfg Demo.hist1 Demo.start) ∧
    (run Demo.cfg Demo.hist1 Demo.start).balance Demo.cfg.yieldAddr = 900000 ∧
    (exec Demo.cfg (Demo.env 8) (.bankSend Demo.alice Demo.bob 1000000)
      (run Demo.cfg Demo.hist1 Demo.start)).isOk ∧
    (exec Demo.cfg (Demo.env 8) (.deliver [4]) (run Demo.cfg Demo.hist1 Demo.start)).isOk ∧
    (exec Demo.cfg (Demo.env 8) (.bankSend Demo.alice Demo.cfg.yieldAddr 1000000)
      (run Demo.cfg Demo.hist1 Demo.start)).isOk = false :=
  ⟨Demo.reach1, by decide +kernel, by decide +kernel, by decide +kernel, by decide +kernel⟩

end Dollar
