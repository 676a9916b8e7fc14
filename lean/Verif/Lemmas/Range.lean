import Verif.Lemmas.RangeExt
import Verif.Lemmas.RangeVault
import Verif.Props.C71
import Verif.Props.C34

/-
How far one transaction can move the numbers the module stores (C82).
-/
set_option linter.unusedSimpArgs false

namespace Dollar
open MM Spec

/-- How large the numbers are that the module stores, beside principals: those in vaults, the total yield, and the
yield of external routes. -/
structure NRange (S T : Int) (s : State) : Prop where
  vault : VRange S T s
  yield : 0 ≤ s.totalYield ∧ s.totalYield ≤ T
  ext : ∀ p id, 0 ≤ s.extYieldOf p id ∧ s.extYieldOf p id ≤ T
  retry : ∀ p id, p ≠ IBC → s.retryOf p id ≤ T

theorem UI.index_le {c : Cfg} {s s' : State} {i : Int} (h : UI c s i s') : s.index ≤ s'.index := by
  rcases h.index with e | ⟨e, hl⟩ <;> omega

theorem deliver_vrange {c : Cfg} (hc : c.WF) {env : Env} {vaa : Bytes} {s s' : State} {S T : Int}
    (hl : Led c s) (hb' : ∀ x, s'.balance x ≤ S) (hv : VRange S T s)
    (h : deliver c env vaa s = .ok () s') : VRange S T s' := by
  obtain ⟨v, sA, _, _, rfl, hA, _, hd⟩ := deliver_did hc hl h
  have hvA : VRange S T { s with archive := s.archive ++ [v.digest] } := hv.congr rfl rfl rfl rfl
  generalize content env vaa = q at hd
  cases hd with
  | ignored _ _ _ _ _ _ _ _ e =>
    exact hv.congr (congrArg State.positions e :) (congrArg State.rewards e :) (congrArg State.totalFlexible e :)
      (congrArg State.vstats e :)
  | token amount i rcp s1 _ hu hm =>
    have hbal : s1.balance c.flexibleAddr ≤ s'.balance c.flexibleAddr := by
      have h1 := hm.moved.bal c.flexibleAddr
      rw [minted_balance, if_neg hc.flexible_ne_module] at h1
      have h2 := hm.nonneg
      change s'.balance c.flexibleAddr = _ at h1
      rw [h1]
      split <;> omega
    have h1 := hvA.of_UI hu (hl.good.bal _) (hbal.trans (hb' _))
    exact h1.congr hm.moved.positions hm.moved.rewards hm.moved.totalFlexible hm.moved.vstats
  | index i m _ e hu _ =>
    have eb : s'.bal = m.bal := (congrArg State.bal e :)
    have hbal : m.balance c.flexibleAddr ≤ S := by
      have := hb' c.flexibleAddr; unfold State.balance at *; rw [eb] at this; exact this
    have h1 := hvA.of_UI hu (hl.good.bal _) hbal
    exact h1.congr (congrArg State.positions e :) (congrArg State.rewards e :) (congrArg State.totalFlexible e :)
      (congrArg State.vstats e :)

theorem exec_vrange {c : Cfg} (hc : c.WF) {env : Env} {msg : Msg} {s s' : State} {S T : Int}
    (hr : Reachable c s) (hr' : Reachable c s') (hm : msg.SignedByUser c) (hi : SCALE ≤ s.index)
    (hb : ∀ x, s.balance x ≤ S) (hb' : ∀ x, s'.balance x ≤ S) (hv : VRange S T s)
    (h : exec c env msg s = .ok () s') : VRange S (T + S) s' := by
  have hl := hr.led hc
  have hS : 0 ≤ S := (hl.good.bal c.yieldAddr).trans (hb _)
  have hmono : T ≤ T + S := by omega
  have core : vaultF s' = vaultF s → VRange S (T + S) s' := by
    intro h3
    simp only [vaultF, Prod.mk.injEq] at h3
    exact (hv.congr h3.1 h3.2.2.1 h3.2.1 h3.2.2.2).mono hmono
  by_cases ho : msg.noOther = true
  · exact core (congrArg Prod.fst ((Other.msg c env msg ho).ok h) :)
  have ho : msg.noOther = false := by simpa using ho
  cases msg with
  | lock signer v amt? =>
    obtain ⟨amt, a, _, hk⟩ := lock_ok (show lock c env signer v amt? s = .ok () s' from h)
    exact hv.of_lock hk hi (hb a)
  | unlock signer v amt? =>
    obtain ⟨_, _, amt, a, _, hk⟩ := unlock_ok (show unlock c signer v amt? s = .ok () s' from h)
    exact hv.of_unlock hc (hr.vinv hc).toV0 (hm a hk.dec) hk hS (hb _) ((hr'.led hc).good.bal _)
  | deliver vaa => exact (deliver_vrange hc hl hb' hv h).mono hmono
  | _ =>
    first
    | exact core ((VaultF.route c env _ ho rfl nofun nofun).ok h)
    | exact Bool.noConfusion ho

theorem exec_yield {c : Cfg} (hc : c.WF) {env : Env} {m : Msg} {s s' : State} (hr : Reachable c s)
    (hm : m.SignedByUser c) (h : exec c env m s = .ok () s') :
    s.totalYield ≤ s'.totalYield ∧ s'.totalYield ≤ s.totalYield + s'.supply ∨ s'.totalYield = s.totalYield := by
  have hl := hr.led hc
  have hs0 := hr.supply_nonneg hc
  cases hq : m.isPortal with
  | false => exact .inr (exec_quiet hc hl hm hq h).2.totalYield
  | true =>
    cases m with
    | transfer signer amt? ch tk r =>
      obtain ⟨amt, _, hk⟩ := transfer_ok h
      obtain ⟨peer, sender, m, _, hd, _, _, hb, e⟩ := hk.run
      obtain ⟨m1, hm1, hle, rfl⟩ := hb.mid
      right
      rw [e]
      exact hm1.totalYield
    | deliver vaa =>
      obtain ⟨v, sA, _, _, rfl, hA, hR, hd⟩ := deliver_did hc hl h
      generalize content env vaa = q at hd
      cases hd with
      | ignored _ hn h1 h2 h3 h4 _ _ e => exact .inr h3
      | token amount i rcp s1 hup hui hmk =>
        have hmv := hmk.moved
        have h0 := hmk.nonneg
        have e2 : s'.supply = s1.supply + amount := hmv.supply
        have e3 : s'.totalYield = s1.totalYield := hmv.totalYield
        have e4 : s1.supply - s.supply = s1.totalYield - s.totalYield := hui.yield
        have e5 : s.supply ≤ s1.supply := hui.supply_mono
        left; omega
      | index i m hup e hui _ =>
        have e2 : s'.supply = m.supply := (congrArg State.supply e :)
        have e3 : s'.totalYield = m.totalYield := (congrArg State.totalYield e :)
        have e4 : m.supply - s.supply = m.totalYield - s.totalYield := hui.yield
        have e5 : s.supply ≤ m.supply := hui.supply_mono
        left; omega
    | _ => cases hq

theorem exec_ext {c : Cfg} (hc : c.WF) {env : Env} {msg : Msg} {s s' : State} {S : Int}
    (hr : Reachable c s) (hS : 0 ≤ S) (hb' : ∀ x, s'.balance x ≤ S)
    (h : exec c env msg s = .ok () s') : ExtNear S s s' := by
  have hl := hr.led hc
  by_cases ho : msg.noOther = true
  · exact .of_route hS (congrArg Prod.snd ((Other.msg c env msg ho).ok h) :)
  have ho : msg.noOther = false := by simpa using ho
  have moved : ∀ {x y : Addr} {v : Int} {t t' : State}, Moved c t x y v t' → t.extYield = s.extYield →
      t.retry = s.retry → s'.extYield = t'.extYield → s'.retry = t'.retry → ExtNear S s s' := by
    intro x y v t t' hm e1 e2 e3 e4
    exact .of_eq hS (e3.trans (hm.extYield.trans e1)) (e4.trans (hm.retry.trans e2))
  have packet : ∀ p b, packetFailed c p b s = .ok () s' → ExtNear S s s' := by
    intro p b h
    obtain ⟨hin, _, m, hmv, rfl⟩ := packetFailed_ok h
    refine ⟨fun q id => ?_, fun q id hq => ?_⟩
    · have e : (refunded m p).extYieldOf q id = s.extYieldOf q id := by
        show m.extYieldOf q id = _
        unfold State.extYieldOf
        rw [hmv.extYield]
        split <;> rfl
      rw [e]; omega
    · have e : (refunded m p).retryOf q id = s.retryOf q id := by
        show m.retryOf q id = _
        unfold State.retryOf
        rw [hmv.retry]
        split
        · show ((s.retry.set (IBC, p.channel) _).get? (q, id)).getD 0 = _
          rw [KV.get?_set_ne _ _ (by intro e; exact hq (congrArg Prod.fst e))]
        · rfl
      rw [e]; omega
  have up : ∀ i ar, wp (updateIndex c env i) { s with archive := ar } (fun _ s1 => (∀ x, s1.balance x ≤ S) → ExtNear S s s1)
      fun _ s1 => (∀ x, s1.balance x ≤ S) → ExtNear S s s1 := fun i ar => by
    have := updateIndex_ext hc env i (s := { s with archive := ar }) hl.good.congr (hr.backed hc) hr.shape.recipients
    refine this.mono (fun _ s1 h1 hx => ?_) (fun _ s1 h1 hx => ?_)
    · have h2 := h1.near hc hS hx
      exact ⟨h2.ext, h2.retry⟩
    · have h2 := h1.near hc hS hx
      exact ⟨h2.ext, h2.retry⟩
  cases msg with
  | lock signer v amt? => exact .of_route hS ((RouteF.lock c env signer v amt?).ok h)
  | unlock signer v amt? => exact .of_route hS ((RouteF.unlock c signer v amt?).ok h)
  | deliver vaa =>
    obtain ⟨v, sA, _, _, rfl, hA, hR, hd⟩ := deliver_did hc hl h
    generalize content env vaa = q at hd
    cases hd with
    | ignored _ hn h1 h2 h3 h4 _ _ e => exact .of_eq hS (congrArg State.extYield e :) (congrArg State.retry e :)
    | token amount i rcp s1 hup hui hmk =>
      have hmv := hmk.moved
      have h0 := hmk.nonneg
      have hbal : ∀ x, s1.balance x ≤ S := fun x => by
        have h1 := hmv.bal x
        have h2 := hb' x
        change s'.balance x = _ at h1
        rw [minted_balance] at h1
        split at h1 <;> split at h1 <;> omega
      have h1 : ExtNear S s s1 := by
        rcases ignore_ok.1 hup with h | ⟨e, h⟩
        · exact (up i _).of_ok h hbal
        · exact (up i _).of_err h hbal
      have e1 : s'.extYield = s1.extYield := hmv.extYield
      have e2 : s'.retry = s1.retry := hmv.retry
      refine ⟨fun p id => ?_, fun p id hp => ?_⟩
      · have := h1.ext p id
        unfold State.extYieldOf at *
        rw [e1]; exact this
      · have := h1.retry p id hp
        unfold State.retryOf at *
        rw [e2]; exact this
    | index i m hup e hui _ =>
      have eb : s'.bal = m.bal := (congrArg State.bal e :)
      have h1 : ExtNear S s m := (up i _).of_ok hup fun x => by
        have := hb' x; unfold State.balance at *; rw [eb] at this; exact this
      have e1 : s'.extYield = m.extYield := (congrArg State.extYield e :)
      have e2 : s'.retry = m.retry := (congrArg State.retry e :)
      refine ⟨fun p id => ?_, fun p id hp => ?_⟩
      · have := h1.ext p id
        unfold State.extYieldOf at *
        rw [e1]; exact this
      · have := h1.retry p id hp
        unfold State.retryOf at *
        rw [e2]; exact this
  | ibcTransfer x ch r amt =>
    obtain ⟨h0, _, m, hmv, rfl⟩ := userIbcTransfer_ok h
    exact moved hmv rfl rfl rfl rfl
  | ibcReceive ch r amt =>
    obtain ⟨h0, _, hb, m, hmv, rfl⟩ := ibcReceive_ok h
    exact moved hmv rfl rfl rfl rfl
  | ibcTimeout p => exact packet p true h
  | ibcAckError p => exact packet p false h
  | ibcAckSuccess p =>
    obtain ⟨_, rfl⟩ := packetAcked_ok h
    exact .of_eq hS rfl rfl
  | warpCreate t =>
    have h : warpCreate t s = .ok () s' := h
    unfold warpCreate at h
    have h := modify_ok.1 h
    subst h
    split <;> exact .of_eq hS rfl rfl
  | warpTransfer x t d r amt =>
    obtain ⟨h0, col, m, hcol, hmv, rfl⟩ := warpSend_ok h
    exact moved hmv rfl rfl rfl rfl
  | warpReceive t x amt =>
    obtain ⟨h0, hb, col, hcol, hle, hmv⟩ := warpReceive_ok h
    exact moved hmv rfl rfl rfl rfl
  | _ => exact Bool.noConfusion ho

theorem NRange.mono {S T T' : Int} {s : State} (h : NRange S T s) (ht : T ≤ T') : NRange S T' s :=
  ⟨h.vault.mono ht, ⟨h.yield.1, h.yield.2.trans ht⟩, fun p id => ⟨(h.ext p id).1, (h.ext p id).2.trans ht⟩,
   fun p id hp => (h.retry p id hp).trans ht⟩

theorem NRange.widen {S S' T : Int} {s : State} (h : NRange S T s) (hs : S ≤ S') : NRange S' T s :=
  ⟨⟨fun e he => ⟨(h.vault.pos e he).1, (h.vault.pos e he).2.trans hs⟩,
    fun e he => by have := h.vault.rew e he; exact ⟨this.1, by omega, by omega⟩,
    h.vault.ftot, h.vault.stot, h.vault.dist0, h.vault.dist⟩, h.yield, h.ext, h.retry⟩

theorem NRange.step {c : Cfg} (hc : c.WF) {env : Env} {msg : Msg} {s : State} {S T : Int}
    (hr : Reachable c s) (hm : msg.SignedByUser c) (hi : SCALE ≤ s.index)
    (hs : s.supply ≤ S) (hs' : (Dollar.step c env msg s).supply ≤ S) (hn : NRange S T s) :
    NRange S (T + S) (Dollar.step c env msg s) := by
  have h0 := hr.supply_nonneg hc
  have hr' : Reachable c (Dollar.step c env msg s) := hr.step hm
  have hb : ∀ x, s.balance x ≤ S := fun x => (C04_balance_le_supply hc hr x).trans hs
  have hb' : ∀ x, (Dollar.step c env msg s).balance x ≤ S := fun x => (C04_balance_le_supply hc hr' x).trans hs'
  rcases step_cases c env msg s with h | h
  · rw [h]; exact hn.mono (by omega)
  generalize Dollar.step c env msg s = s' at *
  have h1 := exec_ext hc hr (by omega) hb' h
  refine ⟨exec_vrange hc hr hr' hm hi hb hb' hn.vault h, ?_, fun p id => ?_, fun p id hp => ?_⟩
  · have := hn.yield
    rcases exec_yield hc hr hm h with h | h <;> omega
  · have := h1.ext p id
    have := hn.ext p id
    omega
  · have := h1.retry p id hp
    have := hn.retry p id hp
    omega

end Dollar
