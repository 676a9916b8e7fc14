import Verif.Model.Checked
import Verif.Lemmas.Near
import Verif.Props.C70

/-
C71: no message changes a principal by more than the supply; principals, amounts and products stay
far below the 256 bits of the chain's integers.
-/
set_option maxRecDepth 100000
namespace Dollar
open MM Spec

/-- No principal differs by more than `B`. -/
def Near (B : Int) (s s' : State) : Prop :=
  ∀ x, s.principalOf x - B ≤ s'.principalOf x ∧ s'.principalOf x ≤ s.principalOf x + B

theorem Near.of_eq {B : Int} {s s' : State} (hB : 0 ≤ B) (h : s'.principal = s.principal := by rfl) :
    Near B s s' := fun x => by unfold State.principalOf; rw [h]; omega

theorem Near.to {B : Int} {s s' s2 : State} (hs : Near B s s') (h : s2.principal = s'.principal := by rfl) :
    Near B s s2 := fun x => by
  have := hs x
  unfold State.principalOf at *
  rw [h]; exact this

theorem Moved.nearB {c : Cfg} {s s' : State} {a b : Addr} {v B : Int} (h : Moved c s a b v s') (h0 : 0 ≤ v)
    (hi : SCALE ≤ s.index) (hB : v ≤ B) : Near B s s' := fun x => by
  have := h.near h0 hi x
  omega

/-- Seen from a state with principals `q` in which `u` has the balance `b`: no principal has changed
by more than `u` has received. -/
structure Got (u : Addr) (b : Int) (q : Addr → Int) (s : State) : Prop where
  index : SCALE ≤ s.index
  bal : b ≤ s.balance u
  near : ∀ x, q x - (s.balance u - b) ≤ s.principalOf x ∧ s.principalOf x ≤ q x + (s.balance u - b)

namespace Got
variable {c : Cfg} {u : Addr} {b : Int} {q : Addr → Int} {s s' : State} {x y : Addr} {v : Int}

theorem congr (h : Got u b q s) (e : owedF s' = owedF s := by rfl) : Got u b q s' := by
  simp only [owedF, Prod.mk.injEq] at e
  obtain ⟨e1, e2, e3⟩ := e
  have hb : s'.balance u = s.balance u := by unfold State.balance; rw [e2]
  refine ⟨e1 ▸ h.index, hb ▸ h.bal, fun x => ?_⟩
  have hp : s'.principalOf x = s.principalOf x := by unfold State.principalOf; rw [e3]
  rw [hb, hp]; exact h.near x

theorem paid (h : Got u b q s) (hm : Moved c s x u v s') (h0 : 0 ≤ v) (hx : x ≠ u) : Got u b q s' := by
  have hb := hm.bal u
  rw [if_neg hx.symm, if_pos rfl] at hb
  have hi : s'.index = s.index := hm.index
  have := h.bal
  refine ⟨hi ▸ h.index, by omega, fun z => ?_⟩
  have := hm.near h0 h.index z
  have := h.near z
  omega

theorem claimed (h : Got u b q s) (hm : Moved c s c.yieldAddr y v s') (hu : u ≠ c.yieldAddr) (hy : y ≠ u) :
    Got u b q s' := by
  have hb := hm.bal u
  rw [if_neg hu, if_neg hy.symm] at hb
  have hi : s'.index = s.index := hm.index
  have := h.bal
  refine ⟨hi ▸ h.index, by omega, fun z => ?_⟩
  have hp : s'.principalOf z = s.principalOf z := by
    unfold State.principalOf; rw [(hm.skip (.inl rfl)).1]
  have := h.near z
  omega

end Got

theorem OneOk.got {c : Cfg} (hc : c.WF) {signer : String} {u : Addr} {v : Int} {p : PosEntry}
    {amt b : Int} {q : Addr → Int} {s s' : State} (hd : c.decode signer = some u) (hu : c.IsUser u)
    (hpa : p.address = u) (h : OneOk c signer u v p amt s s') (hs : Got u b q s) : Got u b q s' := by
  have hne : ∀ b w t, acctOf c b w t ≠ u := fun b w t => (hu.ne_acct _ _ _).symm
  cases h with
  | staked m hv ha hm e =>
    rw [posAddr_eq hc hd] at hm
    subst e
    exact (hs.paid hm ha (hne _ _ _)).congr
  | flexible s1 m3 m4 owed y hv hr hy h3 hn h4 e =>
    rw [posAddr_eq hc hd] at h3 h4 hy
    subst e
    have q1 : Got u b q s1 := by
      rcases hr.run with ⟨_, _, rfl⟩ | ⟨_, _, _, m, hm, rfl⟩
      · exact hs.congr
      · rw [hpa] at hm
        exact (Got.paid (s := { { s with totalFlexible := s.totalFlexible - roundedDown amt p.index } with
            rewards := rewardsAfter s.rewards p.index s.index (roundedDown amt p.index) }) hs.congr hm
            hr.nonneg hu.ne_flexible.symm).congr
    have q2 : Got u b q m3 := Got.claimed (s := { s1 with vstats := { s1.vstats with
      flexDistributed := s1.vstats.flexDistributed + owed } }) q1.congr h3 hu.ne_yield (hne _ _ _)
    exact (q2.paid h4 hn (hne _ _ _)).congr

theorem LoopOk.got {c : Cfg} (hc : c.WF) {signer : String} {u : Addr} {v : Int} {l : List PosEntry}
    {rem removed rem' removed' b : Int} {q : Addr → Int} {s s' : State} (hd : c.decode signer = some u)
    (hu : c.IsUser u) (hpa : ∀ p ∈ l, p.address = u)
    (h : LoopOk c signer u v l rem removed s rem' removed' s') (hs : Got u b q s) :
    Got u b q s' := by
  induction h with
  | nil => exact hs
  | stop => exact hs
  | step p t rem removed s m rem' removed' s' hne _ h1 _ ih => 
    exact ih (fun p hp => hpa p (List.mem_cons_of_mem _ hp)) (h1.got hc hd hu (hpa p List.mem_cons_self) hs)

theorem outs_up {i : Int} (hi : SCALE ≤ i) (x : Addr) {outs : List (Addr × Int)} (h : ∀ o ∈ outs, 0 < o.2) :
    0 ≤ (outs.map fun o => if o.1 = x then roundedUp o.2 i else 0).sum ∧
    (outs.map fun o => if o.1 = x then roundedUp o.2 i else 0).sum ≤ (outs.map fun o => roundedUp o.2 i).sum ∧
    (outs.map fun o => roundedUp o.2 i).sum ≤ (outs.map Prod.snd).sum := by
  induction outs with
  | nil => simp
  | cons o t ih =>
    have := ih fun o ho => h o (List.mem_cons_of_mem _ ho)
    have h0 := h o List.mem_cons_self
    have h1 := up_le_self h0.le hi
    have h2 := roundedUp_nonneg h0.le (lt_of_lt_of_le (by decide) hi)
    simp only [List.map_cons, List.sum_cons]
    split <;> omega

/-- Every message, on success. -/
theorem exec_near {c : Cfg} (hc : c.WF) {env : Env} {m : Msg} {s s' : State} (hr : Reachable c s)
    (hr' : Reachable c s') (hm : m.SignedByUser c) (hi : SCALE ≤ s.index) (h : exec c env m s = .ok () s') :
    Near (max s.supply s'.supply) s s' := by
  have hl := hr.led hc
  have h00 : 0 ≤ max s.supply s'.supply := (hr.supply_nonneg hc).trans (le_max_left _ _)
  have hle : s.supply ≤ max s.supply s'.supply := le_max_left _ _
  have hle' : s'.supply ≤ max s.supply s'.supply := le_max_right _ _
  generalize max s.supply s'.supply = B at *
  have hbal : ∀ x, s.balance x ≤ B := fun x => (C04_balance_le_supply hc hr x).trans hle
  have hbal' : ∀ x, s'.balance x ≤ B := fun x => (C04_balance_le_supply hc hr' x).trans hle'
  have move : ∀ {x y : Addr} {v : Int} {t t' : State}, t.principal = s.principal → t.bal = s.bal →
      t.index = s.index → Moved c t x y v t' → 0 ≤ v → Near B s t' := by
    intro x y v t t' e1 e2 e3 hmv h0
    have hv : v ≤ B := by
      rcases hmv.enough with h | h
      · omega
      · have : t.balance x = s.balance x := by unfold State.balance; rw [e2]
        have := hbal x
        omega
    intro z
    have := hmv.nearB h0 (e3 ▸ hi) hv z
    rwa [show t.principalOf z = s.principalOf z by unfold State.principalOf; rw [e1]] at this
  have packet : ∀ p b, packetFailed c p b s = .ok () s' → Near B s s' := by
    intro p b h
    obtain ⟨hin, _, m1, hmv, rfl⟩ := packetFailed_ok h
    obtain ⟨h0, _⟩ := hl.good.infl p hin
    refine (move ?_ ?_ ?_ hmv h0.le).to <;> split <;> rfl
  cases m with
  | claimYield signer =>
    obtain ⟨_, b, m, hd, hb, hmv, rfl⟩ := claimYield_ok h
    exact (move rfl rfl rfl hmv (claimable_nonneg s b)).to
  | setPaused signer p =>
    obtain ⟨_, rfl⟩ := setPaused_ok h
    exact Near.of_eq h00
  | setYieldRecipient signer p i r =>
    obtain ⟨_, _, rfl⟩ := setYieldRecipient_ok h
    exact Near.of_eq h00
  | deliver vaa =>
    obtain ⟨v, sA, _, _, rfl, hA, hR, hd⟩ := deliver_did hc hl h
    generalize hq : content env vaa = q at hd
    have hup0 : ∀ i ar, wp (updateIndex c env i) { s with archive := ar } (fun _ s1 => Near s1.supply s s1)
        fun _ s1 => Near s1.supply s s1 := fun i ar =>
      Paid.updateIndex hc env (s := { s with archive := ar }) hl.good.congr
        (C04_balance_le_supply hc hr c.yieldAddr) hi
    cases hd with
    | ignored _ hn _ _ _ _ _ _ e =>
      rw [e]; exact Near.of_eq h00
    | token amount i rcp s1 hup hui hmk =>
      have hmv := hmk.moved
      have h0 := hmk.nonneg
      have e2 : s'.supply = s1.supply + amount := hmv.supply
      have hi1 : SCALE ≤ s1.index := by
        have h5 : s.index ≤ s1.index := by
          rcases hui.issued with ⟨_, h2⟩ | ⟨h1, h2, _⟩
          · exact h2.ge
          · exact h1 ▸ h2.le
        omega
      have h1 : Near s1.supply s s1 := by
        rcases ignore_ok.1 hup with h | ⟨e, h⟩
        · exact (hup0 i _).of_ok h
        · exact (hup0 i _).of_err h
      intro x
      have h2 := h1 x
      have h3 : s1.principalOf x - amount ≤ s'.principalOf x ∧ s'.principalOf x ≤ s1.principalOf x + amount :=
        hmv.near h0 hi1 x
      omega
    | index i m hup e hui _ =>
      have h1 : Near m.supply s m := (hup0 i _).of_ok hup
      have e2 : s'.supply = m.supply := by rw [e]
      intro x
      have := h1 x
      rw [e]
      show _ ≤ m.principalOf x ∧ m.principalOf x ≤ _
      omega
  | transfer signer amt? ch t r =>
    obtain ⟨amt, _, hk⟩ := transfer_ok h
    obtain ⟨peer, sender, m, _, hd, _, _, hb, e⟩ := hk.run
    obtain ⟨m1, hm1, hle, rfl⟩ := hb.mid
    have h1 := move (t := { s with nonce := (s.nonce + 1) % 2 ^ 32 }) rfl rfl rfl hm1 hb.nonneg
    rw [e]
    exact h1.to
  | portalSetPaused signer p =>
    obtain ⟨_, _, rfl⟩ := portalSetPaused_ok h
    exact Near.of_eq h00
  | setPeer signer ch t mg =>
    obtain ⟨_, _, _, _, _, _, _, _, rfl⟩ := setPeer_ok h
    exact Near.of_eq h00
  | setBridgingPath signer ch t b =>
    obtain ⟨_, _, _, _, _, rfl⟩ := setBridgingPath_ok h
    exact Near.of_eq h00
  | transferOwnership signer o =>
    obtain ⟨_, _, _, _, rfl⟩ := transferOwnership_ok h
    exact Near.of_eq h00
  | lock signer v amt? =>
    obtain ⟨amt, b, _, hk⟩ := lock_ok h
    obtain ⟨m, hmv, rfl⟩ := hk.run
    exact (move rfl rfl rfl hmv hk.nonneg).to
  | unlock signer v amt? =>
    obtain ⟨_, _, amt, b, _, hk⟩ := unlock_ok h
    obtain ⟨m, removed, hlp, rfl⟩ := hk.run
    have h1 : Got b (s.balance b) s.principalOf s := ⟨hi, le_refl _, fun x => by omega⟩
    have h2 := hlp.got hc hk.dec (hm b hk.dec) (fun p hp => (positionsOf_mem hp).1) h1
    intro x
    have h3 := h2.near x
    have h4 : m.balance b ≤ B := hbal' b
    have h5 := hl.good.bal b
    show _ ≤ m.principalOf x ∧ m.principalOf x ≤ _
    omega
  | vaultsSetPaused signer p =>
    obtain ⟨_, _, _, rfl⟩ := vaultsSetPaused_ok h
    exact Near.of_eq h00
  | bankSend x b amt =>
    obtain ⟨h0, hb, hmv⟩ := bankSend_ok h
    exact move rfl rfl rfl hmv h0.le
  | keeperSend x b amt =>
    obtain ⟨h0, hmv⟩ := keeperSend_ok h
    exact move rfl rfl rfl hmv h0
  | bankMultiSend x outs =>
    have hx : c.IsUser x := hm
    have mm := bankMultiSend_ok hc hx.ne_yield hx.ne_module hl.good.index.ne'
      (show bankMultiSend c x outs s = .ok () s' from h)
    intro z
    have h1 := outs_up hi z mm.pos
    have h2 := mm.enough
    have h3 := hbal x
    rw [mm.prinEq z]
    split <;> omega
  | ibcTransfer x ch r amt =>
    obtain ⟨h0, _, m, hmv, rfl⟩ := userIbcTransfer_ok h
    exact (move rfl rfl rfl hmv h0.le).to
  | ibcReceive ch r amt =>
    obtain ⟨h0, _, hb, m, hmv, rfl⟩ := ibcReceive_ok h
    exact (move rfl rfl rfl hmv h0.le).to
  | ibcTimeout p => exact packet p true h
  | ibcAckError p => exact packet p false h
  | ibcAckSuccess p =>
    obtain ⟨_, rfl⟩ := packetAcked_ok h
    exact Near.of_eq h00
  | warpCreate t =>
    have h : warpCreate t s = .ok () s' := h
    unfold warpCreate at h
    have h := modify_ok.1 h
    subst h
    split <;> exact Near.of_eq h00
  | warpTransfer x t d r amt =>
    obtain ⟨h0, col, m, hcol, hmv, rfl⟩ := warpSend_ok h
    exact (move rfl rfl rfl hmv h0.le).to
  | warpReceive t x amt =>
    obtain ⟨h0, hb, col, hcol, hle, hmv⟩ := warpReceive_ok h
    exact move (t := { s with collateral := s.collateral.set t (col - amt) }) rfl rfl rfl hmv h0.le

/-- No message changes the principal of any account by more than the supply before or after it (at an
index of at least one, which every chain started from the default genesis has). -/
theorem C71_step {c : Cfg} (hc : c.WF) {s : State} (hr : Reachable c s) (hi : 10 ^ 12 ≤ s.index) (env : Env)
    {m : Msg} (hm : m.SignedByUser c) (x : Addr) :
    let s' := step c env m s
    |s'.principalOf x - s.principalOf x| ≤ max s.supply s'.supply := by
  intro s'
  have h0 := hr.supply_nonneg hc
  have hr' : Reachable c s' := hr.step hm
  have key : Near (max s.supply s'.supply) s s' := by
    cases hx : exec c env m s with
    | ok u t =>
      have e : s' = t := by show step c env m s = t; unfold step runTx; rw [hx]
      rw [e] at hr' ⊢
      exact exec_near hc hr hr' hm hi hx
    | err e t =>
      have e : s' = s := by show step c env m s = s; unfold step runTx; rw [hx]
      rw [e]
      exact Near.of_eq (h0.trans (le_max_left _ _))
    | panic =>
      have e : s' = s := by show step c env m s = s; unfold step runTx; rw [hx]
      rw [e]
      exact Near.of_eq (h0.trans (le_max_left _ _))
  have := key x
  rw [abs_le]
  omega

/-- No message changes the total principal by more than the supply before or after it. -/
theorem C71_step_total {c : Cfg} (hc : c.WF) {s : State} (hr : Reachable c s) (hi : 10 ^ 12 ≤ s.index)
    (env : Env) {m : Msg} (hm : m.SignedByUser c) :
    let s' := step c env m s
    |s'.totalPrincipal - s.totalPrincipal| ≤ max s.supply s'.supply := by
  intro s'
  have h0 := hr.supply_nonneg hc
  have hr' : Reachable c s' := hr.step hm
  have same : s'.totalPrincipal = s.totalPrincipal →
      |s'.totalPrincipal - s.totalPrincipal| ≤ max s.supply s'.supply := fun e => by
    rw [e, sub_self, abs_zero]
    exact h0.trans (le_max_left _ _)
  cases hx : exec c env m s with
  | err e t => exact same (by show (step c env m s).totalPrincipal = _; unfold step runTx; rw [hx])
  | panic => exact same (by show (step c env m s).totalPrincipal = _; unfold step runTx; rw [hx])
  | ok u t =>
  have e : s' = t := by show step c env m s = t; unfold step runTx; rw [hx]
  rw [e] at hr' same ⊢
  have hl := hr.led hc
  have hi0 : 0 < s.index := hr.index_pos hc
  cases hq : m.isPortal with
  | false => exact same (exec_quiet hc hl hm hq hx).2.totalPrincipal
  | true =>
    cases m with
    | transfer signer amt? ch tk r =>
      obtain ⟨amt, _, hk⟩ := transfer_ok hx
      obtain ⟨peer, sender, m, _, hd, _, _, hb, e⟩ := hk.run
      have hu : c.IsUser sender := hm sender hd
      obtain ⟨m1, hm1, hle, rfl⟩ := hb.mid
      have h0 := hb.nonneg
      have e3 : t.totalPrincipal = m1.totalPrincipal := by rw [e]; rfl
      by_cases hz : amt = 0
      · exact same (by rw [e3, hm1.zero hz])
      have hen : amt ≤ s.balance sender := by
        rcases hm1.enough with h | h
        · exact absurd h hz
        · exact h
      have hsup := C04_balance_le_supply hc hr sender
      have ht := hm1.total hz hu.ne_yield hc.yield_ne_module.symm
      rw [if_neg hu.ne_module, if_pos rfl] at ht
      change m1.totalPrincipal = s.totalPrincipal + 0 - roundedUp amt s.index at ht
      have h1 : 0 ≤ roundedUp amt s.index := roundedUp_nonneg h0 hi0
      have h2 : roundedUp amt s.index ≤ amt := up_le_self h0 hi
      have := le_max_left s.supply t.supply
      rw [e3, ht, abs_le]
      omega
    | deliver vaa =>
      obtain ⟨v, sA, _, _, rfl, hA, hR, hd⟩ := deliver_did hc hl hx
      generalize content env vaa = q at hd
      cases hd with
      | ignored _ hn h1 h2 h3 h4 _ _ e => exact same h4
      | token amount i rcp s1 hup hui hmk =>
        have hmv := hmk.moved
        have h0 := hmk.nonneg
        have e2 : t.supply = s1.supply + amount := hmv.supply
        have hs1 : s.supply ≤ s1.supply := hui.supply_mono
        have ht1 : s1.totalPrincipal = s.totalPrincipal := hui.totalPrincipal
        have hi1 : SCALE ≤ s1.index := by
          have h5 : s.index ≤ s1.index := by
            rcases hui.issued with ⟨_, h2⟩ | ⟨h1, h2, _⟩
            · exact h2.ge
            · exact h1 ▸ h2.le
          exact le_trans hi h5
        by_cases hz : (amount : Int) = 0
        · have e4 : t.totalPrincipal = s1.totalPrincipal := (congrArg State.totalPrincipal (hmv.zero hz) :)
          exact same (e4.trans ht1)
        by_cases hry : rcp = c.yieldAddr
        · have e4 : t.totalPrincipal = s1.totalPrincipal := (hmv.skip (Or.inr hry)).2.1
          exact same (e4.trans ht1)
        have ht := hmv.total hz hc.yield_ne_module.symm hry
        rw [if_pos rfl, if_neg (hmk.ne_module hc)] at ht
        change t.totalPrincipal = s1.totalPrincipal + roundedUp amount s1.index - 0 at ht
        have h1 : 0 ≤ roundedUp amount s1.index := roundedUp_nonneg h0 (lt_of_lt_of_le (by decide) hi1)
        have h2 : roundedUp amount s1.index ≤ amount := up_le_self h0 hi1
        have := le_max_right s.supply t.supply
        rw [ht, ht1, abs_le]
        have := hr.supply_nonneg hc
        omega
      | index i m hup e hui _ => exact same (by rw [e]; exact hui.totalPrincipal)
    | _ => cases hq

theorem deliveries_append (c : Cfg) (t r : History) (s : State) :
    deliveries c (t ++ r) s = deliveries c t s + deliveries c r (run c t s) := by
  induction t generalizing s with
  | nil => show _ = 0 + _; rw [Nat.zero_add]; rfl
  | cons e t ih =>
    obtain ⟨env, m⟩ := e
    show (if (exec c env m s).isOk ∧ deliveredBy env m ≠ 0 then 1 else 0) + deliveries c (t ++ r) (step c env m s) =
      (if (exec c env m s).isOk ∧ deliveredBy env m ≠ 0 then 1 else 0) + deliveries c t (step c env m s) +
        deliveries c r (run c t (step c env m s))
    rw [ih, Nat.add_assoc]

theorem deliveries_le (c : Cfg) (h : History) (s : State) : deliveries c h s ≤ h.length := by
  induction h generalizing s with
  | nil => exact Nat.le_refl _
  | cons e t ih =>
    obtain ⟨env, m⟩ := e
    have := ih (step c env m s)
    show (if (exec c env m s).isOk ∧ deliveredBy env m ≠ 0 then 1 else 0) + deliveries c t (step c env m s) ≤ t.length + 1
    split <;> omega

/-- After a history with `n` messages and `d` deliveries of tokens, every principal and the total
principal are within `n * d * 2^88` of zero. -/
theorem C71_principal_bounded {c : Cfg} (hc : c.WF) {s0 : State} (h0 : Initial c s0) (hlo : 10 ^ 12 ≤ s0.index)
    (hhi : s0.index < 2 ^ 63) {h : History} (hsig : History.Signed c h) :
    let s := run c h s0
    (∀ x, |s.principalOf x| ≤ 2 ^ 88 * (deliveries c h s0 * h.length : Nat)) ∧
      |s.totalPrincipal| ≤ 2 ^ 88 * (deliveries c h s0 * h.length : Nat) := by
  induction h using List.reverseRecOn with
  | nil =>
    refine ⟨fun x => ?_, ?_⟩
    · show |s0.principalOf x| ≤ _
      unfold State.principalOf; rw [h0.principal]; simp [KV.get?]
    · show |s0.totalPrincipal| ≤ _
      rw [h0.totalPrincipal]; simp
  | append_singleton t e ih =>
    obtain ⟨env, m⟩ := e
    have ht : History.Signed c t := fun e he => hsig e (List.mem_append_left _ he)
    have hm : m.SignedByUser c := hsig (env, m) (List.mem_append_right _ List.mem_cons_self)
    have hr : Reachable c (run c t s0) := .of_run h0 ht
    have hr0 : Reachable c s0 := .fresh h0
    obtain ⟨ih1, ih2⟩ := ih ht
    have a1 := (C70_absolute hc h0 hlo hhi ht).2.2.2.1
    have a2 := (C70_absolute hc h0 hlo hhi hsig).2.2.2.1
    have hi : 10 ^ 12 ≤ (run c t s0).index := hlo.trans (C02_index_monotone hc hr0 t ht)
    have hd := deliveries_append c t [(env, m)] s0
    rw [run_append] at a2 ⊢
    generalize run c t s0 = s at *
    change (step c env m s).supply ≤ _ at a2
    have b1 := C71_step hc hr hi env hm
    have b2 := C71_step_total hc hr hi env hm
    show (∀ x, |(step c env m s).principalOf x| ≤ _) ∧ |(step c env m s).totalPrincipal| ≤ _
    generalize step c env m s = s' at *
    have hlen : (t ++ [(env, m)]).length = t.length + 1 := by simp
    rw [hlen]
    generalize deliveries c (t ++ [(env, m)]) s0 = d' at *
    generalize deliveries c t s0 = d at *
    have hdd : d ≤ d' := by omega
    have hmul : 2 ^ 88 * ((d * t.length : Nat) : Int) + 2 ^ 88 * (d' : Int) ≤
        2 ^ 88 * ((d' * (t.length + 1) : Nat) : Int) := by
      have : d * t.length ≤ d' * t.length := Nat.mul_le_mul_right _ hdd
      have e : d' * (t.length + 1) = d' * t.length + d' := by ring
      rw [e]
      push_cast at *
      have h3 : (d : Int) * t.length ≤ d' * t.length := by exact_mod_cast this
      omega
    have hmax : max s.supply s'.supply ≤ 2 ^ 88 * (d' : Int) := max_le (by omega) a2
    have tri : ∀ p p' : Int, |p' - p| ≤ max s.supply s'.supply → |p| ≤ 2 ^ 88 * ((d * t.length : Nat) : Int) →
        |p'| ≤ 2 ^ 88 * ((d' * (t.length + 1) : Nat) : Int) := by
      intro p p' h1 h2
      have h1 := h1.trans hmax
      rw [abs_le] at h1 h2 ⊢
      omega
    exact ⟨fun x => tri _ _ (b1 x) (ih1 x), tri _ _ b2 ih2⟩

/-! ## 256-bit integers -/

namespace Checked

theorem fit_some {n : Int} (h : |n| < 2 ^ 256) : fit n = some n := by
  unfold fit
  rw [if_pos]
  rw [abs_lt] at h
  omega

theorem quo_some {a b : Int} (h : 0 < b) : quo a b = some (a.tdiv b) := by
  unfold quo
  rw [if_neg (by omega)]

theorem principalUp_some {a i : Int} (h0 : 0 ≤ a) (ha : a < 2 ^ 192) (hi : 0 < i) (hi' : i < 2 ^ 63) :
    principalUp a i = some (roundedUp a i) := by
  have hS : SCALE = 1000000000000 := rfl
  have e1 : mul a SCALE = some (a * SCALE) := fit_some (by rw [abs_lt, hS]; omega)
  have e2 : add (a * SCALE) i = some (a * SCALE + i) := fit_some (by rw [abs_lt, hS]; omega)
  have e3 : sub (a * SCALE + i) 1 = some (a * SCALE + i - 1) := fit_some (by rw [abs_lt, hS]; omega)
  unfold principalUp
  rw [e1, Option.bind_eq_bind, Option.bind_some, e2, Option.bind_some, e3, Option.bind_some, quo_some hi]
  rfl

theorem principalDown_some {a i : Int} (h0 : 0 ≤ a) (ha : a < 2 ^ 192) (hi : 0 < i) :
    principalDown a i = some (roundedDown a i) := by
  have hS : SCALE = 1000000000000 := rfl
  have e1 : mul a SCALE = some (a * SCALE) := fit_some (by rw [abs_lt, hS]; omega)
  unfold principalDown
  rw [e1, Option.bind_eq_bind, Option.bind_some, quo_some hi]
  rfl

theorem present_some {p i : Int} (hp : |p| < 2 ^ 192) (hi : 0 ≤ i) (hi' : i < 2 ^ 63) :
    Checked.present p i = some (Dollar.present p i) := by
  have e1 : mul p i = some (p * i) := by
    refine fit_some ?_
    rw [abs_mul, abs_of_nonneg hi]
    have h1 : |p| * i ≤ 2 ^ 192 * i := mul_le_mul_of_nonneg_right hp.le hi
    omega
  unfold Checked.present
  rw [e1, Option.bind_eq_bind, Option.bind_some, quo_some (by decide)]
  rfl

end Checked

/-- In the first 2^40 messages of a chain that starts at a 64-bit index of at least 10^12, none of
the conversions of keeper/math.go overflows: the value of every account's principal at the current
index, the value of the total principal at any 64-bit index (what an index update computes), and
the principal for any amount up to the supply plus one delivery, at any 64-bit index. -/
theorem C71_no_overflow {c : Cfg} (hc : c.WF) {s0 : State} (h0 : Initial c s0) (hlo : 10 ^ 12 ≤ s0.index)
    (hhi : s0.index < 2 ^ 63) {h : History} (hsig : History.Signed c h) (hlen : h.length ≤ 2 ^ 40) :
    let s := run c h s0
    (∀ x, Checked.present (s.principalOf x) s.index = some (present (s.principalOf x) s.index)) ∧
    (∀ i, 0 ≤ i → i < 2 ^ 63 → Checked.present s.totalPrincipal i = some (present s.totalPrincipal i)) ∧
    (∀ a i, 0 ≤ a → a ≤ s.supply + 2 ^ 64 → 0 < i → i < 2 ^ 63 →
      Checked.principalUp a i = some (roundedUp a i) ∧ Checked.principalDown a i = some (roundedDown a i)) := by
  intro s
  obtain ⟨h1, h2⟩ := C71_principal_bounded hc h0 hlo hhi hsig
  obtain ⟨hidx, _, _, hsup, _⟩ := C70_absolute hc h0 hlo hhi hsig
  have hr : Reachable c s := .of_run h0 hsig
  have hi0 := hr.index_pos hc
  have hdl : deliveries c h s0 ≤ h.length := deliveries_le c h s0
  have hprod : deliveries c h s0 * h.length ≤ 2 ^ 40 * 2 ^ 40 := Nat.mul_le_mul (hdl.trans hlen) hlen
  have small : ∀ p : Int, |p| ≤ 2 ^ 88 * (deliveries c h s0 * h.length : Nat) → |p| < 2 ^ 192 := by
    intro p hp
    generalize deliveries c h s0 * h.length = n at *
    omega
  refine ⟨fun x => Checked.present_some (small _ (h1 x)) hi0.le hidx,
    fun i hi hi' => Checked.present_some (small _ h2) hi hi', fun a i ha hle hi hi' => ?_⟩
  have ha' : a < 2 ^ 192 := by
    change s.supply ≤ _ at hsup
    omega
  exact ⟨Checked.principalUp_some ha ha' hi hi', Checked.principalDown_some ha ha' hi⟩

/-- What the checked conversions refuse: they overflow exactly when the product with the scale or with the
index needs more than 256 bits (or, rounding up, when adding the index to it does). -/
theorem C71_overflow_iff (a i : Int) :
    (Checked.present a i = none ↔ 2 ^ 256 ≤ |a * i|) ∧
    (0 < i → (Checked.principalDown a i = none ↔ 2 ^ 256 ≤ |a * 10 ^ 12|)) ∧
    (0 ≤ a → 0 < i → (Checked.principalUp a i = none ↔ 2 ^ 256 ≤ a * 10 ^ 12 + i)) := by
  have fit : ∀ n : Int, Checked.fit n = if |n| < 2 ^ 256 then some n else none := by
    intro n
    unfold Checked.fit
    refine if_congr ?_ rfl rfl
    rw [Int.abs_eq_natAbs]
    exact ⟨fun h => by exact_mod_cast h, fun h => by exact_mod_cast h⟩
  have hS : SCALE = 10 ^ 12 := rfl
  refine ⟨?_, fun hi => ?_, fun ha hi => ?_⟩
  · unfold Checked.present Checked.mul Checked.quo
    rw [fit]
    by_cases h : |a * i| < 2 ^ 256
    · rw [if_pos h]
      simp only [Option.bind_eq_bind, Option.bind_some]
      rw [if_neg (by decide)]
      exact iff_of_false (by simp) (not_le.2 h)
    · rw [if_neg h]
      exact iff_of_true rfl (not_lt.1 h)
  · unfold Checked.principalDown Checked.mul Checked.quo
    rw [fit, hS]
    by_cases h : |a * 10 ^ 12| < 2 ^ 256
    · rw [if_pos h]
      simp only [Option.bind_eq_bind, Option.bind_some]
      rw [if_neg (by omega)]
      exact iff_of_false (by simp) (not_le.2 h)
    · rw [if_neg h]
      exact iff_of_true rfl (not_lt.1 h)
  · unfold Checked.principalUp Checked.mul Checked.add Checked.sub Checked.quo
    rw [fit, hS]
    have h0 : 0 ≤ a * 10 ^ 12 := by omega
    rw [abs_of_nonneg h0]
    by_cases h : a * 10 ^ 12 < 2 ^ 256
    · rw [if_pos h]
      simp only [Option.bind_eq_bind, Option.bind_some]
      rw [fit, abs_of_nonneg (by omega)]
      by_cases h2 : a * 10 ^ 12 + i < 2 ^ 256
      · rw [if_pos h2]
        simp only [Option.bind_some]
        rw [fit, abs_of_nonneg (by omega), if_pos (by omega)]
        simp only [Option.bind_some]
        rw [if_neg (by omega)]
        exact iff_of_false (by simp) (not_le.2 h2)
      · rw [if_neg h2]
        exact iff_of_true rfl (not_lt.1 h2)
    · rw [if_neg h]
      exact iff_of_true rfl (by omega)

/-- Non-vacuity: on the demo chain the principal of the flexible vault goes up by 454545 in an index
update that lifts the supply to 16500000, and down again by 208334 in an unlock.  The checked
conversions do overflow on larger numbers. -/
example : Demo.start.index = 10 ^ 12 ∧ Demo.hist2.length = 12 ∧
    (run Demo.cfg (Demo.hist2.take 6) Demo.start).principalOf Demo.cfg.flexibleAddr = 0 ∧
    (run Demo.cfg (Demo.hist2.take 7) Demo.start).principalOf Demo.cfg.flexibleAddr = 454545 ∧
    (run Demo.cfg (Demo.hist2.take 7) Demo.start).supply = 16500000 ∧
    (run Demo.cfg (Demo.hist2.take 10) Demo.start).principalOf Demo.cfg.flexibleAddr = 833333 ∧
    (run Demo.cfg (Demo.hist2.take 11) Demo.start).principalOf Demo.cfg.flexibleAddr = 624999 ∧
    Checked.present (2 ^ 250) (10 ^ 12) = none ∧ Checked.principalUp (2 ^ 230) 1 = none := by decide +kernel

end Dollar
