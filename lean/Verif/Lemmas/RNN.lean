import Verif.Lemmas.VPay

/-
Reward records stay non-negative (while positions are below 2*10^18 of principal), hence rewards can
be paid and flexible withdrawals succeed when the yield account can pay.
-/
set_option linter.unusedSimpArgs false

namespace Dollar
open MM Spec

/-- No reward record is negative. -/
def RNN (s : State) : Prop := ∀ e ∈ s.rewards, 0 ≤ e.2.rewards

/-- Flexible positions are small. -/
def PB (s : State) : Prop := ∀ e ∈ s.positions, e.1.2.1 = FLEXIBLE → roundedDown e.2.amount e.2.index < 2 * DEC

/-- A record newer than a flexible position covers the position. -/
theorem V0.covers {c : Cfg} {s : State} (h : V0 c s) {p : PosEntry} (hv : p.vault = FLEXIBLE)
    (hget : s.positions.get? p.key = some p.val) {e : Int × Reward} (he : e ∈ s.rewards)
    (hlt : p.index < e.1) : roundedDown p.amount p.index ≤ e.2.total := by
  have ho := h.entry _ (KV.mem_of_get? hget)
  have h1 := (h.rew e he).2.2
  have h2 := sum_posUpd_below h.sorted hget ho.amount (le_refl _) ho.idx e.1 0
  rw [if_pos ⟨hv, hlt⟩] at h2
  have h3 : 0 ≤ (posUpd s.positions p p.amount 0).sum (below e.1) := by
    refine KV.sum_nonneg fun x hx => ?_
    rcases mem_posUpd hx with hx | ⟨hn, _⟩
    · have hx' := h.entry x hx
      unfold below; split
      · exact down_nonneg hx'.amount hx'.idx
      · exact le_refl _
    · exact absurd (le_refl _) hn
  have h2 : (posUpd s.positions p p.amount 0).sum (below e.1) ≤
    s.positions.sum (below e.1) - roundedDown p.amount p.index := h2
  omega

theorem rnn_after {rs : KV Int Reward} {start cur p : Int} (hp : 0 ≤ p) (hd : p < 2 * DEC)
    (hr : ∀ e ∈ rs, 0 ≤ e.2.rewards) (ht : ∀ e ∈ rs, start < e.1 → p ≤ e.2.total) :
    ∀ e ∈ rewardsAfter rs start cur p, 0 ≤ e.2.rewards := by
  intro e he
  obtain ⟨r, hm, e2⟩ := mem_rewardsAfter he
  rw [e2]
  split
  · next hlt =>
    rw [rewardAfter_rewards]
    have : userReward cur p r ≤ r.rewards := userReward_le (cur := cur) hp (hr _ hm) (ht _ hm hlt) hd
    omega
  · exact hr _ hm

theorem rewardsOwed_le {rs : KV Int Reward} {start cur p : Int} (hp : 0 ≤ p) (hd : p < 2 * DEC)
    (hr : ∀ e ∈ rs, 0 ≤ e.2.rewards) (ht : ∀ e ∈ rs, start < e.1 → p ≤ e.2.total) :
    0 ≤ rewardsOwed rs start cur p ∧ rewardsOwed rs start cur p ≤ rs.sum (fun _ r => r.rewards) := by
  unfold rewardsOwed
  constructor
  · refine KV.sum_nonneg fun e he => ?_
    split
    · exact userReward_nonneg hp
    · exact le_refl _
  · refine KV.sum_le fun e he => ?_
    split
    · next hlt => exact userReward_le hp (hr _ he) (ht _ he hlt) hd
    · exact hr _ he

theorem OneOk.rnn {c : Cfg} {signer : String} {a : Addr} {p : PosEntry}
    {v amt : Int} {s s' : State} (hi : V0 c s) (hr : RNN s) (hb : PB s) (hpv : p.vault = v)
    (hget : s.positions.get? p.key = some p.val) (h0 : 0 ≤ amt) (h1 : amt ≤ p.amount)
    (hk : OneOk c signer a v p amt s s') : RNN s' := by
  cases hk with
  | staked m hv ha hm e =>
    have : s'.rewards = s.rewards := by rw [e]; exact hm.rewards
    unfold RNN; rw [this]; exact hr
  | flexible s1 m3 m4 owed y hv hw hy h3 hn h4 e =>
    have e1 : s'.rewards = s1.rewards := by
      rw [e]; exact h4.rewards.trans h3.rewards
    unfold RNN; rw [e1]
    clear hy h3 h4 e1 e
    rcases hw.run with ⟨_, _, rfl⟩ | ⟨_, _, _, m, hm, rfl⟩
    · exact hr
    · have ho := hi.entry _ (KV.mem_of_get? hget)
      have hle : roundedDown amt p.index ≤ roundedDown p.amount p.index := down_mono h0 h1 ho.idx
      have hb' : roundedDown p.amount p.index < 2 * DEC :=
        hb _ (KV.mem_of_get? hget) (hpv.trans hv)
      have e1 : m.rewards = rewardsAfter s.rewards p.index s.index (roundedDown amt p.index) := hm.rewards
      show ∀ e ∈ m.rewards, _
      rw [e1]
      exact rnn_after (down_nonneg h0 ho.idx) (by omega) hr
        (fun e he hlt => hle.trans (hi.covers (hpv.trans hv) hget he hlt))

theorem PB.posUpd {c : Cfg} {s s' : State} {p : PosEntry} {amt pr : Int} (hi : V0 c s) (hb : PB s)
    (hget : s.positions.get? p.key = some p.val) (h0 : 0 ≤ amt)
    (e : s'.positions = posUpd s.positions p amt pr) : PB s' := by
  intro x hx hv
  rw [e] at hx
  rcases mem_posUpd hx with hx | ⟨_, rfl⟩
  · exact hb x hx hv
  · have ho := hi.entry _ (KV.mem_of_get? hget)
    have hb' : roundedDown p.amount p.index < 2 * DEC := hb _ (KV.mem_of_get? hget) hv
    have : roundedDown (p.amount - amt) p.index ≤ roundedDown p.amount p.index :=
      down_mono (by omega) (by omega) ho.idx
    show roundedDown (p.amount - amt) p.index < _
    omega

theorem LoopOk.rnn {c : Cfg} (hc : c.WF) {signer : String} {a : Addr} {v : Int} {l : List PosEntry}
    {rem removed rem' removed' : Int} {s s' : State} (hd : c.decode signer = some a)
    (hu : c.IsUser a) (hi : V0 c s) (hr : RNN s) (hb : PB s) (hp : Pending s a v l) (h0 : 0 ≤ rem)
    (h : LoopOk c signer a v l rem removed s rem' removed' s') : RNN s' := by
  induction h with
  | nil => exact hr
  | stop => exact hr
  | step p t rem removed s m rem' removed' s' _ _ h1 _ ih =>
    have hget := hp.stored p List.mem_cons_self
    have hpa := hp.addr p List.mem_cons_self
    have hpv := hp.vault p List.mem_cons_self
    have ho := hi.entry _ (KV.mem_of_get? hget)
    obtain ⟨b0, b1, b2⟩ := amountToRemove_bounds (p := p) h0 ho.amount
    obtain ⟨g1, g2, _⟩ := hi.of_one hc hd hu hpa hpv hget b0 b1 h1
    exact ih g1 (h1.rnn hi hr hb hpv hget b0 b1) (hb.posUpd hi hget b0 g2) (hp.tail g2) (by omega)

theorem RNN.of_UI {c : Cfg} {s s' : State} {i : Int} (h : RNN s) (hu : UI c s i s') : RNN s' := by
  rcases hu.rewards with hr | ⟨_, he, hlt, r, hr0, hr, hbal⟩
  · unfold RNN; rw [hr]; exact h
  · intro e hm
    rw [hr] at hm
    rcases KV.mem_set hm with e1 | hm
    · rw [e1]; exact hr0
    · exact h e hm

theorem RNN.of_deliver {c : Cfg} (hc : c.WF) {env : Env} {vaa : Bytes} {s s' : State} (hl : Led c s)
    (hr : RNN s) (h : deliver c env vaa s = .ok () s') : RNN s' := by
  obtain ⟨v, sA, _, _, rfl, hA, _, hd⟩ := deliver_did hc hl h
  have hvA : RNN { s with archive := s.archive ++ [v.digest] } := hr
  generalize content env vaa = q at hd
  cases hd with
  | ignored _ _ _ _ _ _ _ _ e =>
    have e1 : s'.rewards = s.rewards := (congrArg State.rewards e :)
    unfold RNN; rw [e1]; exact hr
  | token amount i rcp s1 _ hu hm =>
    have h1 := hvA.of_UI hu
    have e1 : s'.rewards = s1.rewards := hm.moved.rewards
    unfold RNN; rw [e1]; exact h1
  | index i m _ e hu _ =>
    have h1 := hvA.of_UI hu
    have e1 : s'.rewards = m.rewards := (congrArg State.rewards e :)
    unfold RNN; rw [e1]; exact h1

theorem RNN.step {c : Cfg} (hc : c.WF) {env : Env} {msg : Msg} {s : State} (hl : Led c s)
    (hv : V0 c s) (hb : PB s) (hr : RNN s) (hm : msg.SignedByUser c) : RNN (step c env msg s) := by
  rcases step_cases c env msg s with h | h
  · rw [h]; exact hr
  generalize Dollar.step c env msg s = s' at h
  have core : vaultF s' = vaultF s → RNN s' := by
    intro h3
    have e3 : s'.rewards = s.rewards := congrArg (fun x => x.2.2.1) h3
    unfold RNN; rw [e3]; exact hr
  by_cases ho : msg.noOther = true
  · exact core (congrArg Prod.fst ((Other.msg c env msg ho).ok h) :)
  have ho : msg.noOther = false := by simpa using ho
  cases msg with
  | lock signer v amt? =>
    obtain ⟨amt, a, _, hk⟩ := lock_ok (show lock c env signer v amt? s = .ok () s' from h)
    obtain ⟨m, hmv, rfl⟩ := hk.run
    have e1 : (lockedState m signer a v amt env.time).rewards = s.rewards := hmv.rewards
    unfold RNN; rw [e1]; exact hr
  | unlock signer v amt? =>
    obtain ⟨_, _, amt, a, _, hk⟩ := unlock_ok (show unlock c signer v amt? s = .ok () s' from h)
    obtain ⟨m, removed, hlp, rfl⟩ := hk.run
    show RNN m
    exact hlp.rnn hc hk.dec (hm a hk.dec) hv hr hb (pending_positionsOf hv a v) hk.pos.le
  | deliver vaa => exact hr.of_deliver hc hl h
  | _ =>
    first
    | exact core ((VaultF.route c env _ ho rfl nofun nofun).ok h)
    | exact Bool.noConfusion ho

/-! ### Progress of flexible withdrawals -/

theorem claimRewards_progress {c : Cfg} {p : PosEntry} {amt : Int} {s : State} (hi : s.index ≠ 0)
    (hx : 0 < p.index) (h0 : 0 ≤ amt) (hd : roundedDown amt p.index < 2 * DEC) (hr : RNN s)
    (ht : ∀ e ∈ s.rewards, p.index < e.1 → roundedDown amt p.index ≤ e.2.total)
    (hs : s.rewards.sum (fun _ r => r.rewards) ≤ s.balance c.flexibleAddr)
    (hu : p.address ≠ c.yieldAddr) :
    ∃ owed s', claimRewards c p amt s = .ok owed s' := by
  unfold claimRewards
  simp only [bind_apply, get_apply]
  by_cases hz : s.principalOf c.flexibleAddr ≤ 0
  · rw [if_pos hz]
    exact ⟨_, _, rfl⟩
  · rw [if_neg hz]
    have hq := down_nonneg h0 hx
    obtain ⟨o1, o2⟩ := rewardsOwed_le (cur := s.index) hq hd hr ht
    obtain ⟨m, hm, _⟩ := sendCoins_progress (c := c) (a := c.flexibleAddr) (b := p.address)
      (amt := rewardsOwed s.rewards p.index s.index (roundedDown amt p.index))
      (s := { s with rewards := rewardsAfter s.rewards p.index s.index (roundedDown amt p.index) })
      (by show _ ≤ s.balance c.flexibleAddr; omega) hi (.inl hu)
    have hn : ¬ rewardsOwed s.rewards p.index s.index (roundedDown amt p.index) < 0 := by omega
    simp only [bind_apply, principalDown_eq hx.ne', modify_apply, newCoin, if_neg hn, pure_apply, hm, emit]
    exact ⟨_, _, rfl⟩

theorem Moved.claimable_same {c : Cfg} {s s' : State} {a b x : Addr} {amt : Int} (h : Moved c s a b amt s')
    (ha : x ≠ a) (hb : x ≠ b) : claimable s' x = claimable s x := by
  have e1 : s'.balance x = s.balance x := h.same ha hb
  have e2 : s'.principalOf x = s.principalOf x := by
    by_cases hz : amt = 0
    · rw [h.zero hz]
    · by_cases hy : a = c.yieldAddr ∨ b = c.yieldAddr
      · unfold State.principalOf; rw [(h.skip hy).1]
      · rw [h.prin hz (fun e => hy (.inl e)) (fun e => hy (.inr e)) x]
        simp [ha, hb]
  unfold claimable
  rw [e1, e2, h.index]

/-- Principal is read off the same accounts: a flexible withdrawal leaves the claimable yield of other
position accounts alone. -/
theorem OneOk.claimable_other {c : Cfg} (hc : c.WF) {signer : String} {a : Addr} {p : PosEntry}
    {v amt : Int} {s s' : State} (hd : c.decode signer = some a) (hu : c.IsUser a) (hv : v = FLEXIBLE)
    (hpa : p.address = a) (hpv : p.vault = v) (hk : OneOk c signer a v p amt s s') {t : Int}
    (ht : t ≠ p.time) : claimable s' (flexAcct c a t) = claimable s (flexAcct c a t) := by
  cases hk with
  | staked _ hn => exact absurd hv hn
  | flexible s1 m3 m4 owed y _ hr hy h3 hn h4 e =>
    rw [posAddr_eq hc hd] at h3 h4
    have eacct : ∀ t, acctOf c a v t = flexAcct c a t := by
      intro t; unfold acctOf; rw [if_pos hv]
    rw [eacct] at h3
    rw [hpv, eacct] at h4
    have n1 : flexAcct c a t ≠ a := VaultAcct.ne_user (.inr (.inr ⟨_, _, rfl⟩)) hu
    have n2 : flexAcct c a t ≠ flexAcct c a p.time := fun e => ht (flexAcct_inj hc e).2
    have n3 := flexAcct_ne_yield hc a t
    have n4 := flexAcct_ne_flexible hc a t
    rw [e]
    have e4 : claimable m4 (flexAcct c a t) = claimable m3 (flexAcct c a t) :=
      h4.claimable_same n2 n1
    have e3 := h3.claimable_same n3 n2
    have e1 : claimable s1 (flexAcct c a t) = claimable s (flexAcct c a t) := by
      clear hy h3 e e4 e3
      rcases hr.run with ⟨_, _, rfl⟩ | ⟨_, _, _, m, hm, rfl⟩
      · rfl
      · exact (hm.claimable_same n4 (by rw [hpa]; exact n1) :)
    show claimable m4 _ = _
    rw [e4, e3]
    exact e1

/-- Accounts not involved keep their claimable yield when rewards are claimed. -/
theorem Rewarded.same {c : Cfg} {s s' : State} {p : PosEntry} {amt owed : Int} (h : Rewarded c s p amt owed s')
    {x : Addr} (h1 : x ≠ c.flexibleAddr) (h2 : x ≠ p.address) :
    claimable s' x = claimable s x ∧ s'.balance x = s.balance x ∧ s'.index = s.index := by
  rcases h.run with ⟨_, _, rfl⟩ | ⟨_, _, _, m, hm, rfl⟩
  · exact ⟨rfl, rfl, rfl⟩
  · exact ⟨(hm.claimable_same h1 h2 :), (hm.same h1 h2 :), (hm.index :)⟩

theorem claimModuleYield_progress {c : Cfg} {a : Addr} {s : State} (hi : s.index ≠ 0)
    (hb : c.blocked a = false) (hle : claimable s a ≤ s.balance c.yieldAddr) :
    ∃ s', claimModuleYield c a s = .ok (claimable s a) s' ∧ Moved c s c.yieldAddr a (claimable s a) s' := by
  unfold claimModuleYield
  simp only [bind_apply, get_apply]
  by_cases hy : 0 < claimable s a
  · rw [if_pos hy]
    obtain ⟨m, hm, hm'⟩ := sendCoins_progress (c := c) (a := c.yieldAddr) (b := a) hle hi (.inr (.inl rfl))
    unfold sendModuleToAccount
    simp only [bind_apply, hb, Bool.false_eq_true, if_false, hm, pure_apply]
    exact ⟨m, rfl, hm'⟩
  · have h0 := claimable_nonneg s a
    have hz : claimable s a = 0 := by omega
    rw [if_neg hy, hz]
    obtain ⟨m, hm, hm'⟩ := sendCoins_progress (c := c) (a := c.yieldAddr) (b := a) (amt := claimable s a) hle hi
      (.inr (.inl rfl))
    rw [hz] at hm'
    exact ⟨s, rfl, by rw [hm'.zero rfl] at hm'; exact hm'⟩

/-- A flexible position can be paid out when the yield account covers the position's yield. -/
theorem unlockOne_flexible {c : Cfg} (hc : c.WF) {signer : String} {a : Addr} {p : PosEntry} {rem : Int}
    {s : State} (hd : c.decode signer = some a) (hu : c.IsUser a) (hpa : p.address = a)
    (hpv : p.vault = FLEXIBLE) (hi : V0 c s) (hr : RNN s) (hb : PB s)
    (hg : Good c s) (hget : s.positions.get? p.key = some p.val) (h0 : 0 ≤ rem)
    (hbl : c.blocked (flexAcct c a p.time) = false)
    (hy : claimable s (flexAcct c a p.time) ≤ s.balance c.yieldAddr) :
    ∃ s', unlockOne c signer a FLEXIBLE p rem s =
      .ok (amountToRemove p rem, roundedDown (amountToRemove p rem) p.index) s' ∧
      s'.balance c.yieldAddr = s.balance c.yieldAddr - claimable s (flexAcct c a p.time) := by
  have ho := hi.entry _ (KV.mem_of_get? hget)
  obtain ⟨b0, b1, b2⟩ := amountToRemove_bounds (p := p) h0 ho.amount
  generalize hamt : amountToRemove p rem = amt at b0 b1 b2
  have hx : 0 < p.index := ho.idx
  have hle : roundedDown amt p.index ≤ roundedDown p.amount p.index := down_mono b0 b1 hx
  have hpb : roundedDown p.amount p.index < 2 * DEC := hb _ (KV.mem_of_get? hget) hpv
  have hacct : ∀ t, posAddr c signer FLEXIBLE t = flexAcct c a t := by
    intro t; rw [posAddr_eq hc hd]; unfold acctOf; rw [if_pos rfl]
  obtain ⟨owed, s1, hs1⟩ := claimRewards_progress (c := c) (p := p) (amt := amt)
    (s := { s with totalFlexible := s.totalFlexible + -roundedDown amt p.index })
    (show s.index ≠ 0 from hg.index.ne') hx b0 (by omega) hr
    (fun e he hlt => hle.trans (hi.covers hpv hget he hlt)) hi.rsum (by rw [hpa]; exact hu.ne_yield)
  have hR := claimRewards_ok hs1
  have n1 : flexAcct c a p.time ≠ a := VaultAcct.ne_user (.inr (.inr ⟨_, _, rfl⟩)) hu
  have n3 := flexAcct_ne_yield hc a p.time
  have n4 := flexAcct_ne_flexible hc a p.time
  obtain ⟨q1, q2, q3⟩ := hR.same n4 (by rw [hpa]; exact n1)
  obtain ⟨_, q4, _⟩ := hR.same hc.flexible_ne_yield.symm (by rw [hpa]; exact hu.ne_yield.symm)
  have q1 : claimable s1 (flexAcct c a p.time) = claimable s (flexAcct c a p.time) := q1
  have q2 : s1.balance (flexAcct c a p.time) = s.balance (flexAcct c a p.time) := q2
  have q3 : s1.index = s.index := q3
  have q4 : s1.balance c.yieldAddr = s.balance c.yieldAddr := q4
  have hy0 := claimable_nonneg s (flexAcct c a p.time)
  obtain ⟨s2, hs2, hm2⟩ := claimModuleYield_progress (c := c) (a := flexAcct c a p.time)
    (s := { s1 with vstats := { s1.vstats with flexDistributed := s1.vstats.flexDistributed + owed } })
    (show s1.index ≠ 0 by rw [q3]; exact hg.index.ne') hbl
    (show claimable s1 _ ≤ s1.balance _ by rw [q1, q4]; exact hy)
  have ey : claimable { s1 with vstats := { s1.vstats with flexDistributed := s1.vstats.flexDistributed + owed } }
      (flexAcct c a p.time) = claimable s (flexAcct c a p.time) := q1
  rw [ey] at hs2 hm2
  have hbal2 : s2.balance (flexAcct c a p.time) =
      s.balance (flexAcct c a p.time) + claimable s (flexAcct c a p.time) := by
    rw [hm2.bal, if_neg n3, if_pos rfl]
    show s1.balance _ - 0 + _ = _
    rw [q2]; omega
  have hbaly : s2.balance c.yieldAddr = s.balance c.yieldAddr - claimable s (flexAcct c a p.time) := by
    rw [hm2.bal, if_neg n3.symm, if_pos rfl]
    show s1.balance _ - _ + 0 = _
    rw [q4]; omega
  have hfund : amt + claimable s (flexAcct c a p.time) ≤ s2.balance (flexAcct c a p.time) := by
    rw [hbal2]
    have h1 : p.amount ≤ s.balance (flexAcct c p.address p.time) :=
      hi.flex (p.key, p.val) (KV.mem_of_get? hget) hpv
    rw [hpa] at h1
    omega
  have hi2 : s2.index ≠ 0 := by
    rw [hm2.index]; show s1.index ≠ 0; rw [q3]; exact hg.index.ne'
  obtain ⟨s3, hs3, hm3⟩ := sendCoins_progress (c := c) (b := a) hfund hi2 (.inl hu.ne_yield)
  have hpay : unlockPayout c signer FLEXIBLE p amt (roundedDown amt p.index) s =
      .ok (amt + claimable s (flexAcct c a p.time)) s2 := by
    unfold unlockPayout unlockFlexible
    rw [if_pos rfl]
    simp only [bind_apply, addTotalFlexible, modify_apply, hs1, incrementDistributed, hacct, hs2]
    by_cases hp : 0 < claimable s (flexAcct c a p.time)
    · rw [if_pos hp]; rfl
    · rw [if_neg hp]
      have : claimable s (flexAcct c a p.time) = 0 := by omega
      rw [this]; simp [pure_apply]
  have hn : ¬ amt + claimable s (flexAcct c a p.time) < 0 := by omega
  unfold unlockOne
  rw [hamt]
  simp only [bind_apply, principalDown_eq hx.ne', pure_apply, hpay, newCoin, if_neg hn, hpv, hacct, hs3,
    updatePosition_eq, emit, modify_apply]
  refine ⟨_, rfl, ?_⟩
  show s3.balance _ = _
  rw [hm3.same n3.symm hu.ne_yield.symm]
  exact hbaly

/-- Sum of the claimable yield of the accounts of a list of positions. -/
def yieldOf (c : Cfg) (s : State) (a : Addr) (l : List PosEntry) : Int :=
  (l.map fun p => claimable s (flexAcct c a p.time)).sum

/-- The loop over flexible positions succeeds. -/
theorem unlockLoop_flexible {c : Cfg} (hc : c.WF) {signer : String} {a : Addr} (hd : c.decode signer = some a)
    (hu : c.IsUser a) (hbl : ∀ t, c.blocked (flexAcct c a t) = false)
    (l : List PosEntry) (rem removed : Int) (s : State) (hl : Led c s) (hi : V0 c s) (hr : RNN s) (hb : PB s)
    (hp : Pending s a FLEXIBLE l) (h0 : 0 ≤ rem) (hle : rem ≤ (l.map PosEntry.amount).sum)
    (hy : yieldOf c s a l ≤ s.balance c.yieldAddr) :
    ∃ r s', unlockLoop c signer a FLEXIBLE l rem removed s = .ok (0, r) s' := by
  induction l generalizing rem removed s with
  | nil =>
    simp at hle
    have : rem = 0 := by omega
    subst this
    exact ⟨removed, s, rfl⟩
  | cons p t ih =>
    unfold unlockLoop
    by_cases hz : rem = 0
    · subst hz
      exact ⟨removed, s, by simp⟩
    · rw [if_neg hz]
      have hget := hp.stored p List.mem_cons_self
      have hpa := hp.addr p List.mem_cons_self
      have hpv := hp.vault p List.mem_cons_self
      have ho := hi.entry _ (KV.mem_of_get? hget)
      obtain ⟨b0, b1, b2⟩ := amountToRemove_bounds (p := p) h0 ho.amount
      unfold yieldOf at hy
      rw [List.map_cons, List.sum_cons] at hy
      have hnn : 0 ≤ yieldOf c s a t := by
        refine List.sum_nonneg fun x hx => ?_
        obtain ⟨q, hq, rfl⟩ := List.mem_map.1 hx
        exact claimable_nonneg _ _
      unfold yieldOf at hnn
      obtain ⟨m, hm, hmy⟩ := unlockOne_flexible hc hd hu hpa hpv hi hr hb hl.good hget h0 (hbl _) (by omega)
      obtain ⟨_, _, hone⟩ := unlockOne_ok hm
      obtain ⟨g1, g2, _⟩ := hi.of_one hc hd hu hpa hpv hget b0 b1 hone
      obtain ⟨l1, _⟩ := hone.ledger hc hd hu hpa hl
      have hysame : yieldOf c m a t = yieldOf c s a t := by
        unfold yieldOf
        congr 1
        refine List.map_congr_left fun q hq => ?_
        refine hone.claimable_other hc hd hu rfl hpa hpv (fun e => ?_)
        have hk : q.key = p.key := by
          unfold PosEntry.key
          rw [hp.addr q (List.mem_cons_of_mem _ hq), hp.vault q (List.mem_cons_of_mem _ hq), hpa, hpv, e]
        exact (List.pairwise_cons.1 hp.nodup).1 q hq hk.symm
      simp only [bind_apply, hm]
      refine ih _ _ m l1 g1 (hone.rnn hi hr hb hpv hget b0 b1) (hb.posUpd hi hget b0 g2) (hp.tail g2) (by omega) ?_ ?_
      · simp only [List.map_cons, List.sum_cons] at hle
        unfold amountToRemove
        by_cases hlt : rem < p.amount
        · rw [if_pos hlt]
          have : 0 ≤ (t.map PosEntry.amount).sum := by
            refine List.sum_nonneg fun x hx => ?_
            obtain ⟨q, hq, rfl⟩ := List.mem_map.1 hx
            exact (hi.entry _ (KV.mem_of_get? (hp.stored q (List.mem_cons_of_mem _ hq)))).amount
          omega
        · rw [if_neg hlt]; omega
      · rw [hysame, hmy]
        unfold yieldOf
        omega

end Dollar
