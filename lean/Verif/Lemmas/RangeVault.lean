import Verif.Lemmas.RNN
import Verif.Lemmas.Near

/-
Ranges of the numbers the vaults store (C82): how far one transaction can move them.
-/
set_option linter.unusedSimpArgs false

namespace Dollar
open MM Spec

/-- The part of `VRange` that also holds inside the loop of `Unlock`. -/
structure LRange (c : Cfg) (S T D : Int) (s : State) : Prop where
  pos : ∀ e ∈ s.positions, SCALE ≤ e.2.index ∧ e.2.principal ≤ S
  rew : ∀ e ∈ s.rewards, e.2.total ≤ T ∧ -S ≤ e.2.rewards ∧ e.2.rewards ≤ S
  ftot : s.totalFlexible ≤ T
  stot : s.vstats.stakedPrincipal ≤ T
  dist0 : 0 ≤ s.vstats.flexDistributed
  dist : s.vstats.flexDistributed + s.balance c.flexibleAddr ≤ D
  flex : s.balance c.flexibleAddr ≤ S

/-- How large the numbers of the vaults are. -/
structure VRange (S T : Int) (s : State) : Prop where
  pos : ∀ e ∈ s.positions, SCALE ≤ e.2.index ∧ e.2.principal ≤ S
  rew : ∀ e ∈ s.rewards, e.2.total ≤ T ∧ -S ≤ e.2.rewards ∧ e.2.rewards ≤ S
  ftot : s.totalFlexible ≤ T
  stot : s.vstats.stakedPrincipal ≤ T
  dist0 : 0 ≤ s.vstats.flexDistributed
  dist : s.vstats.flexDistributed ≤ T

theorem VRange.mono {S T T' : Int} {s : State} (h : VRange S T s) (ht : T ≤ T') : VRange S T' s :=
  ⟨h.pos, fun e he => ⟨(h.rew e he).1.trans ht, (h.rew e he).2⟩, h.ftot.trans ht, h.stot.trans ht, h.dist0,
   h.dist.trans ht⟩

theorem VRange.congr {S T : Int} {s s' : State} (h : VRange S T s) (h1 : s'.positions = s.positions)
    (h2 : s'.rewards = s.rewards) (h3 : s'.totalFlexible = s.totalFlexible) (h4 : s'.vstats = s.vstats) :
    VRange S T s' := by
  obtain ⟨a, b, d, e, f, g⟩ := h
  constructor
  · rw [h1]; exact a
  · rw [h2]; exact b
  · rw [h3]; exact d
  · rw [h4]; exact e
  · rw [h4]; exact f
  · rw [h4]; exact g

theorem KV.le_sum_of_mem {m : KV K V} {f : K → V → Int} (h : ∀ p ∈ m, 0 ≤ f p.1 p.2) {k : K} {v : V}
    (hm : (k, v) ∈ m) : f k v ≤ m.sum f := by
  induction m with
  | nil => cases hm
  | cons e t ih =>
    rw [KV.sum_cons]
    have ht : 0 ≤ KV.sum t f := KV.sum_nonneg fun p hp => h p (List.mem_cons_of_mem _ hp)
    rcases List.mem_cons.1 hm with e1 | hm
    · have : f k v = f e.1 e.2 := by rw [← e1]
      omega
    · have h1 := ih (fun p hp => h p (List.mem_cons_of_mem _ hp)) hm
      have := h e List.mem_cons_self
      omega

/-- One share is part of the payment. -/
theorem userReward_le_owed {rs : KV Int Reward} {start cur p : Int} (hp : 0 ≤ p) {k : Int} {r : Reward}
    (hm : (k, r) ∈ rs) (hlt : start < k) : userReward cur p r ≤ rewardsOwed rs start cur p := by
  unfold rewardsOwed
  have := KV.le_sum_of_mem (m := rs) (f := fun k r => if start < k then userReward cur p r else 0)
    (fun e _ => by
      show 0 ≤ (if start < e.1 then userReward cur p e.2 else 0)
      split
      · exact userReward_nonneg hp
      · exact le_refl _) hm
  simpa only [if_pos hlt] using this

theorem rewardAfter_le {cur p : Int} (hp : 0 ≤ p) (r : Reward) :
    (rewardAfter cur p r).total ≤ r.total ∧ (rewardAfter cur p r).rewards ≤ r.rewards ∧
      (min 0 r.rewards - userReward cur p r ≤ (rewardAfter cur p r).rewards) := by
  have h := userReward_nonneg (cur := cur) (r := r) hp
  rw [rewardAfter_rewards]
  refine ⟨?_, by omega, ?_⟩
  · unfold rewardAfter
    split
    · show r.total - p ≤ _
      omega
    · exact le_refl _
  · omega

theorem userReward_zero {cur p : Int} {r : Reward} (h : ¬ 0 < r.rewards) : userReward cur p r = 0 := by
  unfold userReward
  rw [if_neg (by tauto)]

theorem rew_after {rs : KV Int Reward} {start cur p S T : Int} (hp : 0 ≤ p)
    (hr : ∀ e ∈ rs, e.2.total ≤ T ∧ -S ≤ e.2.rewards ∧ e.2.rewards ≤ S)
    (ho : rewardsOwed rs start cur p ≤ S) :
    ∀ e ∈ rewardsAfter rs start cur p, e.2.total ≤ T ∧ -S ≤ e.2.rewards ∧ e.2.rewards ≤ S := by
  intro e he
  obtain ⟨r, hm, e2⟩ := mem_rewardsAfter he
  have h1 : r.total ≤ T ∧ -S ≤ r.rewards ∧ r.rewards ≤ S := hr _ hm
  rw [e2]
  split
  · next hlt =>
    obtain ⟨a, b, d⟩ := rewardAfter_le (cur := cur) hp r
    have h2 := userReward_le_owed (cur := cur) hp hm hlt
    by_cases h0 : 0 < r.rewards
    · exact ⟨by omega, by omega, by omega⟩
    · have := userReward_zero (cur := cur) (p := p) h0
      rw [rewardAfter_rewards] at *
      exact ⟨by omega, by omega, by omega⟩
  · exact h1

theorem LRange.of_one {c : Cfg} (hc : c.WF) {signer : String} {a : Addr} {p : PosEntry}
    {v amt S T D : Int} {s s' : State} (hd : c.decode signer = some a) (hu : c.IsUser a) (hpa : p.address = a)
    (hi : V0 c s) (hr : LRange c S T D s) (hs0 : 0 ≤ S)
    (hget : s.positions.get? p.key = some p.val) (h0 : 0 ≤ amt)
    (hk : OneOk c signer a v p amt s s') : LRange c S T D s' := by
  have ho := hi.entry _ (KV.mem_of_get? hget)
  have hq : 0 ≤ roundedDown amt p.index := down_nonneg h0 ho.idx
  have hpos : ∀ e ∈ posUpd s.positions p amt (roundedDown amt p.index), SCALE ≤ e.2.index ∧ e.2.principal ≤ S := by
    intro e he
    rcases mem_posUpd he with he | ⟨_, rfl⟩
    · exact hr.pos e he
    · have : SCALE ≤ p.index ∧ p.principal ≤ S := hr.pos _ (KV.mem_of_get? hget)
      exact ⟨this.1, by show p.principal - _ ≤ S; omega⟩
  have hacct : ∀ w t, posAddr c signer w t ≠ c.flexibleAddr := by
    intro w t
    rw [posAddr_eq hc hd]
    unfold acctOf
    split
    · exact flexAcct_ne_flexible hc _ _
    · exact hc.staked_ne_flexible
  have hyf : c.yieldAddr ≠ c.flexibleAddr := hc.flexible_ne_yield.symm
  cases hk with
  | staked m hv ha hm e =>
    have hb : s'.balance c.flexibleAddr = s.balance c.flexibleAddr := by
      rw [show s'.balance c.flexibleAddr = m.balance c.flexibleAddr by rw [e]; rfl, hm.bal,
        if_neg (hacct _ _).symm, if_neg hu.ne_flexible.symm]
      omega
    have e1 : s'.vstats = s.vstats := by rw [e]; exact hm.vstats
    constructor
    · rw [e]; show ∀ x ∈ posUpd m.positions _ _ _, _; rw [hm.positions]; exact hpos
    · rw [show s'.rewards = s.rewards by rw [e]; exact hm.rewards]; exact hr.rew
    · rw [show s'.totalFlexible = s.totalFlexible by rw [e]; exact hm.totalFlexible]; exact hr.ftot
    · rw [e1]; exact hr.stot
    · rw [e1]; exact hr.dist0
    · rw [e1, hb]; exact hr.dist
    · rw [hb]; exact hr.flex
  | flexible s1 m3 m4 owed y hv hw hy h3 hn h4 e =>
    have hb : s'.balance c.flexibleAddr = s1.balance c.flexibleAddr := by
      have e3 := h3.bal c.flexibleAddr
      rw [if_neg hyf.symm, if_neg (hacct _ _).symm] at e3
      rw [show s'.balance c.flexibleAddr = m4.balance c.flexibleAddr by rw [e]; rfl, h4.bal,
        if_neg (hacct _ _).symm, if_neg hu.ne_flexible.symm, e3]
      show s1.balance _ - 0 + 0 - 0 + 0 = _
      omega
    have hst : s'.vstats = { s1.vstats with flexDistributed := s1.vstats.flexDistributed + owed } := by
      rw [e]; exact h4.vstats.trans h3.vstats
    have er : s'.rewards = s1.rewards := by
      rw [e]; exact h4.rewards.trans h3.rewards
    have et : s'.totalFlexible = s1.totalFlexible := by
      rw [e]; exact h4.totalFlexible.trans h3.totalFlexible
    have ep : s'.positions = posUpd s1.positions p amt (roundedDown amt p.index) := by
      rw [e]; show posUpd m4.positions _ _ _ = _; rw [h4.positions, h3.positions]
    have hn0 := hw.nonneg
    have hR : s1.positions = s.positions ∧ s1.vstats = s.vstats ∧ s1.totalFlexible ≤ T ∧
        s1.balance c.flexibleAddr = s.balance c.flexibleAddr - owed ∧
        (∀ e ∈ s1.rewards, e.2.total ≤ T ∧ -S ≤ e.2.rewards ∧ e.2.rewards ≤ S) := by
      have ht := hr.ftot
      rcases hw.run with ⟨_, h1, h2⟩ | ⟨_, _, h1, m, hm, h2⟩
      · rw [h2]
        refine ⟨rfl, rfl, ?_, ?_, hr.rew⟩
        · show s.totalFlexible - _ ≤ T
          omega
        · show s.balance _ = _
          omega
      · have hown : owed ≤ S := by
          have h5 := hr.flex
          rcases hm.enough with h6 | h6
          · omega
          · have h6 : owed ≤ s.balance c.flexibleAddr := h6
            omega
        rw [h2]
        refine ⟨hm.positions, hm.vstats, ?_, ?_, ?_⟩
        · show m.totalFlexible ≤ T
          rw [show m.totalFlexible = s.totalFlexible - roundedDown amt p.index from hm.totalFlexible]
          omega
        · show m.balance _ = _
          rw [hm.bal, if_pos rfl, if_neg (by rw [hpa]; exact hu.ne_flexible.symm)]
          show s.balance _ - owed + 0 = _
          omega
        · show ∀ e ∈ m.rewards, _
          rw [show m.rewards = rewardsAfter s.rewards p.index s.index (roundedDown amt p.index) from hm.rewards]
          exact rew_after hq hr.rew (by rw [← show owed = rewardsOwed s.rewards p.index s.index _ from h1]; exact hown)
    obtain ⟨r1, r2, r3, r4, r5⟩ := hR
    have f0 := hr.dist0
    have f1 := hr.dist
    have f2 := hr.flex
    constructor
    · rw [ep, r1]; exact hpos
    · rw [er]; exact r5
    · rw [et]; exact r3
    · rw [hst, r2]; exact hr.stot
    · rw [hst, r2]; show 0 ≤ s.vstats.flexDistributed + owed; omega
    · rw [hst, r2, hb, r4]; show s.vstats.flexDistributed + owed + (_ - owed) ≤ D; omega
    · rw [hb, r4]; omega

theorem LoopOk.lrange {c : Cfg} (hc : c.WF) {signer : String} {a : Addr} {v : Int} {l : List PosEntry}
    {rem removed rem' removed' S T D : Int} {s s' : State} (hd : c.decode signer = some a)
    (hu : c.IsUser a) (hi : V0 c s) (hr : LRange c S T D s) (hs0 : 0 ≤ S) (hp : Pending s a v l) (h0 : 0 ≤ rem)
    (h : LoopOk c signer a v l rem removed s rem' removed' s') :
    LRange c S T D s' ∧ removed ≤ removed' := by
  induction h with
  | nil => exact ⟨hr, le_refl _⟩
  | stop => exact ⟨hr, le_refl _⟩
  | step p t rem removed s m rem' removed' s' _ _ h1 _ ih =>
    have hget := hp.stored p List.mem_cons_self
    have hpa := hp.addr p List.mem_cons_self
    have hpv := hp.vault p List.mem_cons_self
    have ho := hi.entry _ (KV.mem_of_get? hget)
    obtain ⟨b0, b1, b2⟩ := amountToRemove_bounds (p := p) h0 ho.amount
    obtain ⟨g1, g2, _⟩ := hi.of_one hc hd hu hpa hpv hget b0 b1 h1
    have hq : 0 ≤ roundedDown (amountToRemove p rem) p.index := down_nonneg b0 ho.idx
    obtain ⟨x, y⟩ := ih g1 (hr.of_one hc hd hu hpa hi hs0 hget b0 h1) (hp.tail g2) (by omega)
    exact ⟨x, by omega⟩

theorem VRange.of_lock {c : Cfg} {env : Env} {signer : String} {v amt : Int} {a : Addr} {S T : Int}
    {s s' : State} (h : VRange S T s) (hk : LockOk c env signer v amt a s s')
    (hi : SCALE ≤ s.index) (hb : s.balance a ≤ S) : VRange S (T + S) s' := by
  obtain ⟨m, hmv, rfl⟩ := hk.run
  have h0 := hk.nonneg
  have h1 := hk.funds
  have hp0 : 0 ≤ roundedDown amt s.index := down_nonneg h0 (lt_of_lt_of_le (by decide) hi)
  have hp1 : roundedDown amt s.index ≤ amt := down_le_self h0 hi
  have hS : 0 ≤ S := by omega
  obtain ⟨a1, b, d, e, f, g⟩ := h.mono (T' := T + S) (by omega)
  have d' := h.ftot
  have e' := h.stot
  constructor
  · intro x hx
    rcases KV.mem_set hx with rfl | hx
    · show SCALE ≤ m.index ∧ roundedDown amt m.index ≤ S
      rw [hmv.index]
      exact ⟨hi, by omega⟩
    · rw [hmv.positions] at hx
      exact a1 x hx
  · rw [show (lockedState m signer a v amt env.time).rewards = s.rewards from hmv.rewards]; exact b
  · show (if v = FLEXIBLE then m.totalFlexible + roundedDown amt m.index else m.totalFlexible) ≤ _
    rw [hmv.totalFlexible, hmv.index]
    split <;> omega
  all_goals
    unfold lockedState
    simp only [vAddP_stakedPrincipal, vAddP_flexDistributed]
    rw [hmv.index]
    rw [hmv.vstats]
  · split <;> split <;> (try simp only [vUsers_stakedPrincipal, hmv.vstats]) <;> omega
  · split <;> (try simp only [vUsers_flexDistributed, hmv.vstats]) <;> omega
  · split <;> (try simp only [vUsers_flexDistributed, hmv.vstats]) <;> omega

theorem VRange.of_unlock {c : Cfg} (hc : c.WF) {signer : String} {v amt : Int} {a : Addr} {S T : Int}
    {s s' : State} (h : VRange S T s) (hv : V0 c s) (hu : c.IsUser a) (hk : UnlockOk c signer v amt a s s')
    (hS : 0 ≤ S) (hb : s.balance c.flexibleAddr ≤ S) (hn : 0 ≤ s'.balance c.flexibleAddr) :
    VRange S (T + S) s' := by
  obtain ⟨m, removed, hlp, rfl⟩ := hk.run
  obtain ⟨a1, b, d, e, f, g⟩ := h.mono (T' := T + S) (by omega)
  have g' := h.dist
  obtain ⟨⟨q1, q2, q3, q4, q5, q6, q7⟩, hrem⟩ := hlp.lrange hc hk.dec hu hv (S := S) (T := T + S) (D := T + S)
    ⟨a1, b, d, e, f, by omega, hb⟩ hS (pending_positionsOf hv a v) hk.pos.le
  have h0 : 0 ≤ m.balance c.flexibleAddr := hn
  refine ⟨q1, q2, q3, ?_, ?_, ?_⟩
  all_goals
    unfold unlockedState
    simp only [vAddP_stakedPrincipal, vAddP_flexDistributed]
  · split <;> split <;> (try simp only [vUsers_stakedPrincipal]) <;> omega
  · split <;> (try simp only [vUsers_flexDistributed]) <;> omega
  · split <;> (try simp only [vUsers_flexDistributed]) <;> omega

theorem VRange.of_UI {c : Cfg} {s s' : State} {i S T : Int} (h : VRange S T s) (hu : UI c s i s')
    (h0 : 0 ≤ s.balance c.flexibleAddr) (hb : s'.balance c.flexibleAddr ≤ S) : VRange S T s' := by
  obtain ⟨a1, b, d, e, f, g⟩ := h
  constructor
  · rw [hu.positions]; exact a1
  · rcases hu.rewards with hr | ⟨_, he, hlt, r, hr0, hr, hbal⟩
    · rw [hr]; exact b
    · intro x hm
      rw [hr] at hm
      rcases KV.mem_set hm with rfl | hm
      · exact ⟨d, by show -S ≤ r; omega, by show r ≤ S; omega⟩
      · exact b x hm
  · rw [hu.totalFlexible]; exact d
  · rw [hu.vstats]; exact e
  · rw [hu.vstats]; exact f
  · rw [hu.vstats]; exact g

end Dollar
