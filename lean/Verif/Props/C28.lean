import Verif.Lemmas.RNN
import Verif.Lemmas.Yield
import Verif.Model.Queries
import Verif.Spec.Arith
import Verif.Spec.Yield
import Verif.Props.C24

/-
C28: recorded vault rewards are funded.
C29: the reward share is the pro-rata share, rounded, and excludes the current cycle.
C32: the pending-rewards query predicts the payout of a full unlock.
C49: flexible positions can be withdrawn when the yield account covers their yield.
-/
set_option maxRecDepth 100000
set_option linter.unusedSimpArgs false
namespace Dollar
open MM Spec

/-- All flexible positions are below 2*10^18 of principal (2*10^12 USDN at index 1). -/
def SmallPositions (s : State) : Prop :=
  ∀ e ∈ s.positions, e.1.2.1 = 2 → e.2.principal < 2 * 10 ^ 18

theorem SmallPositions.pb {c : Cfg} {s : State} (hi : V0 c s) (h : SmallPositions s) : PB s := by
  intro e he hv
  have := (hi.entry e he).prin
  have h2 := h e he hv
  have h2 : e.2.principal < 2 * DEC := h2
  omega

/-- Reachable by transactions and upgrades along which all flexible positions are small. -/
inductive ReachableSmall (c : Cfg) : State → Prop
  | fresh {s : State} (h : Initial c s) : ReachableSmall c s
  | step {s : State} (h : ReachableSmall c s) {env : Env} {m : Msg} (hm : m.SignedByUser c)
      (hs : SmallPositions (Dollar.step c env m s)) : ReachableSmall c (Dollar.step c env m s)
  | upgrade {s s' : State} (h : ReachableSmall c s) (hu : Upgrade c s s') : ReachableSmall c s'

theorem ReachableSmall.reachable {c : Cfg} {s : State} (h : ReachableSmall c s) : Reachable c s := by
  induction h with
  | fresh h => exact .fresh h
  | step _ hm _ ih => exact ih.step hm
  | upgrade _ hu ih => exact ih.upgrade hu

theorem ReachableSmall.small {c : Cfg} {s : State} (h : ReachableSmall c s) : SmallPositions s := by
  induction h with
  | fresh h => intro e he; rw [h.positions] at he; cases he
  | step _ _ hs _ => exact hs
  | upgrade _ hu ih =>
    obtain ⟨_, _, _, _, _, _, _, _, _, rfl⟩ := hu.rest
    exact ih

theorem ReachableSmall.rnn {c : Cfg} (hc : c.WF) {s : State} (h : ReachableSmall c s) : RNN s := by
  induction h with
  | fresh h => unfold RNN; rw [h.rewards]; nofun
  | step h hm _ ih =>
    exact ih.step hc (h.reachable.led hc) (h.reachable.vinv hc).toV0 (h.small.pb (h.reachable.vinv hc).toV0) hm
  | upgrade _ hu ih =>
    obtain ⟨_, _, _, _, _, _, _, _, _, rfl⟩ := hu.rest
    exact ih

theorem ReachableSmall.of_run {c : Cfg} {s : State} (h0 : ReachableSmall c s) (h : History) (hs : h.Signed c)
    (hp : ∀ n, SmallPositions (run c (h.take n) s)) : ReachableSmall c (run c h s) := by
  induction h generalizing s with
  | nil => exact h0
  | cons e t ih =>
    exact ih (h0.step (hs e List.mem_cons_self) (hp 1)) (fun e' he => hs e' (List.mem_cons_of_mem _ he))
      fun n => hp (n + 1)

/-! ### C28 -/

/-- The flexible vault's account holds at least all recorded rewards (what the PendingRewards query
reports), in every reachable state. -/
theorem C28_rewards_funded {c : Cfg} (hc : c.WF) (s : State) (h : Reachable c s) :
    queryPendingRewards s ≤ s.balance (c.modAddr "dollar/vaults/flexible") := (h.vinv hc).rsum

/-- While positions are small no record goes negative. -/
theorem C28_records_nonneg {c : Cfg} (hc : c.WF) (s : State) (h : ReachableSmall c s) :
    ∀ e ∈ s.rewards, 0 ≤ e.2.rewards := h.rnn hc

/-- Hence claiming the rewards of any part of a flexible position never fails. -/
theorem C28_claim_succeeds {c : Cfg} (hc : c.WF) (s : State) (h : ReachableSmall c s)
    (user : Addr) (time : Int) (p : Position) (hp : ((user, 2, time), p) ∈ s.positions)
    (amount : Int) (h0 : 0 ≤ amount) (h1 : amount ≤ p.amount) :
    ∃ owed s', claimRewards c ⟨user, 2, p.principal, p.index, p.amount, p.time⟩ amount s = .ok owed s' := by
  have hi := (h.reachable.vinv hc).toV0
  have ho := hi.entry ((user, 2, time), p) hp
  have ht : p.time = time := ho.time
  have hget : s.positions.get? (PosEntry.key ⟨user, 2, p.principal, p.index, p.amount, p.time⟩) =
      some (PosEntry.val ⟨user, 2, p.principal, p.index, p.amount, p.time⟩) := by
    show s.positions.get? (user, 2, p.time) = some p
    rw [ht]
    exact KV.get?_of_mem hi.sorted hp
  have hle : roundedDown amount p.index ≤ roundedDown p.amount p.index := down_mono h0 h1 ho.idx
  have hpb : roundedDown p.amount p.index < 2 * DEC := h.small.pb hi ((user, 2, time), p) hp rfl
  exact claimRewards_progress (h.reachable.led hc).good.index.ne' ho.idx h0
    (show roundedDown amount p.index < _ by omega) (h.rnn hc)
    (fun e he hlt => hle.trans (hi.covers (p := ⟨user, 2, p.principal, p.index, p.amount, p.time⟩) rfl hget he hlt))
    hi.rsum ho.user.ne_yield

/-- The demo history stays small; its records are positive. -/
theorem Demo.small1 : ReachableSmall Demo.cfg (run Demo.cfg Demo.hist1 Demo.start) := by
  refine .of_run (.fresh Demo.start_initial) _ Demo.hist1_signed ?_
  have key : ∀ n : Fin 8, SmallPositions (run Demo.cfg (Demo.hist1.take n) Demo.start) := by
    unfold SmallPositions; decide +kernel
  intro n
  by_cases hn : n < 8
  · exact key ⟨n, hn⟩
  · have hl : Demo.hist1.length = 7 := rfl
    have := key ⟨7, by decide⟩
    rw [List.take_of_length_le (by rw [hl])] at this
    rw [List.take_of_length_le (by omega)]
    exact this

example : queryPendingRewards (run Demo.cfg Demo.hist2 Demo.start) = 750000 := by decide +kernel

/-- The bound is needed: a record of 3 for a total of 4*10^18 owes 4 to all of it. -/
example : userReward 0 (4 * 10 ^ 18) ⟨1, 4 * 10 ^ 18, 3⟩ = 4 := by decide +kernel

/-! ### C29 -/

/-- What `ClaimRewards` of `amount` of a position does to each record and to the balances, `p` being the
principal of the amount: old records and the current cycle's record pay nothing; any other record with
total `T` and rewards `R` pays `w` with `w ≤ p*R/T + p/(2*10^18)` and `w > p*R/T - 1 - p/10^18`, and at
most `R` when `p ≤ T` and `p < 2*10^18`.  The user receives exactly the sum. -/
theorem C29_reward_share {c : Cfg} (s s' : State) (pos : PosEntry) (amount owed : Int)
    (hs : s.rewards.Sorted) (hk : ∀ e ∈ s.rewards, e.2.index = e.1)
    (hidx : 0 < pos.index) (h0 : 0 ≤ amount) (hu : c.IsUser pos.address)
    (hv : 0 < s.principalOf (c.modAddr "dollar/vaults/flexible"))
    (h : claimRewards c pos amount s = .ok owed s') :
    ∃ p, IsFloor (amount * 10 ^ 12) pos.index p ∧
      s'.balance pos.address = s.balance pos.address + owed ∧
      s'.balance (c.modAddr "dollar/vaults/flexible") = s.balance (c.modAddr "dollar/vaults/flexible") - owed ∧
      owed = queryPendingRewards s - queryPendingRewards s' ∧
      ∀ k r, s.rewards.get? k = some r → ∃ r', s'.rewards.get? k = some r' ∧
        (k ≤ pos.index → r' = r) ∧
        (k = s.index → r'.rewards = r.rewards) ∧
        (r.total ≤ 0 ∨ r.rewards ≤ 0 → r' = r) ∧
        (pos.index < k → k ≠ s.index → 0 < r.total → 0 < r.rewards →
          r'.total = r.total - p ∧
          0 ≤ r.rewards - r'.rewards ∧
          2 * ((r.rewards - r'.rewards) * r.total * 10 ^ 18) ≤ 2 * (p * r.rewards * 10 ^ 18) + p * r.total ∧
          p * r.rewards * 10 ^ 18 < (r.rewards - r'.rewards + 1) * r.total * 10 ^ 18 + p * r.total ∧
          (p ≤ r.total → p < 2 * 10 ^ 18 → 0 ≤ r'.rewards)) := by
  have hR := claimRewards_ok h
  clear h
  have hb' := down_bounds h0 hidx
  have hq := down_nonneg h0 hidx
  refine ⟨roundedDown amount pos.index, ⟨hb'.1, fun x hx => le_of_mul_le_lt hidx hx hb'.2⟩, ?_⟩
  rcases hR.run with ⟨hn, _⟩ | ⟨_, _, ho, m, hm, rfl⟩
  · have hn : s.principalOf (c.modAddr "dollar/vaults/flexible") ≤ 0 := hn
    omega
  have hne : pos.address ≠ c.flexibleAddr := hu.ne_flexible
  have er : m.rewards = rewardsAfter s.rewards pos.index s.index (roundedDown amount pos.index) := hm.rewards
  refine ⟨?_, ?_, ?_, ?_⟩
  · show m.balance pos.address = _
    rw [hm.bal]
    show s.balance pos.address - _ + _ = _
    simp [hne]
  · show m.balance c.flexibleAddr = s.balance c.flexibleAddr - owed
    rw [hm.bal]
    show s.balance c.flexibleAddr - _ + _ = _
    simp [hne.symm]
  · unfold queryPendingRewards
    show owed = _ - m.rewards.sum _
    rw [er, rewardsAfter_sum, ← ho]
    omega
  · intro k r hg
    have hkr : r.index = k := hk _ (KV.mem_of_get? hg)
    refine ⟨if pos.index < k then rewardAfter s.index (roundedDown amount pos.index) r else r, ?_, ?_, ?_, ?_, ?_⟩
    · show m.rewards.get? k = _
      rw [er]
      refine KV.get?_of_mem ?_ (List.mem_map.2 ⟨(k, r), KV.mem_of_get? hg, rfl⟩)
      unfold rewardsAfter KV.Sorted
      rw [List.pairwise_map]
      exact hs
    · intro hle; rw [if_neg (by omega)]
    · intro hk'
      split
      · rw [rewardAfter_rewards]
        unfold userReward
        rw [hkr, hk']
        simp
      · rfl
    · intro hz
      split
      · unfold rewardAfter; rw [if_neg (by omega)]
      · rfl
    · intro h1 h2 h3 h4
      rw [if_pos h1]
      have hx : ∀ w, w = userReward s.index (roundedDown amount pos.index) r →
          r.rewards - (rewardAfter s.index (roundedDown amount pos.index) r).rewards = w := by
        intro w hw; rw [rewardAfter_rewards, hw]; omega
      have hw : userReward s.index (roundedDown amount pos.index) r =
          decTrunc (decMulInt (decQuo (decOfInt r.rewards) (decOfInt r.total)) (roundedDown amount pos.index)) := by
        unfold userReward
        rw [if_pos ⟨h3, h4⟩, if_pos ⟨by rw [hkr]; exact h2, h4.le⟩]
      obtain ⟨b1, b2, b3, b4⟩ := share_bounds h4.le h3 hq
      rw [← hw] at b1 b2 b3 b4
      rw [hx _ rfl]
      refine ⟨?_, b1, b2, b3, fun e1 e2 => ?_⟩
      · unfold rewardAfter; rw [if_pos ⟨h3, h4⟩]
      · rw [rewardAfter_rewards]
        have := b4 e1 e2
        omega

/-- `q` is `num / den` rounded to the nearest integer, and to the even one when two are equally near. -/
def Spec.IsHalfEven (num den q : Int) : Prop :=
  2 * |num - q * den| ≤ den ∧ (2 * |num - q * den| = den → 2 ∣ q)

theorem chopRoundPos_halfEven (d : Int) : IsHalfEven d (10 ^ 18) (chopRoundPos d) := by
  have h1 := Int.mul_ediv_add_emod d DEC
  have h2 := Int.emod_nonneg d DEC_pos.ne'
  have h3 := Int.emod_lt_of_pos d DEC_pos
  unfold chopRoundPos IsHalfEven
  simp only
  generalize d / DEC = q at *
  generalize d % DEC = r at *
  have e : DEC = 1000000000000000000 := rfl
  simp only [e] at *
  split
  · rw [show d - q * 10 ^ 18 = r by omega, abs_of_nonneg h2]
    exact ⟨by omega, fun _ => by omega⟩
  · split
    · rw [show d - (q + 1) * 10 ^ 18 = -(10 ^ 18 - r) by omega, abs_neg, abs_of_nonneg (by omega)]
      exact ⟨by omega, fun _ => by omega⟩
    · split
      · rw [show d - q * 10 ^ 18 = r by omega, abs_of_nonneg h2]
        exact ⟨by omega, fun _ => by omega⟩
      · rw [show d - (q + 1) * 10 ^ 18 = -(10 ^ 18 - r) by omega, abs_neg, abs_of_nonneg (by omega)]
        exact ⟨by omega, fun _ => by omega⟩

/-- C29, to the last digit: what a record with total `T` and rewards `R` pays for the principal `p` is `p`
times the quotient `q` of `R` and `T`, rounded down.  The quotient has 18 decimals: it is cut off after 36
decimals and then rounded to 18, half to even. -/
theorem C29_exact {c : Cfg} (s s' : State) (pos : PosEntry) (amount owed : Int)
    (hs : s.rewards.Sorted) (hk : ∀ e ∈ s.rewards, e.2.index = e.1)
    (hidx : 0 < pos.index) (h0 : 0 ≤ amount)
    (hv : 0 < s.principalOf (c.modAddr "dollar/vaults/flexible"))
    (h : claimRewards c pos amount s = .ok owed s') :
    ∃ p, IsFloor (amount * 10 ^ 12) pos.index p ∧
      ∀ k r, s.rewards.get? k = some r → pos.index < k → k ≠ s.index → 0 < r.total → 0 < r.rewards →
        ∃ x q w, IsFloor (r.rewards * 10 ^ 36) r.total x ∧ IsHalfEven x (10 ^ 18) q ∧ IsFloor (p * q) (10 ^ 18) w ∧
          s'.rewards.get? k = some ⟨k, r.total - p, r.rewards - w⟩ := by
  have hR := claimRewards_ok h
  clear h
  have hb' := down_bounds h0 hidx
  have hq := down_nonneg h0 hidx
  refine ⟨roundedDown amount pos.index, ⟨hb'.1, fun x hx => le_of_mul_le_lt hidx hx hb'.2⟩, ?_⟩
  rcases hR.run with ⟨hn, _⟩ | ⟨_, _, ho, m, hm, rfl⟩
  · have hn : s.principalOf (c.modAddr "dollar/vaults/flexible") ≤ 0 := hn
    omega
  have er : m.rewards = rewardsAfter s.rewards pos.index s.index (roundedDown amount pos.index) := hm.rewards
  intro k r hg h1 h2 h3 h4
  have hkr : r.index = k := hk _ (KV.mem_of_get? hg)
  have hD : DEC = 1000000000000000000 := rfl
  have hn : 0 ≤ r.rewards * DEC * (DEC * DEC) := by
    have := DEC_pos
    positivity
  have hd : 0 < r.total * DEC := Int.mul_pos h3 DEC_pos
  obtain ⟨b1, b2⟩ := tdiv_bounds hn hd
  have b0 := tdiv_nonneg' hn hd
  have hw : userReward s.index (roundedDown amount pos.index) r =
      decTrunc (decMulInt (decQuo (decOfInt r.rewards) (decOfInt r.total)) (roundedDown amount pos.index)) := by
    unfold userReward
    rw [if_pos ⟨h3, h4⟩, if_pos ⟨by rw [hkr]; exact h2, h4.le⟩]
  have hqq : decQuo (decOfInt r.rewards) (decOfInt r.total) =
      chopRoundPos ((r.rewards * DEC * (DEC * DEC)).tdiv (r.total * DEC)) := by
    unfold decQuo decOfInt chopRound
    rw [if_neg (by omega)]
  obtain ⟨_, _, c3⟩ := chopRoundPos_bounds b0
  have hqp : 0 ≤ decQuo (decOfInt r.rewards) (decOfInt r.total) * roundedDown amount pos.index := by
    rw [hqq]; exact Int.mul_nonneg c3 hq
  obtain ⟨t1, t2⟩ := tdiv_bounds hqp DEC_pos
  refine ⟨(r.rewards * DEC * (DEC * DEC)).tdiv (r.total * DEC), decQuo (decOfInt r.rewards) (decOfInt r.total),
    userReward s.index (roundedDown amount pos.index) r, ⟨?_, fun x hx => ?_⟩, ?_, ⟨?_, fun x hx => ?_⟩, ?_⟩
  · refine le_of_mul_le_mul_right (a := DEC) ?_ DEC_pos
    rw [hD] at b1 ⊢
    linarith
  · refine le_of_mul_le_lt hd (n := r.rewards * DEC * (DEC * DEC)) ?_ b2
    have := mul_le_mul_of_nonneg_right hx DEC_pos.le
    rw [hD] at this ⊢
    linarith
  · rw [hqq]; exact chopRoundPos_halfEven _
  · rw [hw, mul_comm (roundedDown amount pos.index)]
    exact t1
  · rw [mul_comm (roundedDown amount pos.index)] at hx
    rw [hw]
    exact le_of_mul_le_lt DEC_pos hx t2
  · show m.rewards.get? k = _
    rw [er]
    have hval : (if pos.index < k then rewardAfter s.index (roundedDown amount pos.index) r else r) =
        ⟨k, r.total - roundedDown amount pos.index, r.rewards - userReward s.index (roundedDown amount pos.index) r⟩ := by
      rw [if_pos h1]
      unfold rewardAfter
      rw [if_pos ⟨h3, h4⟩, hkr]
    rw [← hval]
    refine KV.get?_of_mem ?_ (List.mem_map.2 ⟨(k, r), KV.mem_of_get? hg, rfl⟩)
    unfold rewardsAfter KV.Sorted
    rw [List.pairwise_map]
    exact hs

/-- A quotient of two thirds is rounded up in the last digit; one half of the last digit goes to the even one. -/
example : IsFloor (2 * 10 ^ 36) 3 666666666666666666666666666666666666 ∧
    IsHalfEven 666666666666666666666666666666666666 (10 ^ 18) 666666666666666667 ∧
    IsHalfEven 2500000000000000000 (10 ^ 18) 2 ∧ ¬ IsHalfEven 2500000000000000000 (10 ^ 18) 3 := by
  refine ⟨⟨by decide, fun x hx => by omega⟩, ?_, ?_, ?_⟩ <;> (unfold IsHalfEven; decide)

/-- Alice's half of a flexible vault gets half of a finished cycle's record and nothing of the current one. -/
example : let s := run Demo.cfg (Demo.hist2.take 9) Demo.start
    s.index = 1200000000000 ∧ 0 < s.principalOf (Demo.cfg.modAddr "dollar/vaults/flexible") ∧
    s.rewards = [(1100000000000, ⟨1100000000000, 2000000, 500000⟩), (1200000000000, ⟨1200000000000, 2000000, 500000⟩)] ∧
    (claimRewards Demo.cfg ⟨Demo.alice, 2, 2000000, 1000000000000, 2000000, 3⟩ 1000000 s).isOk = true ∧
    (run Demo.cfg (Demo.hist2.take 11) Demo.start).rewards =
      [(1100000000000, ⟨1100000000000, 1000000, 250000⟩), (1200000000000, ⟨1200000000000, 1000000, 500000⟩)] := by
  decide +kernel

/-! ### C32 -/

/-- The walk of the query computes what the claim pays. -/
theorem queryWalk_eq (rs : KV Int Reward) (start cur p acc : Int) :
    (rs.filter fun e => decide (start < e.1)).foldl (queryWalk cur p) acc = acc + rewardsOwed rs start cur p := by
  unfold rewardsOwed
  induction rs generalizing acc with
  | nil => simp
  | cons e t ih =>
    rw [List.filter_cons, KV.sum_cons]
    by_cases hlt : start < e.1
    · simp only [hlt, decide_true, if_true, List.foldl_cons]
      rw [ih]
      unfold queryWalk userReward
      by_cases h : 0 < e.2.total ∧ 0 < e.2.rewards
      · rw [if_neg (by omega), if_pos h]
        by_cases h2 : e.2.index ≠ cur
        · rw [if_pos ⟨h2, by omega⟩, if_pos ⟨h2, h.2.le⟩]; omega
        · rw [if_neg (fun hh => h2 hh.1), if_neg (fun hh => h2 hh.1)]; omega
      · rw [if_pos (by omega), if_neg h]; omega
    · simp only [hlt, decide_false, if_false, Bool.false_eq_true]
      rw [ih]; omega

theorem LoopOk.single {c : Cfg} {signer : String} {a : Addr} {v : Int} {p : PosEntry}
    {rem removed rem' removed' : Int} {s s' : State} (h : LoopOk c signer a v [p] rem removed s rem' removed' s')
    (hne : rem ≠ 0) : OneOk c signer a v p (amountToRemove p rem) s s' := by
  cases h with
  | stop => exact absurd rfl hne
  | step _ _ _ _ _ m _ _ _ _ _ h1 h2 => cases h2; exact h1

theorem unlockedState_distributed (m : State) (a : Addr) (v r : Int) :
    (unlockedState m a v r).vstats.flexDistributed = m.vstats.flexDistributed := by
  unfold unlockedState vAddP vUsers
  simp only
  split_ifs <;> rfl

/-- A user with one flexible position unlocks all of it: the flexible vault's account pays exactly the
rewards that PendingRewardsByProvider reported immediately before, and the distributed-rewards
statistic grows by the same amount. -/
theorem C32_query_predicts_payout {c : Cfg} (hc : c.WF) (env : Env) (s s' : State) (h : Reachable c s)
    (signer : String) (user : Addr) (hd : c.decode signer = some user) (hu : c.IsUser user)
    (time : Int) (p : Position)
    (hone : s.positions.filter (fun e => decide (e.1.1 = user ∧ e.1.2.1 = 2)) = [((user, 2, time), p)])
    (hv : 0 < s.principalOf (c.modAddr "dollar/vaults/flexible"))
    (he : exec c env (.unlock signer 2 (some p.amount)) s = .ok () s') :
    ∃ rewards, queryPendingByProvider c s signer = some (rewards, [(p.amount, rewards)]) ∧
      s'.balance (c.modAddr "dollar/vaults/flexible") = s.balance (c.modAddr "dollar/vaults/flexible") - rewards ∧
      s'.vstats.flexDistributed = s.vstats.flexDistributed + rewards := by
  have hi := (h.vinv hc).toV0
  have hmem : ((user, 2, time), p) ∈ s.positions := by
    have : ((user, 2, time), p) ∈ s.positions.filter (fun e => decide (e.1.1 = user ∧ e.1.2.1 = 2)) := by
      rw [hone]; exact List.mem_singleton.2 rfl
    exact (List.mem_filter.1 this).1
  have hent := hi.entry ((user, 2, time), p) hmem
  have hx : 0 < p.index := hent.idx
  have hl : positionsOf s user 2 = [⟨user, 2, p.principal, p.index, p.amount, p.time⟩] := by
    have : positionsOf s user 2 = (s.positions.filter (fun e => decide (e.1.1 = user ∧ e.1.2.1 = 2))).map
        (fun e => (⟨e.1.1, e.1.2.1, e.2.principal, e.2.index, e.2.amount, e.2.time⟩ : PosEntry)) := by
      unfold positionsOf
      generalize s.positions = l
      induction l with
      | nil => rfl
      | cons e t ih =>
        rw [List.filterMap_cons, List.filter_cons]
        by_cases hm : e.1.1 = user ∧ e.1.2.1 = 2
        · simp only [hm, and_self, if_true, decide_true, List.map_cons, ih]
        · simp only [hm, if_false, decide_false, Bool.false_eq_true, ih]
    rw [this, hone]; rfl
  obtain ⟨_, _, amt, a, ha, hk⟩ := unlock_ok (show unlock c signer 2 (some p.amount) s = .ok () s' from he)
  cases ha
  have ea : a = user := Option.some.inj (hk.dec.symm.trans hd)
  subst ea
  have hpos := hk.pos
  obtain ⟨m, removed, hlp, rfl⟩ := hk.run
  rw [hl] at hlp
  refine ⟨rewardsOwed s.rewards p.index s.index (roundedDown p.amount p.index), ?_, ?_⟩
  · unfold queryPendingByProvider
    rw [hd]
    show (do
      let l ← (positionsOf s a 2).mapM fun p => (positionRewards s p).map fun r => (p.amount, r)
      pure ((l.map Prod.snd).sum, l)) = _
    rw [hl]
    have e1 : positionRewards s ⟨a, 2, p.principal, p.index, p.amount, p.time⟩ =
        some (rewardsOwed s.rewards p.index s.index (roundedDown p.amount p.index)) := by
      unfold positionRewards
      rw [if_neg hx.ne', queryWalk_eq, Int.zero_add]
    simp [e1]
  · have e2 : amountToRemove ⟨a, 2, p.principal, p.index, p.amount, p.time⟩ p.amount = p.amount := by
      unfold amountToRemove; simp
    have h1 := hlp.single hpos.ne'
    rw [e2] at h1
    · cases h1 with
      | staked _ hn => exact absurd rfl hn
      | flexible s1 m3 m4 owed y _ hr hy h3 hn h4 e =>
        rw [posAddr_eq hc hd] at h3 h4
        have eacct : ∀ t, acctOf c a 2 t = flexAcct c a t := by
          intro t; unfold acctOf; rw [if_pos (show (2 : Int) = FLEXIBLE from rfl)]
        rw [eacct] at h3 h4
        have n1 := (flexAcct_ne_flexible hc a p.time).symm
        have n2 := hu.ne_flexible.symm
        have n3 := hc.flexible_ne_yield
        clear hy
        have how : owed = rewardsOwed s.rewards p.index s.index (roundedDown p.amount p.index) := by
          rcases hr.run with ⟨hz, _⟩ | ⟨_, _, ho, _⟩
          · have hz : s.principalOf (c.modAddr "dollar/vaults/flexible") ≤ 0 := hz
            omega
          · exact ho
        have hF : s1.balance c.flexibleAddr = s.balance c.flexibleAddr - owed ∧ s1.vstats = s.vstats := by
          rcases hr.run with ⟨_, ho, rfl⟩ | ⟨_, _, _, mm, hm, rfl⟩
          · rw [ho]; exact ⟨by show s.balance _ = _; omega, rfl⟩
          · refine ⟨?_, hm.vstats⟩
            show mm.balance _ = _
            rw [hm.bal, if_pos rfl, if_neg n2]
            show s.balance _ - _ + _ = _
            omega
        rw [← how]
        have hbal : m.balance c.flexibleAddr = s.balance c.flexibleAddr - owed := by
          rw [e]; show m4.balance _ = _
          rw [h4.same n1 n2, h3.same n3 n1]
          exact hF.1
        have hst : m.vstats.flexDistributed = s.vstats.flexDistributed + owed := by
          rw [e]; show m4.vstats.flexDistributed = _
          rw [h4.vstats, h3.vstats]
          show s1.vstats.flexDistributed + owed = _
          rw [hF.2]
        refine ⟨hbal, ?_⟩
        rw [← hst]
        exact unlockedState_distributed m a 2 _

/-- Alice's single flexible position after a partial withdrawal: the query shows 250000. -/
example : let s := run Demo.cfg Demo.hist2 Demo.start
    s.positions.filter (fun e => decide (e.1.1 = Demo.alice ∧ e.1.2.1 = 2)) =
      [((Demo.alice, 2, 3), ⟨1000000, 1000000000000, 1000000, 3⟩)] ∧
    0 < s.principalOf (Demo.cfg.modAddr "dollar/vaults/flexible") ∧
    queryPendingByProvider Demo.cfg s Demo.aliceS = some (250000, [(1000000, 250000)]) := by
  decide +kernel

/-! ### C49 -/

/-- A flexible `Unlock` succeeds whenever the amount is allowed, unlocking is not paused, season one has
not ended and the yield account holds the yield (as shown by the Yield query) of the accounts of the
user's flexible positions. -/
theorem C49_flexible_withdrawable {c : Cfg} (hc : c.WF) (env : Env) (s : State) (h : ReachableSmall c s)
    (signer : String) (user : Addr) (amount : Int) (hd : c.decode signer = some user) (hu : c.IsUser user)
    (hbl : ∀ t, c.blocked (vaultAccount c user 2 t) = false)
    (hs : s.seasonOneEnded = false) (hp : s.vPaused ≠ 2 ∧ s.vPaused ≠ 3) (h0 : 0 < amount)
    (hle : amount ≤ lockedBy s user 2) (hm : c.minUnlock ≤ amount ∨ amount = lockedBy s user 2)
    (hy : (s.positions.map fun e => if e.1.1 = user ∧ e.1.2.1 = 2 then
        yieldAt s (vaultAccount c user 2 e.1.2.2) s.index
        else 0).sum ≤ s.balance (c.modAddr "dollar/yield")) :
    ∃ s', exec c env (.unlock signer 2 (some amount)) s = .ok () s' := by
  have hi := (h.reachable.vinv hc).toV0
  have hled := h.reachable.led hc
  have e0 : ∀ t, vaultAccount c user 2 t = flexAcct c user t := fun t => by
    unfold vaultAccount flexAcct; rw [if_pos rfl]
  have hlk : lockedTotal s user 2 = lockedBy s user 2 := lockedTotal_eq s user 2
  rw [← hlk] at hle hm
  have hyy : yieldOf c s user (positionsOf s user 2) ≤ s.balance c.yieldAddr := by
    refine le_trans (le_of_eq ?_) hy
    unfold yieldOf positionsOf
    have hent := hi.entry
    generalize s.positions = l at hent
    induction l with
    | nil => rfl
    | cons e t ih =>
      have ih := ih fun x hx => hent x (List.mem_cons_of_mem _ hx)
      rw [List.filterMap_cons, List.map_cons, List.sum_cons, ← ih]
      by_cases hm : e.1.1 = user ∧ e.1.2.1 = 2
      · have ht : e.2.time = e.1.2.2 := (hent e List.mem_cons_self).time
        simp only [hm, and_self, if_true, List.map_cons, List.sum_cons]
        congr 1
        rw [ht, e0]
        exact claimable_eq_yieldAt (hled.good.bal _) hled.good.index
      · simp only [hm, if_false]; omega
  obtain ⟨r, m, hloop⟩ := unlockLoop_flexible hc hd hu (fun t => by rw [← e0]; exact hbl t)
    (positionsOf s user 2) amount 0 s hled hi (h.rnn hc) (h.small.pb hi)
    (pending_positionsOf hi user 2) h0.le hle hyy
  exact ⟨_, unlock_of_loop (a := user) hd (.inr rfl) (fun e => by rw [hs] at e; cases e.2)
    (by rintro (e | e); exact hp.2 e; exact hp.1 e) h0 hle (by rintro ⟨e1, e2⟩; omega) hloop⟩

/-- After the demo history (reachable with small positions, see `Demo.small1`) the yield account covers
the 200000 of yield of Alice's flexible position. -/
example : let s := run Demo.cfg Demo.hist1 Demo.start
    (∀ t, Demo.cfg.blocked (vaultAccount Demo.cfg Demo.alice 2 t) = false) ∧
    s.seasonOneEnded = false ∧ s.vPaused = 0 ∧ lockedBy s Demo.alice 2 = 2000000 ∧
    yieldAt s (vaultAccount Demo.cfg Demo.alice 2 3) s.index = 200000 ∧
    (s.positions.map fun e => if e.1.1 = Demo.alice ∧ e.1.2.1 = 2 then
        yieldAt s (vaultAccount Demo.cfg Demo.alice 2 e.1.2.2) s.index else 0).sum = 200000 ∧
    200000 ≤ s.balance (Demo.cfg.modAddr "dollar/yield") := by
  refine ⟨fun t => ?_, by decide +kernel⟩
  have h1 : vaultAccount Demo.cfg Demo.alice 2 t ≠ Demo.cfg.moduleAddr := by
    have := flexAcct_ne_module Demo.cfg_wf Demo.alice t
    unfold vaultAccount; rw [if_pos rfl]; exact this
  exact decide_eq_false h1

end Dollar
