import Verif.Lemmas.Deliver
import Verif.Model.Queries
import Verif.Spec.Demo
import Verif.Spec.Arith

/-
C07: claiming yield pays exactly the claimable amount, once.
C46: it does not change anyone else's claimable yield.
-/
set_option maxRecDepth 100000
namespace Dollar
open Spec MM

/-- What the Yield query reports: with `e` the value of the account's principal at the current
index, it reports `e - balance` if that is at least 2 and zero otherwise. -/
theorem C07_yield_query {c : Cfg} {s : State} (hi : 0 < s.index) {account : String} {a : Addr}
    (ha : c.decode account = some a) (hp : 0 ≤ s.principalOf a) :
    ∃ e, IsFloor (s.principalOf a * s.index) (10 ^ 12) e ∧
      queryYield c s account = some (if 2 ≤ e - s.balance a then e - s.balance a else 0) := by
  obtain ⟨h1, h2⟩ := present_bounds hp hi
  refine ⟨present (s.principalOf a) s.index, ⟨h1, fun x hx => le_of_mul_le_lt SCALE_pos hx h2⟩, ?_⟩
  unfold queryYield claimable
  rw [ha]
  simp only [Option.map_some]
  congr 1
  split <;> split <;> omega

/-- A successful claim. -/
theorem C07_claim {c : Cfg} {s s' : State} (env : Env) (signer : String)
    (hm : (Msg.claimYield signer).SignedByUser c) (h : exec c env (.claimYield signer) s = .ok () s') :
    ∃ a y, c.decode signer = some a ∧ queryYield c s signer = some y ∧ 0 ≤ y ∧
      s'.balance a = s.balance a + y ∧
      s'.balance c.yieldAddr = s.balance c.yieldAddr - y ∧
      (∀ b, b ≠ a → b ≠ c.yieldAddr → s'.balance b = s.balance b) ∧
      s'.principal = s.principal ∧ s'.supply = s.supply ∧ s'.index = s.index ∧
      s'.totalPrincipal = s.totalPrincipal ∧
      queryYield c s' signer = some 0 ∧
      s'.events = s.events ++ [.yieldClaimed signer y] := by
  obtain ⟨_, a, m, ha, _, hv, rfl⟩ := claimYield_ok h
  have hu : c.IsUser a := hm a ha
  have hb : m.balance a = s.balance a + claimable s a := by
    rw [hv.bal, if_neg hu.ne_yield, if_pos rfl]; omega
  have hy : m.balance c.yieldAddr = s.balance c.yieldAddr - claimable s a := by
    rw [hv.bal, if_pos rfl, if_neg (fun e => hu.ne_yield e.symm)]; omega
  have hp := (hv.skip (.inl rfl)).1
  refine ⟨a, claimable s a, ha, by unfold queryYield; rw [ha]; rfl, claimable_nonneg s a, hb, hy, ?_,
    hp, hv.supply, hv.index, (hv.skip (.inl rfl)).2.1, ?_, by rw [← hv.events]⟩
  · intro b h1 h2
    show m.balance b = s.balance b
    rw [hv.bal, if_neg h2, if_neg h1]; omega
  · have e : claimable m a = 0 := by
      have hq : m.principalOf a = s.principalOf a := by unfold State.principalOf; rw [hp]
      unfold claimable
      rw [hb, hq, hv.index]
      unfold claimable
      simp only
      split <;> split <;> omega
    unfold queryYield
    rw [ha]
    show some (claimable m a) = some 0
    rw [e]

/-- When a claim succeeds: the module is not paused, the signer decodes to an account that may
receive coins and the yield account holds the reported amount. -/
theorem C07_claim_succeeds_iff {c : Cfg} {s : State} (env : Env) (signer : String)
    (hy : 0 ≤ s.balance c.yieldAddr) :
    (∃ s', exec c env (.claimYield signer) s = .ok () s') ↔
      s.paused = false ∧ ∃ a y, c.decode signer = some a ∧ queryYield c s signer = some y ∧
        c.blocked a = false ∧ y ≤ s.balance c.yieldAddr := by
  constructor
  · rintro ⟨s', h⟩
    obtain ⟨hp, a, m, ha, hb, hv, rfl⟩ := claimYield_ok h
    refine ⟨hp, a, claimable s a, ha, by unfold queryYield; rw [ha]; rfl, hb, ?_⟩
    rcases hv.enough with h0 | h0
    · rw [h0]; exact hy
    · exact h0
  · rintro ⟨hp, a, y, ha, hq, hb, hle⟩
    have hq : claimable s a = y := by
      unfold queryYield at hq; rw [ha] at hq; exact Option.some.inj hq
    have h1 : sendCoins c c.yieldAddr a y s = .ok () (if y = 0 then s else
        credit (debit s c.yieldAddr y) a y) := by
      unfold sendCoins
      split
      · rfl
      · rw [bind_apply, subCoins_eq, if_neg (by omega)]
        simp only
        rw [bind_apply]
        unfold sendRestriction
        rw [if_neg ‹_›, if_pos rfl]
        rfl
    refine ⟨(fun m : State => { m with events := m.events ++ [.yieldClaimed signer y] })
      (if y = 0 then s else credit (debit s c.yieldAddr y) a y), ?_⟩
    · show claimYield c signer s = _
      unfold claimYield getYield
      rw [bind_apply, get_apply]
      simp only [hp, Bool.false_eq_true, if_false, ha]
      have h2 : newCoin (claimable s a) s = .ok () s := by
        unfold newCoin
        rw [if_neg (by have := claimable_nonneg s a; omega)]
        rfl
      simp only [bind_apply, get_apply, pure_apply, h2]
      unfold sendModuleToAccount
      rw [hq, hb]
      simp only [Bool.false_eq_true, if_false, h1]
      rfl

/-- An immediate second claim succeeds and pays nothing. -/
theorem C07_second_claim {c : Cfg} (hc : c.WF) {s s' : State} (hr : Reachable c s) (env env' : Env)
    (signer : String) (hm : (Msg.claimYield signer).SignedByUser c)
    (h : exec c env (.claimYield signer) s = .ok () s') :
    ∃ s'', exec c env' (.claimYield signer) s' = .ok () s'' ∧ s''.bal = s'.bal ∧
      s''.principal = s'.principal ∧ s''.supply = s'.supply := by
  have hl : Led c s' := (hr.led hc).exec hc hm h
  obtain ⟨a, y, ha, hq, _, _, _, _, _, _, _, _, h0, _⟩ := C07_claim env signer hm h
  obtain ⟨hpz, a', m, ha', hb, hv, e⟩ := claimYield_ok h
  rw [ha] at ha'; cases ha'
  have hp : s'.paused = false := by rw [e]; show m.paused = false; rw [hv.paused]; exact hpz
  obtain ⟨s'', h2⟩ := (C07_claim_succeeds_iff env' signer (hl.good.bal _)).2
    ⟨hp, a, 0, ha, h0, hb, hl.good.bal _⟩
  refine ⟨s'', h2, ?_⟩
  obtain ⟨_, b, m2, hb2, _, hv2, rfl⟩ := claimYield_ok h2
  rw [ha] at hb2; cases hb2
  have hz : claimable s' a = 0 := by
    unfold queryYield at h0; rw [ha] at h0; exact Option.some.inj h0
  rw [hz] at hv2
  have := hv2.zero rfl
  rw [this]
  exact ⟨rfl, rfl, rfl⟩

/-- C46: a claim by one account leaves the Yield query of every other account unchanged. -/
theorem C46_claim_leaves_others {c : Cfg} {s s' : State} (env : Env) (signer : String)
    (hm : (Msg.claimYield signer).SignedByUser c) (h : exec c env (.claimYield signer) s = .ok () s')
    (other : String) (ho : c.decode other ≠ c.decode signer) (hy : c.decode other ≠ some c.yieldAddr) :
    queryYield c s' other = queryYield c s other := by
  obtain ⟨a, y, ha, _, _, _, _, hb, hp, _, hi, _⟩ := C07_claim env signer hm h
  unfold queryYield
  cases hd : c.decode other with
  | none => rfl
  | some b =>
    rw [hd] at ho hy
    have h1 : b ≠ a := fun e => ho (by rw [e, ha])
    have h2 : b ≠ c.yieldAddr := fun e => hy (by rw [e])
    simp only [Option.map_some]
    congr 1
    unfold claimable State.principalOf
    rw [hb b h1 h2, hp, hi]

-- The demo chain: after the index update alice claims 400000 (principal 4000000 at index 1.1).
example : (Msg.claimYield Demo.aliceS).SignedByUser Demo.cfg ∧
    Reachable Demo.cfg (run Demo.cfg Demo.hist1 Demo.start) ∧
    queryYield Demo.cfg (run Demo.cfg Demo.hist1 Demo.start) Demo.aliceS = some 400000 ∧
    (exec Demo.cfg (Demo.env 8) (.claimYield Demo.aliceS) (run Demo.cfg Demo.hist1 Demo.start)).isOk :=
  ⟨Demo.aliceS_user, Demo.reach1, by decide +kernel, by decide +kernel⟩

end Dollar
