import Verif.Lemmas.Cover2
import Verif.Spec.Demo

/-
C93: the account the module mints to and burns from is empty between transactions.
-/
set_option maxRecDepth 100000
namespace Dollar
open Spec MM

/-- After any history (with upgrades in between) the minting account holds no dollars and no principal:
everything minted reached its recipient, everything taken for a bridge transfer was burned. -/
theorem C93_minting_account_empty {c : Cfg} (hc : c.WF) {s : State} (hr : Reachable c s) :
    s.balance c.moduleAddr = 0 ∧ s.principalOf c.moduleAddr = 0 := by
  have : s.balance c.moduleAddr = 0 ∧ ∃ R, CoveredBy c R s := by
    induction hr with
    | fresh h => exact ⟨by unfold State.balance; rw [h.bal]; rfl, [], CoveredBy.initial h⟩
    | @step s h env m hm ih =>
      obtain ⟨h1, R, h2⟩ := ih
      have hl := h.led hc
      refine ⟨?_, _, step_covered hc hl hm h2⟩
      unfold step runTx
      cases hx : exec c env m s with
      | ok u s' => exact (exec_module hc hl hm hx).trans h1
      | err => exact h1
      | panic => exact h1
    | upgrade h hu ih =>
      obtain ⟨h1, R, h2⟩ := ih
      refine ⟨?_, R, h2.upgrade hu⟩
      obtain ⟨_, _, _, _, _, _, _, _, _, rfl⟩ := hu.rest
      exact h1
  obtain ⟨h1, R, h2⟩ := this
  exact ⟨h1, h2.prin⟩

/-- Hence the supply is what all other accounts hold together. -/
theorem C93_supply_elsewhere {c : Cfg} (hc : c.WF) {s : State} (hr : Reachable c s) :
    ((s.bal.filter fun e => e.1 ≠ c.moduleAddr).map fun e => e.2).sum = s.supply := by
  have h1 := (C93_minting_account_empty hc hr).1
  have h2 := KV.sum_erase hr.shape.bal c.moduleAddr (fun _ v => v)
  have h3 : s.bal.at' c.moduleAddr (fun _ v => v) = s.balance c.moduleAddr := by
    unfold KV.at' State.balance
    cases s.bal.get? c.moduleAddr <;> rfl
  have h4 : s.bal.sum (fun _ v => v) = s.supply := (hr.led hc).sum
  rw [h3, h1, h4, sub_zero] at h2
  rw [← h2]
  unfold KV.sum KV.erase
  simp only [decide_not, ne_eq]

-- In the demo history two deliveries and an index update mint 16.5 USDN, all through the minting account.
example : let s := run Demo.cfg Demo.hist1 Demo.start
    Reachable Demo.cfg s ∧ s.supply = 16500000 ∧ s.totalYield = 1500000 ∧ s.bal.has Demo.cfg.moduleAddr = true ∧
    s.bal.length = 8 :=
  ⟨.of_run Demo.start_initial Demo.hist1_signed, by decide +kernel⟩

end Dollar
