import Verif.Lemmas.Deliver
import Verif.Lemmas.Shape
import Verif.Spec.Demo

/-
C04: the balances add up to the supply and none is negative.
-/
set_option maxRecDepth 100000
namespace Dollar
open Spec

/-- `totalBalances` adds every stored balance; each account is stored once. -/
theorem C04_balances_sum_to_supply {c : Cfg} (hc : c.WF) {s : State} (hr : Reachable c s) :
    totalBalances s = s.supply ∧ (∀ a, 0 ≤ s.balance a) ∧ (s.bal.map Prod.fst).Nodup :=
  ⟨(hr.led hc).sum, (hr.led hc).good.bal, KV.nodup_keys hr.shape.bal⟩

/-- No account holds more than the supply. -/
theorem C04_balance_le_supply {c : Cfg} (hc : c.WF) {s : State} (hr : Reachable c s) (a : Addr) :
    s.balance a ≤ s.supply := by
  have hl := hr.led hc
  have hd := KV.sum_erase hr.shape.bal a (fun _ v => v)
  have h0 : 0 ≤ (s.bal.erase a).sum (fun _ v => v) := by
    refine KV.sum_nonneg fun e he => ?_
    have h1 := KV.get?_of_mem (KV.sorted_erase a hr.shape.bal) (k := e.1) (v := e.2) he
    rw [KV.get?_erase] at h1
    split at h1
    · cases h1
    · have h := hl.good.bal e.1
      unfold State.balance at h
      rw [h1] at h; exact h
  have h2 : s.bal.at' a (fun _ v => v) = s.balance a := by
    unfold KV.at' State.balance
    cases s.bal.get? a <;> rfl
  have h3 : s.bal.sum (fun _ v => v) = s.supply := hl.sum
  rw [h2, h3] at hd
  rw [hd] at h0
  linarith

-- The demo chain holds a non-trivial distribution of coins.
example : Reachable Demo.cfg (run Demo.cfg Demo.hist2 Demo.start) ∧
    (run Demo.cfg Demo.hist2 Demo.start).bal.map Prod.snd =
      [0, 750000, 1000000, 3000000, 1000000, 1200000, 7050000, 4000000] ∧
    (run Demo.cfg Demo.hist2 Demo.start).supply = 18000000 :=
  ⟨Demo.reach2, by decide +kernel, by decide +kernel⟩

end Dollar
