import Verif.Lemmas.VInv2
import Verif.Spec.Demo

/-
C22, C23, C26, C27: the vault accounts hold the positions, the principal totals cover them and the
user counts are exact, in every reachable state.
-/
set_option maxRecDepth 100000
namespace Dollar
open MM Spec

/-! ### C22 -/

/-- The staked vault account holds at least the sum of all staked positions. -/
theorem C22_staked_vault_backed {c : Cfg} (hc : c.WF) (s : State) (h : Reachable c s) :
    lockedIn s 1 ≤ s.balance (c.modAddr "dollar/vaults/staked") := (h.vinv hc).staked

/-- Non-vacuity: after the demo history 3000000 are staked by Alice (Bob has withdrawn). -/
example : let s := run Demo.cfg Demo.hist2 Demo.start
    Reachable Demo.cfg s ∧ lockedIn s 1 = 3000000 ∧
    s.balance (Demo.cfg.modAddr "dollar/vaults/staked") = 3000000 :=
  ⟨Demo.reach2, by decide +kernel⟩

/-! ### C23 -/

/-- Every flexible position is held in full by its own account; the accounts of two different
positions are different, and none of them is the staked vault's account. -/
theorem C23_flexible_positions_backed {c : Cfg} (hc : c.WF) (s : State) (h : Reachable c s)
    (user : Addr) (time : Int) (p : Position) (hp : ((user, 2, time), p) ∈ s.positions) :
    p.amount ≤ s.balance (vaultAccount c user 2 time) ∧
    (∀ user' vault' time' p', ((user', vault', time'), p') ∈ s.positions →
      vaultAccount c user' vault' time' = vaultAccount c user 2 time →
      user' = user ∧ vault' = 2 ∧ time' = time) := by
  have e0 : ∀ a t, vaultAccount c a 2 t = flexAcct c a t := fun a t => by
    unfold vaultAccount flexAcct; rw [if_pos rfl]
  have e1 : ∀ a t, vaultAccount c a 1 t = c.stakedAddr := fun a t => by
    unfold vaultAccount Cfg.stakedAddr; rw [if_neg (by decide)]
  rw [e0]
  have hf := (h.vinv hc).flex ((user, 2, time), p) hp rfl
  refine ⟨hf, ?_⟩
  intro u v t p' hp' he
  have hv := ((h.vinv hc).entry _ hp').vault
  rcases hv with hv | hv
  · have hv : v = 1 := hv
    subst hv
    rw [e1] at he
    exact absurd he.symm (flexAcct_ne_staked hc user time)
  · have hv : v = 2 := hv
    subst hv
    rw [e0] at he
    obtain ⟨e1, e2⟩ := flexAcct_inj hc he
    exact ⟨e1, rfl, e2⟩

/-- Non-vacuity: Alice's flexible position after a partial withdrawal. -/
example : let s := run Demo.cfg Demo.hist2 Demo.start
    ((Demo.alice, 2, 3), (⟨1000000, 1000000000000, 1000000, 3⟩ : Position)) ∈ s.positions ∧
    s.balance (vaultAccount Demo.cfg Demo.alice 2 3) = 1000000 := by decide +kernel

/-! ### C26 -/

/-- The flexible total that divides the rewards equals the flexible statistic, and both statistics
cover the principals of the positions. -/
theorem C26_principal_totals {c : Cfg} (hc : c.WF) (s : State) (h : Reachable c s) :
    s.vstats.flexPrincipal = s.totalFlexible ∧
    principalIn s 2 ≤ s.totalFlexible ∧
    principalIn s 1 ≤ s.vstats.stakedPrincipal ∧
    (∀ e ∈ s.positions, 0 ≤ e.2.principal ∧ 0 ≤ e.2.amount) :=
  ⟨(h.vinv hc).flexP, (h.vinv hc).ftot, (h.vinv hc).stakedP,
    fun e he => ⟨((h.vinv hc).entry e he).prin_nonneg, ((h.vinv hc).entry e he).amount⟩⟩

example : let s := run Demo.cfg Demo.hist2 Demo.start
    s.totalFlexible = 1000000 ∧ principalIn s 2 = 1000000 ∧ s.vstats.stakedPrincipal = 3000000 ∧
    principalIn s 1 = 3000000 := by decide +kernel

/-! ### C27 -/

/-- The user statistics count the distinct users with a position (modulo the width of the counter). -/
theorem C27_user_counts {c : Cfg} (hc : c.WF) (s : State) (h : Reachable c s) :
    s.vstats.stakedUsers = (usersIn s 1).length % 2 ^ 64 ∧
    s.vstats.flexUsers = (usersIn s 2).length % 2 ^ 64 :=
  ⟨(h.vinv hc).stakedU, (h.vinv hc).flexU⟩

/-- With fewer than 2^64 users the counts are exact; in particular no decrement ever wrapped. -/
theorem C27_user_counts_exact {c : Cfg} (hc : c.WF) (s : State) (h : Reachable c s)
    (h1 : (usersIn s 1).length < 2 ^ 64) (h2 : (usersIn s 2).length < 2 ^ 64) :
    s.vstats.stakedUsers = (usersIn s 1).length ∧ s.vstats.flexUsers = (usersIn s 2).length := by
  obtain ⟨e1, e2⟩ := C27_user_counts hc s h
  rw [e1, e2, Nat.mod_eq_of_lt h1, Nat.mod_eq_of_lt h2]
  exact ⟨rfl, rfl⟩

/-- Two stakers before Bob withdraws, one after. -/
example : (run Demo.cfg Demo.hist1 Demo.start).vstats.stakedUsers = 2 ∧
    (run Demo.cfg Demo.hist2 Demo.start).vstats.stakedUsers = 1 ∧
    usersIn (run Demo.cfg Demo.hist2 Demo.start) 1 = [Demo.alice] := by decide +kernel

end Dollar
