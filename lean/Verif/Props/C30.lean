import Verif.Lemmas.VStats
import Verif.Lemmas.Names
import Verif.Spec.Arith
import Verif.Spec.Vaults
import Verif.Spec.Demo

/-
C30: Lock moves exactly the amount into the vault and respects its rules.
C31: paused vault actions change nothing.
All theorems hold in every state with a positive index.
-/
set_option maxRecDepth 100000
set_option linter.unusedSimpArgs false
namespace Dollar
open MM Spec

theorem vaultAccount_eq (c : Cfg) (a : Addr) (v t : Int) : vaultAccount c a v t = acctOf c a v t := rfl

theorem has_false {K V : Type} [DecidableEq K] {m : KV K V} {k : K} :
    m.has k = false ↔ m.get? k = none := by
  unfold KV.has
  cases m.get? k <;> simp

/-- Exactly when `Lock` succeeds (vault pause states: 1 is "lock", 3 is "all"). -/
theorem C30_lock_iff {c : Cfg} (hc : c.WF) (env : Env) (signer : String) (vault amount : Int)
    (s : State) (hi : 0 < s.index) :
    (∃ s', exec c env (.lock signer vault (some amount)) s = .ok () s') ↔
      ∃ user, c.decode signer = some user ∧ (vault = 1 ∨ vault = 2) ∧
        (vault = 2 → s.seasonOneEnded = false) ∧ s.vPaused ≠ 1 ∧ s.vPaused ≠ 3 ∧
        c.minLock ≤ amount ∧ 0 ≤ amount ∧ amount ≤ s.balance user ∧
        s.positions.get? (user, vault, env.time) = none := by
  constructor
  · rintro ⟨s', h⟩
    obtain ⟨amt, a, ha, h⟩ := lock_ok (show lock c env signer vault (some amount) s = .ok () s' from h)
    cases ha
    refine ⟨a, h.dec, h.vault, fun hv => ?_, fun hv => h.notPaused (.inr hv), fun hv => h.notPaused (.inl hv),
      h.min, h.nonneg, h.funds, has_false.1 h.fresh⟩
    by_contra hn
    exact h.season ⟨hv, by simpa using hn⟩
  · rintro ⟨a, hd, hv, hs, h1, h3, hm, h0, hb, hp⟩
    have e1 : ¬ (vault = FLEXIBLE ∧ s.seasonOneEnded = true) := by
      rintro ⟨e, e'⟩; rw [hs e] at e'; cases e'
    have e2 : ¬ (s.vPaused = PAUSE_ALL ∨ s.vPaused = PAUSE_LOCK) := by
      rintro (e | e)
      · exact h3 e
      · exact h1 e
    have e3 : validVault vault = true := by unfold validVault; exact decide_eq_true hv
    obtain ⟨m, hm1, hm2⟩ := sendCoins_progress (c := c) (b := posAddr c signer vault env.time) hb
      (by omega : s.index ≠ 0) (.inl (by rw [posAddr_eq hc hd]; exact acctOf_ne_yield hc _ _ _))
    have hmi : m.index ≠ 0 := by rw [hm2.index]; omega
    show ∃ s', lock c env signer vault (some amount) s = .ok () s'
    refine ⟨lockedState m signer a vault amount env.time, ?_⟩
    unfold lock
    simp only [bind_apply, get_apply, if_neg e1, if_neg e2, hd]
    rw [if_neg (by omega), e3, if_neg (by decide), if_neg (by rw [has_false.2 hp]; decide),
      if_neg (by omega)]
    simp only [bind_apply, newCoin, if_neg (show ¬ amount < 0 by omega), pure_apply, hm1]
    rw [lockBook_eq, if_neg hmi]

/-- What a successful `Lock` does: exactly the amount moves from the user to the account of the
position, no other balance changes, the new position records the amount, the current index and the
rounded-down principal, all other positions stay. -/
theorem C30_lock_effect {c : Cfg} (hc : c.WF) (env : Env) (signer : String) (vault : Int)
    (amount? : Option Int) (s s' : State) (hi : 0 < s.index)
    (hs : (Msg.lock signer vault amount?).SignedByUser c)
    (h : exec c env (.lock signer vault amount?) s = .ok () s') :
    ∃ user amount, amount? = some amount ∧ c.decode signer = some user ∧
      s'.balance user = s.balance user - amount ∧
      s'.balance (vaultAccount c user vault env.time) =
        s.balance (vaultAccount c user vault env.time) + amount ∧
      (∀ x, x ≠ user → x ≠ vaultAccount c user vault env.time → s'.balance x = s.balance x) ∧
      ∃ p, IsFloor (amount * 10 ^ 12) s.index p ∧
        s'.positions.get? (user, vault, env.time) = some ⟨p, s.index, amount, env.time⟩ ∧
        (∀ k, k ≠ (user, vault, env.time) → s'.positions.get? k = s.positions.get? k) ∧
        s'.index = s.index ∧ s'.supply = s.supply ∧ s'.rewards = s.rewards ∧
        s'.totalPrincipal = s.totalPrincipal ∧ s'.retry = s.retry ∧
        s'.totalFlexible = s.totalFlexible + (if vault = 2 then p else 0) ∧
        s'.vstats.flexPrincipal = s.vstats.flexPrincipal + (if vault = 2 then p else 0) ∧
        s'.vstats.stakedPrincipal = s.vstats.stakedPrincipal + (if vault = 1 then p else 0) := by
  have hx := lock_ok (show lock c env signer vault amount? s = .ok () s' from h)
  clear h
  obtain ⟨amt, a, rfl, h⟩ := hx
  have hu : c.IsUser a := hs a h.dec
  obtain ⟨m, hm, rfl⟩ := h.run
  rw [posAddr_eq hc h.dec] at hm
  have hne : a ≠ acctOf c a vault env.time := hu.ne_acct _ _ _
  have hb := hm.bal
  have e1 : (lockedState m signer a vault amt env.time).index = s.index := hm.index
  refine ⟨a, amt, rfl, h.dec, ?_, ?_, ?_, roundedDown amt s.index, ?_, ?_, ?_, hm.index, hm.supply,
    hm.rewards, ?_, hm.retry, ?_, ?_, ?_⟩
  · show m.balance a = _
    rw [hb a]; simp [hne]
  · show m.balance (acctOf c a vault env.time) = s.balance (acctOf c a vault env.time) + amt
    rw [hb]; simp [hne.symm]
  · intro x hx hy
    exact hm.same hx hy
  · have hb' := down_bounds h.nonneg hi
    exact ⟨hb'.1, fun x hx => le_of_mul_le_lt hi hx hb'.2⟩
  · show (m.positions.set _ _).get? _ = _
    rw [KV.get?_set_self, hm.index]
  · intro k hk
    show (m.positions.set _ _).get? _ = _
    rw [KV.get?_set_ne _ _ hk, hm.positions]
  · exact hm.total_of_ne_module hu.ne_module (acctOf_ne_module hc _ _ _)
  · show (if vault = FLEXIBLE then _ else _) = _
    rw [hm.totalFlexible, hm.index]
    unfold FLEXIBLE
    split <;> simp
  · have := (vPrincipals (posCount (m.positions.set (a, vault, env.time)
      ⟨roundedDown amt m.index, m.index, amt, env.time⟩) a vault = 1) vault (roundedDown amt m.index) u64inc
      m.vstats).1
    rw [hm.vstats, hm.index] at this
    show (lockedState m signer a vault amt env.time).vstats.flexPrincipal = _
    unfold lockedState
    rw [hm.index, hm.vstats]
    exact this
  · have := (vPrincipals (posCount (m.positions.set (a, vault, env.time)
      ⟨roundedDown amt m.index, m.index, amt, env.time⟩) a vault = 1) vault (roundedDown amt m.index) u64inc
      m.vstats).2.1
    rw [hm.vstats, hm.index] at this
    show (lockedState m signer a vault amt env.time).vstats.stakedPrincipal = _
    unfold lockedState
    rw [hm.index, hm.vstats]
    exact this

/-- A nil amount never succeeds. -/
theorem C30_lock_nil (c : Cfg) (env : Env) (signer : String) (vault : Int) (s s' : State) :
    exec c env (.lock signer vault none) s ≠ .ok () s' := by
  intro h
  obtain ⟨amt, a, ha, _⟩ := lock_ok (show lock c env signer vault none s = .ok () s' from h)
  cases ha

/-- Non-vacuity: a flexible and a staked lock of the demo history succeed. -/
example : (∃ s', exec Demo.cfg (Demo.env 3) (.lock Demo.aliceS 2 (some 2000000))
      (run Demo.cfg (Demo.hist1.take 2) Demo.start) = .ok () s') ∧
    (∃ s', exec Demo.cfg (Demo.env 4) (.lock Demo.bobS 1 (some 2000000))
      (run Demo.cfg (Demo.hist1.take 3) Demo.start) = .ok () s') := by
  constructor
  · refine (C30_lock_iff Demo.cfg_wf _ _ _ _ _ (by decide +kernel)).2 ⟨Demo.alice, ?_⟩
    decide +kernel
  · refine (C30_lock_iff Demo.cfg_wf _ _ _ _ _ (by decide +kernel)).2 ⟨Demo.bob, ?_⟩
    decide +kernel

/-! ### C31 -/

/-- `Lock` while locking is paused, `Unlock` while unlocking is paused, and any action on the flexible
vault after season one return an error and change nothing (pause states: 1 lock, 2 unlock, 3 all). -/
theorem C31_paused_actions_fail (c : Cfg) (env : Env) (s : State) (signer : String) (vault : Int)
    (amount : Option Int) :
    ((s.vPaused = 1 ∨ s.vPaused = 3 ∨ (vault = 2 ∧ s.seasonOneEnded = true)) →
      exec c env (.lock signer vault amount) s = .err .actionPaused s ∧
      step c env (.lock signer vault amount) s = s) ∧
    ((s.vPaused = 2 ∨ s.vPaused = 3 ∨ (vault = 2 ∧ s.seasonOneEnded = true)) →
      exec c env (.unlock signer vault amount) s = .err .actionPaused s ∧
      step c env (.unlock signer vault amount) s = s) := by
  have fin : ∀ (m : Msg), exec c env m s = .err .actionPaused s →
      exec c env m s = .err .actionPaused s ∧ step c env m s = s := by
    intro m h
    refine ⟨h, ?_⟩
    unfold step runTx; rw [h]
  constructor
  · intro h
    apply fin
    show lock c env signer vault amount s = _
    unfold lock
    simp only [bind_apply, get_apply]
    by_cases h1 : vault = FLEXIBLE ∧ s.seasonOneEnded = true
    · rw [if_pos h1]; rfl
    · rw [if_neg h1, if_pos]
      · rfl
      · rcases h with h | h | h
        · exact .inr h
        · exact .inl h
        · exact absurd h h1
  · intro h
    apply fin
    show unlock c signer vault amount s = _
    unfold unlock
    simp only [bind_apply, get_apply]
    by_cases h1 : vault = FLEXIBLE ∧ s.seasonOneEnded = true
    · rw [if_pos h1]; rfl
    · rw [if_neg h1, if_pos]
      · rfl
      · rcases h with h | h | h
        · exact .inr h
        · exact .inl h
        · exact absurd h h1

/-- Non-vacuity: the same lock and unlock succeed on the demo chain until the vaults are paused. -/
example : step Demo.cfg (Demo.env 10) (.unlock Demo.bobS 1 (some 2000000))
      (run Demo.cfg Demo.hist1 Demo.start) ≠ run Demo.cfg Demo.hist1 Demo.start ∧
    (run Demo.cfg (Demo.hist1 ++ [(Demo.env 8, .vaultsSetPaused "authority" 2)]) Demo.start).vPaused = 2 := by
  refine ⟨fun h => ?_, by decide +kernel⟩
  have := congrArg State.positions h
  revert this; decide +kernel

end Dollar
