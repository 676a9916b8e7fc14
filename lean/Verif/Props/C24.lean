import Verif.Lemmas.VPay
import Verif.Spec.Demo

/-
C24: staked positions can always be withdrawn.
C25: Unlock pays exactly what it removes.
C47: Unlock withdraws oldest positions first.
-/
set_option maxRecDepth 100000
set_option linter.unusedSimpArgs false
namespace Dollar
open MM Spec

/-- Alice has two staked positions (3000000 at second 5, 1000000 at second 13). -/
def Demo.hist3 : History := Demo.hist2 ++ [(Demo.env 13, .lock Demo.aliceS 1 (some 1000000))]

theorem run_concat (c : Cfg) (h : History) (env : Env) (m : Msg) (s : State) :
    run c (h ++ [(env, m)]) s = step c env m (run c h s) := run_append c h _ s

theorem Demo.reach3 : Reachable Demo.cfg (run Demo.cfg Demo.hist3 Demo.start) := by
  rw [hist3, run_concat]
  exact Demo.reach2.step Demo.aliceS_user

/-! ### C24 -/

/-- Exactly when a staked `Unlock` succeeds (vault pause states: 2 is "unlock", 3 is "all"). -/
theorem C24_staked_unlock_iff {c : Cfg} (hc : c.WF) (env : Env) (s : State) (h : Reachable c s)
    (signer : String) (user : Addr) (amount : Int) (hd : c.decode signer = some user) (hu : c.IsUser user) :
    (∃ s', exec c env (.unlock signer 1 (some amount)) s = .ok () s') ↔
      s.vPaused ≠ 2 ∧ s.vPaused ≠ 3 ∧ 0 < amount ∧ amount ≤ lockedBy s user 1 ∧
      (c.minUnlock ≤ amount ∨ amount = lockedBy s user 1) := by
  have hlk : lockedTotal s user 1 = lockedBy s user 1 := lockedTotal_eq s user 1
  constructor
  · rintro ⟨s', he⟩
    obtain ⟨_, h2, amt, a, ha, hk⟩ := unlock_ok (show unlock c signer 1 (some amount) s = .ok () s' from he)
    cases ha
    have ea : a = user := Option.some.inj (hk.dec.symm.trans hd)
    subst ea
    have h3 := hk.enough
    have h4 := hk.min
    rw [hlk] at h3 h4
    refine ⟨fun e => h2 (.inr e), fun e => h2 (.inl e), hk.pos, h3, ?_⟩
    by_cases hm : c.minUnlock ≤ amount
    · exact .inl hm
    · refine .inr ?_
      by_contra hne
      exact h4 ⟨by omega, fun e => hne e.symm⟩
  · rintro ⟨h2, h3, h0, hle, hm⟩
    rw [← hlk] at hle hm
    obtain ⟨r, m, hloop⟩ := unlockLoop_staked hc hd hu (positionsOf s user 1) amount 0 s (h.led hc)
      (h.vinv hc).toV0 (pending_positionsOf (h.vinv hc).toV0 user 1) h0.le hle
    exact ⟨_, unlock_of_loop (a := user) hd (.inl rfl) (fun e => absurd e.1 (by decide))
      (by rintro (e | e); exact h3 e; exact h2 e) h0 hle (by rintro ⟨e1, e2⟩; omega) hloop⟩

/-- Staked positions can always be withdrawn: in particular the whole stake. -/
theorem C24_staked_withdrawable {c : Cfg} (hc : c.WF) (env : Env) (s : State) (h : Reachable c s)
    (signer : String) (user : Addr) (hd : c.decode signer = some user) (hu : c.IsUser user)
    (hp : s.vPaused ≠ 2 ∧ s.vPaused ≠ 3) (hpos : 0 < lockedBy s user 1) :
    ∃ s', exec c env (.unlock signer 1 (some (lockedBy s user 1))) s = .ok () s' :=
  (C24_staked_unlock_iff hc env s h signer user _ hd hu).2
    ⟨hp.1, hp.2, hpos, le_refl _, .inr rfl⟩

example : let s := run Demo.cfg Demo.hist3 Demo.start
    Demo.cfg.decode Demo.aliceS = some Demo.alice ∧ s.vPaused = 0 ∧ lockedBy s Demo.alice 1 = 4000000 := by
  decide +kernel

/-! ### C25 -/

/-- A staked `Unlock` moves exactly the amount from the vault to the user and takes exactly that much
out of the user's staked positions; nothing else moves, no other position changes. -/
theorem C25_staked_unlock_effect {c : Cfg} (hc : c.WF) (env : Env) (s s' : State) (h : Reachable c s)
    (signer : String) (user : Addr) (amount : Int) (hd : c.decode signer = some user) (hu : c.IsUser user)
    (he : exec c env (.unlock signer 1 (some amount)) s = .ok () s') :
    s'.balance user = s.balance user + amount ∧
    s'.balance (c.modAddr "dollar/vaults/staked") = s.balance (c.modAddr "dollar/vaults/staked") - amount ∧
    (∀ x, x ≠ user → x ≠ c.modAddr "dollar/vaults/staked" → s'.balance x = s.balance x) ∧
    lockedBy s' user 1 = lockedBy s user 1 - amount ∧
    lockedIn s' 1 = lockedIn s 1 - amount ∧
    (∀ user' vault' time', ¬ (user' = user ∧ vault' = 1) →
      s'.positions.get? (user', vault', time') = s.positions.get? (user', vault', time')) ∧
    s'.rewards = s.rewards ∧ s'.totalFlexible = s.totalFlexible := by
  obtain ⟨_, _, amt, a, ha, hk⟩ := unlock_ok (show unlock c signer 1 (some amount) s = .ok () s' from he)
  cases ha
  have ea : a = user := Option.some.inj (hk.dec.symm.trans hd)
  subst ea
  obtain ⟨m, removed, hlp, rfl⟩ := hk.run
  have hP := pending_positionsOf (h.vinv hc).toV0 a 1
  have hD := hlp.did hc hd hu (h.vinv hc).toV0 hP hk.pos.le
  have hb := hlp.pay_staked hc hd rfl hP.vault
  have hne : a ≠ c.stakedAddr := hu.ne_staked
  refine ⟨?_, ?_, ?_, ?_, ?_, ?_, ?_, ?_⟩
  · show m.balance a = _
    rw [hb]; simp [hne]
  · show m.balance c.stakedAddr = s.balance c.stakedAddr - amount
    rw [hb]; simp [hne.symm]
  · intro x h1 h2
    have h2 : x ≠ c.stakedAddr := h2
    show m.balance x = _
    rw [hb]; simp [h1, h2]
  · have := hD.mine
    rw [Int.sub_zero] at this
    exact this
  · have := hD.amt 1
    rw [if_pos rfl, Int.sub_zero] at this
    exact this
  · intro u v t hn
    exact hD.others (u, v, t) hn
  · show m.rewards = _
    exact hlp.rewards_of_staked (show (1 : Int) ≠ FLEXIBLE by decide)
  · have := hD.total
    rw [if_neg (by decide), Int.sub_zero] at this
    exact this

example : let s := run Demo.cfg Demo.hist3 Demo.start
    ((exec Demo.cfg (Demo.env 14) (.unlock Demo.aliceS 1 (some 3500000)) s).isOk = true) ∧
    lockedBy (step Demo.cfg (Demo.env 14) (.unlock Demo.aliceS 1 (some 3500000)) s) Demo.alice 1 = 500000 := by
  decide +kernel

/-- A flexible `Unlock`: the user receives the amount, plus what leaves the flexible vault's account
(rewards) and the yield account (yield of the positions), neither of which grows; the amount comes out
of the user's positions and out of the accounts that hold them; nothing else moves. -/
theorem C25_flexible_unlock_effect {c : Cfg} (hc : c.WF) (env : Env) (s s' : State) (h : Reachable c s)
    (signer : String) (user : Addr) (amount : Int) (hd : c.decode signer = some user) (hu : c.IsUser user)
    (he : exec c env (.unlock signer 2 (some amount)) s = .ok () s') :
    let flexible := c.modAddr "dollar/vaults/flexible"
    let yield := c.modAddr "dollar/yield"
    s'.balance user = s.balance user + amount + (s.balance flexible - s'.balance flexible) +
      (s.balance yield - s'.balance yield) ∧
    s'.balance flexible ≤ s.balance flexible ∧ s'.balance yield ≤ s.balance yield ∧
    lockedBy s' user 2 = lockedBy s user 2 - amount ∧
    (∀ x, x ≠ user → x ≠ flexible → x ≠ yield → (∀ t, x ≠ vaultAccount c user 2 t) →
      s'.balance x = s.balance x) ∧
    (∀ t, s'.balance (vaultAccount c user 2 t) -
        ((s'.positions.get? (user, 2, t)).elim 0 Position.amount) =
      s.balance (vaultAccount c user 2 t) - ((s.positions.get? (user, 2, t)).elim 0 Position.amount)) ∧
    (∀ user' vault' time', ¬ (user' = user ∧ vault' = 2) →
      s'.positions.get? (user', vault', time') = s.positions.get? (user', vault', time')) := by
  obtain ⟨_, _, amt, a, ha, hk⟩ := unlock_ok (show unlock c signer 2 (some amount) s = .ok () s' from he)
  cases ha
  have ea : a = user := Option.some.inj (hk.dec.symm.trans hd)
  subst ea
  obtain ⟨m, removed, hlp, rfl⟩ := hk.run
  have hP := pending_positionsOf (h.vinv hc).toV0 a 2
  have hD := hlp.did hc hd hu (h.vinv hc).toV0 hP hk.pos.le
  obtain ⟨hb, hf⟩ := hlp.pay_flexible hc hd hu rfl (h.vinv hc).toV0 hP hk.pos.le
  rw [Int.sub_zero] at hb
  have e0 : ∀ t, vaultAccount c a 2 t = flexAcct c a t := fun t => by
    unfold vaultAccount flexAcct; rw [if_pos rfl]
  have e1 : ∀ (ps : KV PKey Position) (t : Int), (ps.get? (a, 2, t)).elim 0 Position.amount =
      ps.at' (a, 2, t) (fun _ q => q.amount) := by
    intro ps t
    unfold KV.at'
    cases ps.get? (a, 2, t) <;> rfl
  refine ⟨hb.user, hb.flexible, hb.yield, ?_, ?_, ?_, ?_⟩
  · have := hD.mine
    rw [Int.sub_zero] at this
    exact this
  · intro x h1 h2 h3 h4
    exact hb.other x h1 h2 h3 (fun t => by rw [← e0]; exact h4 t)
  · intro t
    rw [e1, e1, e0]
    exact hf t
  · intro u v t hn
    exact hD.others (u, v, t) hn

/-- Alice withdraws the rest of a flexible position and receives 250000 of rewards on top. -/
example : let s := run Demo.cfg Demo.hist2 Demo.start
    let s' := step Demo.cfg (Demo.env 13) (.unlock Demo.aliceS 2 (some 1000000)) s
    (exec Demo.cfg (Demo.env 13) (.unlock Demo.aliceS 2 (some 1000000)) s).isOk = true ∧
    s'.positions.get? (Demo.alice, 2, 3) = none ∧
    s'.balance Demo.alice = s.balance Demo.alice + 1000000 + 250000 := by
  decide +kernel

/-! ### C47 -/

/-- The positions after a successful `Unlock`: going through the user's positions of the vault in
ascending order of time, positions are removed whole as long as they fit into what is left to withdraw,
the next one is shrunk, and everything else is as before. -/
theorem C47_oldest_first {c : Cfg} (hc : c.WF) (env : Env) (s s' : State) (h : Reachable c s)
    (signer : String) (user : Addr) (vault amount : Int) (hd : c.decode signer = some user)
    (hu : c.IsUser user) (he : exec c env (.unlock signer vault (some amount)) s = .ok () s') :
    s'.positions = withdraw user vault amount s.positions ∧
    s.positions.Pairwise (fun e e' => e.1.1 = e'.1.1 → e.1.2.1 = e'.1.2.1 → e.1.2.2 < e'.1.2.2) ∧
    (∀ e ∈ s.positions, e.2.time = e.1.2.2) := by
  obtain ⟨_, _, amt, a, ha, hk⟩ := unlock_ok (show unlock c signer vault (some amount) s = .ok () s' from he)
  cases ha
  have ea : a = user := Option.some.inj (hk.dec.symm.trans hd)
  subst ea
  obtain ⟨m, removed, hlp, rfl⟩ := hk.run
  refine ⟨?_, ?_, fun e he => ((h.vinv hc).entry e he).time⟩
  · show m.positions = _
    exact LoopOk.withdraw hc hd hu (h.vinv hc).toV0 hk.pos.le s.positions [] rfl hlp
  · refine List.Pairwise.imp ?_ (h.vinv hc).sorted
    intro e e' hlt h1 h2
    simpa [klt, h1, h2, LawfulKeyOrd.irrefl] using hlt

/-- Withdrawing 3500000 removes the position of second 5 and leaves 500000 in that of second 13. -/
example : let s := run Demo.cfg Demo.hist3 Demo.start
    (step Demo.cfg (Demo.env 14) (.unlock Demo.aliceS 1 (some 3500000)) s).positions =
      [((Demo.alice, 1, 13), ⟨416667, 1200000000000, 500000, 13⟩),
       ((Demo.alice, 2, 3), ⟨1000000, 1000000000000, 1000000, 3⟩)] := by
  decide +kernel

end Dollar
