import Verif.Lemmas.CheckedVaults2
import Verif.Props.C109
import Verif.Props.C28

/-
C119: locking, unlocking and the queries of pending rewards do not overflow, whatever they add up.
-/
set_option maxRecDepth 100000
namespace Dollar
open MM Spec

/-! ### Bounded histories -/

theorem rises_le (c : Cfg) (h : History) (s : State) : rises c h s ≤ h.length := by
  induction h generalizing s with
  | nil => exact le_refl _
  | cons e t ih =>
    obtain ⟨env, m⟩ := e
    have := ih (step c env m s)
    unfold rises
    rw [List.length_cons]
    split <;> omega

theorem locksBy_le (c : Cfg) (u : Addr) (h : History) (s : State) : locksBy c u h s ≤ h.length := by
  induction h generalizing s with
  | nil => exact le_refl _
  | cons e t ih =>
    obtain ⟨env, m⟩ := e
    have := ih (step c env m s)
    unfold locksBy
    rw [List.length_cons]
    cases m <;> simp only <;> first | omega | (split <;> omega)

theorem Small.of_run {c : Cfg} (hc : c.WF) {s0 : State} (h0 : Initial c s0) (hlo : 10 ^ 12 ≤ s0.index)
    (hhi : s0.index < 2 ^ 63) {h : History} (hsig : History.Signed c h) (hlen : h.length ≤ 2 ^ 39) :
    Small c (run c h s0) ∧ (run c h s0).vstats.stakedPrincipal ≤ 2 ^ 166 := by
  have hr : Reachable c (run c h s0) := .of_run h0 hsig
  have n := (nrange_run hc h0 hlo hhi hsig).vault
  obtain ⟨⟨sup, bal⟩, _⟩ := C85_no_overflow hc h0 hlo hhi hsig hlen
  have hl := C109_records hc (.fresh h0) h hsig
  rw [h0.rewards] at hl
  have hri := rises_le c h s0
  have hd := deliveries_le c h s0
  have hS : (2 ^ 88 * (deliveries c h s0 : Nat) : Int) ≤ 2 ^ 127 := by
    generalize deliveries c h s0 = n at *
    omega
  have hT : (2 ^ 88 * (deliveries c h s0 * h.length : Nat) : Int) ≤ 2 ^ 166 := by
    have : deliveries c h s0 * h.length ≤ 2 ^ 39 * 2 ^ 39 := Nat.mul_le_mul (by omega) (by omega)
    generalize deliveries c h s0 * h.length = n at *
    omega
  generalize (2 ^ 88 * (deliveries c h s0 : Nat) : Int) = S at *
  generalize (2 ^ 88 * (deliveries c h s0 * h.length : Nat) : Int) = T at *
  refine ⟨⟨hr.led hc, hr.shape, (hr.vinv hc).toV0, ⟨?_, ?_, n.ftot.trans hT, n.stot.trans hT, n.dist0, ?_, bal _⟩, ?_,
    sup⟩, n.stot.trans hT⟩
  · exact fun e he => ⟨(n.pos e he).1, (n.pos e he).2.trans hS⟩
  · exact fun e he => ⟨(n.rew e he).1.trans hT, by have := (n.rew e he).2.1; omega, (n.rew e he).2.2.trans hS⟩
  · have h1 := n.dist
    have h2 : (run c h s0).balance c.flexibleAddr ≤ 2 ^ 127 := bal _
    omega
  · simp only [List.length_nil] at hl
    omega

/-- All positions of a user in a vault together hold no more than there are coins. -/
theorem Small.locked {c : Cfg} (hc : c.WF) {s : State} (h : Small c s) (a : Addr) (v : Int) :
    0 ≤ ((positionsOf s a v).map PosEntry.amount).sum ∧ ((positionsOf s a v).map PosEntry.amount).sum ≤ 2 ^ 127 := by
  have hp := pending_positionsOf h.v0 a v
  have ho : ∀ p ∈ positionsOf s a v, (p.key, p.val) ∈ s.positions := fun p hp' =>
    KV.mem_of_get? (hp.stored p hp')
  have h0 : ∀ p ∈ positionsOf s a v, 0 ≤ p.amount := fun p hp' => (h.entry (ho p hp')).1
  refine ⟨List.sum_nonneg fun x hx => ?_, ?_⟩
  · obtain ⟨p, hp', rfl⟩ := List.mem_map.1 hx
    exact h0 p hp'
  by_cases hv : v = FLEXIBLE
  · have h1 : ((positionsOf s a v).map PosEntry.amount).sum ≤
        ((positionsOf s a v).map fun p => s.balance (flexAcct c a p.time)).sum := by
      refine List.sum_le_sum fun p hp' => ?_
      have := h.v0.flex _ (ho p hp') ((hp.vault p hp').trans hv)
      rw [← hp.addr p hp']
      exact this
    have h2 : (((positionsOf s a v).map fun p => flexAcct c a p.time)).Nodup := by
      rw [List.Nodup, List.pairwise_map]
      refine hp.nodup.imp_of_mem fun {p q} hp1 hq1 hne e => hne ?_
      have e := (flexAcct_inj hc e).2
      unfold PosEntry.key
      rw [hp.addr p hp1, hp.addr q hq1, hp.vault p hp1, hp.vault q hq1, e]
    have h3 := sum_balances_le h.shape.bal h.led.good.bal _ h2
    rw [List.map_map] at h3
    have := h.led.sum
    have := h.sup
    have h3 : ((positionsOf s a v).map fun p => s.balance (flexAcct c a p.time)).sum ≤ sumBal s := h3
    omega
  · have e : ((positionsOf s a v).map PosEntry.amount).sum = lockedTotal s a v := rfl
    rw [e, lockedTotal_eq]
    refine le_trans ?_ (h.v0.staked.trans (h.bal _).2)
    refine KV.sum_le fun e he => ?_
    have hk := (h.v0.entry e he).vault
    have := (h.v0.entry e he).amount
    unfold amtIn
    split
    · next h1 =>
      rw [if_pos]
      rcases hk with hk | hk
      · exact hk
      · exact absurd (h1.2.symm.trans hk) hv
    · split <;> omega

namespace Checked

theorem decVaultPrincipal_eq {v p : Int} {s : State} (h1 : 0 ≤ p ∧ p ≤ 2 ^ 128)
    (h2 : 0 ≤ s.vstats.stakedPrincipal ∧ s.vstats.stakedPrincipal ≤ 2 ^ 166)
    (h3 : 0 ≤ s.vstats.flexPrincipal ∧ s.vstats.flexPrincipal ≤ 2 ^ 166) :
    decVaultPrincipal v p s = addVaultPrincipal v (-p) s := by
  unfold decVaultPrincipal addVaultPrincipal
  rw [bind_apply]
  simp only [get_apply, modify_apply]
  split
  · rw [lift_bind (sub_small (by omega) (by omega))]
    rfl
  · split
    · rw [lift_bind (sub_small (by omega) (by omega))]
      rfl
    · rfl

theorem incVaultPrincipal_eq {v p : Int} {s : State} (h1 : 0 ≤ p ∧ p ≤ 2 ^ 128)
    (h2 : 0 ≤ s.vstats.stakedPrincipal ∧ s.vstats.stakedPrincipal ≤ 2 ^ 166)
    (h3 : 0 ≤ s.vstats.flexPrincipal ∧ s.vstats.flexPrincipal ≤ 2 ^ 166) :
    incVaultPrincipal v p s = addVaultPrincipal v p s := by
  unfold incVaultPrincipal addVaultPrincipal
  rw [bind_apply]
  simp only [get_apply, modify_apply]
  split
  · rw [lift_bind (add_small (by omega) (by omega))]
    rfl
  · split
    · rw [lift_bind (add_small (by omega) (by omega))]
      rfl
    · rfl

end Checked

/-- The statistics are as small as the totals. -/
theorem VInv.stats {c : Cfg} {s : State} (hv : VInv c s) (h : Small c s) :
    0 ≤ s.vstats.stakedPrincipal ∧ 0 ≤ s.vstats.flexPrincipal ∧ s.vstats.flexPrincipal ≤ 2 ^ 166 := by
  obtain ⟨t1, t2⟩ := h.total
  refine ⟨le_trans (KV.sum_nonneg fun e he => ?_) hv.stakedP, by rw [hv.flexP]; exact t1, by rw [hv.flexP]; exact t2⟩
  unfold prinIn
  split
  · exact (hv.entry e he).prin_nonneg
  · exact le_refl _

theorem LoopOk.removed_le {c : Cfg} {signer : String} {a : Addr} {v : Int} {l : List PosEntry}
    {rem removed rem' removed' : Int} {s s' : State} (h : LoopOk c signer a v l rem removed s rem' removed' s')
    (hl : ∀ p ∈ l, 0 ≤ p.amount ∧ SCALE ≤ p.index) (h0 : 0 ≤ rem) :
    0 ≤ rem' ∧ rem' + removed' ≤ rem + removed := by
  induction h with
  | nil => exact ⟨h0, le_refl _⟩
  | stop => exact ⟨h0, le_refl _⟩
  | step p t rem removed s m rem' removed' s' _ _ _ _ ih =>
    obtain ⟨a1, a2⟩ := hl p List.mem_cons_self
    obtain ⟨b0, b1, b2⟩ := amountToRemove_bounds (p := p) h0 a1
    have := down_le_self b0 a2
    obtain ⟨i1, i2⟩ := ih (fun q hq => hl q (List.mem_cons_of_mem _ hq)) (by omega)
    exact ⟨i1, by omega⟩

theorem Checked.unlockInner_eq {c : Cfg} (hc : c.WF) {s : State} (hv : VInv c s) (h : Small c s)
    (hst : s.vstats.stakedPrincipal ≤ 2 ^ 166) {signer : String} (hu : ∀ a, c.decode signer = some a → c.IsUser a)
    (v : Int) (amt? : Option Int) : Checked.unlockInner c signer v amt? s = Dollar.unlockInner c signer v amt? s := by
  unfold Checked.unlockInner Dollar.unlockInner
  cases hd : c.decode signer with
  | none => rfl
  | some a =>
    cases amt? with
    | none => rfl
    | some amt =>
      simp only
      split
      · rfl
      split
      · rfl
      refine bind_at rfl fun t s' e => ?_
      cases e
      obtain ⟨l0, l1⟩ := h.locked hc a v
      have hp := pending_positionsOf h.v0 a v
      have hsum := sumFrom_eq ((positionsOf s a v).map PosEntry.amount) (acc := 0) (le_refl _)
        (fun x hx => by
          obtain ⟨p, hp', rfl⟩ := List.mem_map.1 hx
          exact (h.entry (KV.mem_of_get? (hp.stored p hp'))).1) (by omega)
      rw [Int.zero_add] at hsum
      rw [lift_bind hsum]
      generalize hT : ((positionsOf s a v).map PosEntry.amount).sum = T at *
      split
      · rfl
      split
      · rfl
      next h1 _ h2 _ =>
      refine bind_at (unlockLoop_eq hc hd (hu a hd) _ h hp (by omega) (le_refl _) (by omega)) fun r s' e => ?_
      split
      · rfl
      refine bind_at rfl fun _ s2 e2 => ?_
      have hl := unlockLoop_ok e
      have hdid := hl.did hc hd (hu a hd) h.v0 hp (by omega)
      have hrm := hdid.grow
      have hrb := hl.removed_le (fun p hp' => by
        have := h.entry (KV.mem_of_get? (hp.stored p hp'))
        exact ⟨this.1, this.2.2.1⟩) (by omega)
      have q1 : s2.vstats.stakedPrincipal = s.vstats.stakedPrincipal ∧ s2.vstats.flexPrincipal = s.vstats.flexPrincipal := by
        have e3 := hdid.stats
        rw [countGoneUser_eq] at e2
        cases e2
        have e4 : s'.vstats.stakedPrincipal = s.vstats.stakedPrincipal := (congrArg VStats.stakedPrincipal e3 :)
        have e5 : s'.vstats.flexPrincipal = s.vstats.flexPrincipal := (congrArg VStats.flexPrincipal e3 :)
        constructor
        · simp only
          split
          · rw [vUsers_stakedPrincipal]; exact e4
          · exact e4
        · simp only
          split
          · rw [vUsers_flexPrincipal]; exact e5
          · exact e5
      obtain ⟨z1, z2, z3⟩ := hv.stats h
      exact decVaultPrincipal_eq ⟨hrm, by omega⟩ (by rw [q1.1]; exact ⟨z1, hst⟩) (by rw [q1.2]; exact ⟨z2, z3⟩)

theorem lockTotal_vstats {v p : Int} {s s' : State} {u : Unit} (h : lockTotal v p s = .ok u s') :
    s'.vstats = s.vstats := by
  rw [lockTotal_eq] at h
  cases h
  rfl

theorem countNewUser_principals {a : Addr} {v : Int} {s s' : State} {u : Unit} (h : countNewUser a v s = .ok u s') :
    s'.vstats.stakedPrincipal = s.vstats.stakedPrincipal ∧ s'.vstats.flexPrincipal = s.vstats.flexPrincipal := by
  rw [countNewUser_eq] at h
  cases h
  simp only
  split
  · rw [vUsers_stakedPrincipal, vUsers_flexPrincipal]
    exact ⟨rfl, rfl⟩
  · exact ⟨rfl, rfl⟩

theorem Checked.lock_eq {c : Cfg} {s : State} (hv : VInv c s) (h : Small c s)
    (hst : s.vstats.stakedPrincipal ≤ 2 ^ 166) (hi : SCALE ≤ s.index) (env : Env) (signer : String)
    (v : Int) (amt? : Option Int) : Checked.lock c env signer v amt? s = Dollar.lock c env signer v amt? s := by
  unfold Checked.lock Dollar.lock
  refine bind_at rfl fun t s' e => ?_
  cases e
  split
  · rfl
  split
  · rfl
  cases hd : c.decode signer with
  | none => rfl
  | some a =>
    cases amt? with
    | none => rfl
    | some amt =>
      simp only
      split
      · rfl
      split
      · rfl
      split
      · rfl
      split
      · rfl
      next hb =>
      refine bind_at rfl fun _ s1 e1 => ?_
      obtain ⟨hn, e1'⟩ := newCoin_ok e1
      subst s1
      refine bind_at rfl fun _ m e2 => ?_
      have hm := sendCoins_ok e2
      have hS : SCALE = 1000000000000 := rfl
      have hba := (h.bal a).2
      have hq0 := down_nonneg hn (show 0 < s.index by omega)
      have hq1 := down_le_self hn hi
      obtain ⟨t1, t2⟩ := h.total
      obtain ⟨z1, z2, z3⟩ := hv.stats h
      unfold Checked.lockBook Dollar.lockBook
      refine bind_at rfl fun t s' e => ?_
      cases e
      have e : ∀ f : Int → M Unit, (Dollar.principalDown amt m.index >>= f) m = f (roundedDown amt m.index) m :=
        fun f => by
          rw [bind_apply, principalDown_eq (by rw [hm.index]; omega)]
          rfl
      rw [e, lift_bind (principalDown_some hn (by omega) (by rw [hm.index]; omega))]
      rw [hm.index]
      refine bind_at rfl fun _ s2 e2 => ?_
      have e2 := modify_ok.1 e2
      subst e2
      refine bind_at ?_ fun _ s3 e3 => bind_at rfl fun _ s4 e4 => bind_at ?_ fun _ _ _ => rfl
      · unfold Checked.lockTotal Dollar.lockTotal
        split
        · unfold addTotalFlexible
          rw [bind_apply, get_apply]
          show (Checked.lift _ >>= _) _ = _
          rw [lift_bind (add_small (by show - _ ≤ m.totalFlexible + _; rw [hm.totalFlexible]; omega)
            (by show m.totalFlexible + _ ≤ _; rw [hm.totalFlexible]; omega))]
          rfl
        · rfl
      · have q : s4.vstats.stakedPrincipal = s.vstats.stakedPrincipal ∧
            s4.vstats.flexPrincipal = s.vstats.flexPrincipal := by
          have f1 := lockTotal_vstats e3
          obtain ⟨f2, f3⟩ := countNewUser_principals e4
          rw [f2, f3, f1]
          exact ⟨congrArg VStats.stakedPrincipal hm.vstats, congrArg VStats.flexPrincipal hm.vstats⟩
        exact incVaultPrincipal_eq ⟨hq0, by omega⟩ (by rw [q.1]; exact ⟨z1, hst⟩) (by rw [q.2]; exact ⟨z2, z3⟩)

theorem Checked.queryLoop_eq {c : Cfg} {s : State} (h : Small c s) {a : Addr} (l : List PosEntry)
    (hp : Pending s a FLEXIBLE l) {total : Int} (h0 : 0 ≤ total) (hb : total + 2 ^ 167 * l.length ≤ 2 ^ 255) :
    queryLoop s l total = (l.mapM fun p => (positionRewards s p).map fun r => (p.amount, r)).map fun l =>
      (total + (l.map Prod.snd).sum, l) := by
  induction l generalizing total with
  | nil => simp [queryLoop]
  | cons p t ih =>
    have hS : SCALE = 1000000000000 := rfl
    have hget := hp.stored p List.mem_cons_self
    obtain ⟨a1, a2, a3, a4, a5⟩ := h.entry (KV.mem_of_get? hget)
    have a1 : 0 ≤ p.amount := a1
    have a2 : p.amount ≤ 2 ^ 127 := a2
    have a3 : SCALE ≤ p.index := a3
    have hx0 : 0 < p.index := by omega
    have hq0 := down_nonneg a1 hx0
    have hq1 := down_le_self a1 a3
    have hcov := fun e he hlt => h.v0.covers (hp.vault p List.mem_cons_self) hget (e := e) he hlt
    have hrec := h.recs
    have e : (2 : Int) ^ 167 * ((p :: t).length : Int) = 2 ^ 167 * (t.length : Int) + 2 ^ 167 := by
      rw [List.length_cons]; push_cast; ring
    rw [e] at hb
    have hl : (0 : Int) ≤ 2 ^ 167 * (t.length : Int) := by positivity
    obtain ⟨_, o1, o2⟩ := walk_eq (start := p.index) (cur := s.index) hq0 (by omega) s.rewards (acc := 0)
      (fun e he => ⟨(h.rng.rew e he).1.trans (by decide), (h.rng.rew e he).2.2⟩) hcov (le_refl _) (by omega)
    have hw := queryWalk_some (start := p.index) (cur := s.index) hq0 (by omega) s.rewards (acc := 0) (total := total)
      (fun e he => (h.rng.rew e he).2.2) hcov (le_refl _) (by omega) h0 (by omega)
    have he : positionRewards s p = some (rewardsOwed s.rewards p.index s.index (roundedDown p.amount p.index)) := by
      unfold positionRewards
      rw [if_neg hx0.ne', queryWalk_eq, Int.zero_add]
    generalize rewardsOwed s.rewards p.index s.index (roundedDown p.amount p.index) = w at *
    unfold queryLoop
    rw [principalDown_some a1 (by omega) hx0]
    simp only [Option.bind_eq_bind, Option.bind_some]
    rw [hw]
    simp only [Option.bind_some]
    have hpt : Pending s a FLEXIBLE t := ⟨fun q hq => hp.addr q (List.mem_cons_of_mem _ hq),
      fun q hq => hp.vault q (List.mem_cons_of_mem _ hq), fun q hq => hp.stored q (List.mem_cons_of_mem _ hq),
      (List.pairwise_cons.1 hp.nodup).2⟩
    rw [ih hpt (by omega) (by omega), List.mapM_cons, he]
    cases List.mapM (fun p => (positionRewards s p).map fun r => (p.amount, r)) t with
    | none => rfl
    | some o =>
      simp [Int.add_assoc]

/-! ## The claim -/

/-- C119: in the first 2^39 messages of a chain that starts at a 64-bit index of at least 10^12, no addition,
subtraction, multiplication or decimal that locking or unlocking performs overflows: the handlers with the overflow
panic do what the handlers without it do, also in the number of positions and records they add up. -/
theorem C119_messages {c : Cfg} (hc : c.WF) {s0 : State} (h0 : Initial c s0) (hlo : 10 ^ 12 ≤ s0.index)
    (hhi : s0.index < 2 ^ 63) {h : History} (hsig : History.Signed c h) (hlen : h.length ≤ 2 ^ 39) (env : Env) {m : Msg}
    (hm : m.SignedByUser c) : Checked.exec c env m (run c h s0) = exec c env m (run c h s0) := by
  obtain ⟨hs, hst⟩ := Small.of_run hc h0 hlo hhi hsig hlen
  have hr : Reachable c (run c h s0) := .of_run h0 hsig
  have hv := hr.vinv hc
  cases m with
  | lock signer v a =>
    exact Checked.lock_eq hv hs hst (hlo.trans (C02_index_monotone hc (.fresh h0) h hsig)) env signer v a
  | unlock signer v a =>
    show Checked.unlock c signer v a _ = unlock c signer v a _
    unfold Checked.unlock unlock
    refine Checked.bind_at rfl fun t s' e => ?_
    cases e
    split
    · rfl
    split
    · rfl
    exact Checked.unlockInner_eq hc hv hs hst hm v a
  | _ => rfl

/-- C119: the whole history runs as if numbers were unbounded. -/
theorem C119_run {c : Cfg} (hc : c.WF) {s0 : State} (h0 : Initial c s0) (hlo : 10 ^ 12 ≤ s0.index)
    (hhi : s0.index < 2 ^ 63) {h : History} (hsig : History.Signed c h) (hlen : h.length ≤ 2 ^ 39) :
    Checked.run c h s0 = run c h s0 := by
  have key : ∀ t r : History, History.Signed c (t ++ r) → (t ++ r).length ≤ 2 ^ 39 →
      Checked.run c r (run c t s0) = run c r (run c t s0) := by
    intro t r
    induction r generalizing t with
    | nil => intro _ _; rfl
    | cons e r ih =>
      intro hs hl
      obtain ⟨env, m⟩ := e
      have e1 := C119_messages hc h0 hlo hhi (h := t) (fun e he => hs e (List.mem_append_left _ he))
        (by rw [List.length_append] at hl; omega) env (hs (env, m) (List.mem_append_right _ List.mem_cons_self))
      have e2 : Checked.step c env m (run c t s0) = step c env m (run c t s0) := by
        unfold Checked.step step runTx
        rw [e1]
      have e3 : step c env m (run c t s0) = run c (t ++ [(env, m)]) s0 := by rw [run_append]; rfl
      show Checked.run c r (Checked.step c env m (run c t s0)) = run c r (step c env m (run c t s0))
      rw [e2, e3]
      exact ih (t ++ [(env, m)]) (by simpa using hs) (by simpa using hl)
  exact key [] h hsig hlen

/-- C119: nor do the queries of pending rewards overflow, whatever they add up. -/
theorem C119_queries {c : Cfg} (hc : c.WF) {s0 : State} (h0 : Initial c s0) (hlo : 10 ^ 12 ≤ s0.index)
    (hhi : s0.index < 2 ^ 63) {h : History} (hsig : History.Signed c h) (hlen : h.length ≤ 2 ^ 39) :
    Checked.queryPendingRewards (run c h s0) = some (queryPendingRewards (run c h s0)) ∧
    ∀ provider, Checked.queryPendingByProvider c (run c h s0) provider =
      queryPendingByProvider c (run c h s0) provider := by
  obtain ⟨hs, _⟩ := Small.of_run hc h0 hlo hhi hsig hlen
  have hk := fun a => run_keys hc (.fresh h0) h hsig a
  have hp := fun a => length_positionsOf (run c h s0) a FLEXIBLE
  have hll := fun a => locksBy_le c a h s0
  generalize run c h s0 = s at *
  constructor
  · unfold Checked.queryPendingRewards queryPendingRewards
    have hrec := hs.recs
    rw [Checked.sumFrom_abs _ (B := 2 ^ 127) (by decide) (fun x hx => by
      obtain ⟨e, he, rfl⟩ := List.mem_map.1 hx
      exact (hs.rng.rew e he).2) (by rw [List.length_map]; omega) (by rw [List.length_map]; omega), Int.zero_add]
    rfl
  · intro provider
    unfold Checked.queryPendingByProvider queryPendingByProvider
    cases hd : c.decode provider with
    | none => rfl
    | some a =>
      have hn : (positionsOf s a FLEXIBLE).length ≤ 2 ^ 39 := by
        have h1 := hk a
        have h2 : (keysOf s0 a).length = 0 := by unfold keysOf; rw [h0.positions]; rfl
        have := hp a
        have := hll a
        omega
      show Checked.queryLoop s (positionsOf s a FLEXIBLE) 0 = _
      rw [Checked.queryLoop_eq hs _ (pending_positionsOf hs.v0 a FLEXIBLE) (le_refl _) (by omega)]
      simp only [Int.zero_add]
      show _ = Option.bind (some a) _
      rw [Option.bind_some]
      cases (positionsOf s a FLEXIBLE).mapM fun p => (positionRewards s p).map fun r => (p.amount, r) with
      | none => rfl
      | some o => rfl

/-! ## The hypotheses are met, and the panic is there -/

/-- Ten messages of the demo chain: two positions, two records of rewards. -/
example : (run Demo.cfg (Demo.hist2.take 10) Demo.start).positions.length = 2 ∧
    (run Demo.cfg (Demo.hist2.take 10) Demo.start).rewards.length = 2 ∧
    queryPendingRewards (run Demo.cfg (Demo.hist2.take 10) Demo.start) = 1000000 := by decide +kernel

example : Checked.run Demo.cfg (Demo.hist2.take 10) Demo.start = run Demo.cfg (Demo.hist2.take 10) Demo.start :=
  C119_run Demo.cfg_wf Demo.start_initial (by decide +kernel) (by decide +kernel)
    (fun e he => Demo.hist2_signed e (List.mem_of_mem_take he)) (by decide +kernel)

/-- The demo history with an unlock: the same money moves. -/
example : ∀ x, (Checked.run Demo.cfg Demo.hist2 Demo.start).balance x = (run Demo.cfg Demo.hist2 Demo.start).balance x :=
  fun _ => by rw [C119_run Demo.cfg_wf Demo.start_initial (by decide +kernel) (by decide +kernel) Demo.hist2_signed
    (by decide +kernel)]

/-- The bound on the history is needed: in a state no chain gets to in that time the additions do panic. -/
example : Checked.sumFrom 0 [2 ^ 255, 2 ^ 255] = none ∧
    Checked.sumFrom 0 [2 ^ 255, 2 ^ 255 - 1] = some (2 ^ 256 - 1) ∧
    Checked.walk 1 9 (2 ^ 200) [(2, ⟨2, 1, 2 ^ 100⟩)] 0 = none ∧
    Checked.walk 1 9 1 [(2, ⟨2, 4, 8⟩)] 3 = some ([(2, ⟨2, 3, 6⟩)], 5) ∧
    Checked.queryWalk 1 9 1 [(2, ⟨2, 4, 8⟩)] 3 (2 ^ 256 - 1) = none ∧
    Checked.queryWalk 1 9 1 [(2, ⟨2, 4, 8⟩)] 3 7 = some (5, 9) := by decide +kernel

/-- A vault whose statistic is full takes no lock: alice's message of the demo history, which is carried out, panics. -/
example :
    let s := { run Demo.cfg (Demo.hist2.take 2) Demo.start with vstats := ⟨0, 0, 0, 2 ^ 256 - 1000, 0⟩ }
    let m : Msg := .lock Demo.aliceS 1 (some 1000000)
    (Checked.step Demo.cfg (Demo.env 50) m s).positions = [] ∧ (step Demo.cfg (Demo.env 50) m s).positions ≠ [] := by
  decide +kernel

end Dollar
