import Verif.Lemmas.ShareUp

/-
How a reward record changes after it was opened: only by payouts, and by each payout as `rewardAfter` says.
-/
set_option linter.unusedSimpArgs false

namespace Dollar
open MM Spec

/-- The rewards left after one payout, from above. -/
theorem flow_up {q w R0 T0 R T D n : Int} (hT : 0 < T) (hT0 : T ≤ T0) (hD : 0 ≤ D) (hq : 0 ≤ q) (hle : q ≤ T)
    (hn : 0 ≤ n) (hw : q * R * D ≤ (w + 1) * T * D + q * T)
    (h : D * R * T0 ≤ D * R0 * T + (D * n + (T0 - T)) * T0) :
    D * (R - w) * T0 ≤ D * R0 * (T - q) + (D * (n + 1) + (T0 - (T - q))) * T0 := by
  have h1 : (T - q) * (D * R * T0) ≤ (T - q) * (D * R0 * T + (D * n + (T0 - T)) * T0) :=
    mul_le_mul_of_nonneg_left h (by omega)
  have h2 : T0 * (q * R * D) ≤ T0 * ((w + 1) * T * D + q * T) := mul_le_mul_of_nonneg_left hw (by omega)
  have h3 : 0 ≤ q * ((D * n + (T0 - T)) * T0) :=
    mul_nonneg hq (mul_nonneg (add_nonneg (mul_nonneg hD hn) (by omega)) (by omega))
  refine le_of_mul_le_mul_left ?_ hT
  nlinarith [h1, h2, h3]

/-- And from below. -/
theorem flow_low {q w R0 T0 R T D : Int} (hT : 0 < T) (hT0 : T ≤ T0) (hq : 0 ≤ q) (hle : q ≤ T)
    (hw : 2 * (w * T * D) ≤ 2 * (q * R * D) + q * T)
    (h : 2 * D * R0 * T ≤ 2 * D * R * T0 + (T0 - T) * T0) :
    2 * D * R0 * (T - q) ≤ 2 * D * (R - w) * T0 + (T0 - (T - q)) * T0 := by
  have h1 : (T - q) * (2 * D * R0 * T) ≤ (T - q) * (2 * D * R * T0 + (T0 - T) * T0) :=
    mul_le_mul_of_nonneg_left h (by omega)
  have h2 : T0 * (2 * (w * T * D)) ≤ T0 * (2 * (q * R * D) + q * T) := mul_le_mul_of_nonneg_left hw (by omega)
  have h3 : 0 ≤ q * ((T0 - T) * T0) := mul_nonneg hq (mul_nonneg (by omega) (by omega))
  refine le_of_mul_le_mul_left ?_ hT
  nlinarith [h1, h2, h3]

/-- A property of a record and the number of payouts that survives payouts, the current cycle being `cur`. -/
structure Flows (cur : Int) (Q : Nat → Reward → Prop) : Prop where
  mono : ∀ n n' r, n ≤ n' → Q n r → Q n' r
  pay : ∀ n q r, 0 ≤ q → q ≤ r.total → Q n r → Q (n + 1) (rewardAfter cur q r)

theorem OneOk.flow {c : Cfg} {signer : String} {a : Addr} {q : PosEntry}
    {v amt : Int} {s s' : State} (hi : V0 c s) {k : Int} {r : Reward} {Q : Nat → Reward → Prop}
    (hQ : Flows s.index Q) (hk : s.rewards.get? k = some r) (h : Q (exits s) r)
    (hpv : q.vault = v) (hget : s.positions.get? q.key = some q.val) (h0 : 0 ≤ amt) (h1 : amt ≤ q.amount)
    (ho : OneOk c signer a v q amt s s') :
    (∃ r', s'.rewards.get? k = some r' ∧ Q (exits s') r') ∧ s'.index = s.index := by
  cases ho with
  | staked m hv' ha hm e =>
    have e2 : s'.rewards = s.rewards := by rw [e]; exact hm.rewards
    have ee : s'.events = s.events ++ [.positionUnlocked signer v q.index amt (roundedDown amt q.index)] := by
      rw [e]; show m.events ++ _ = _; rw [hm.events]
    refine ⟨⟨r, by rw [e2]; exact hk, hQ.mono _ _ _ ?_ h⟩, by rw [e]; exact hm.index⟩
    rw [exits_append ee]; omega
  | flexible s1 m3 m4 owed y hv' hw hy h3 hn h4 e =>
    have e1 : s'.rewards = s1.rewards := by
      rw [e]; exact h4.rewards.trans h3.rewards
    have ei : s'.index = s1.index := by
      rw [e]; exact h4.index.trans h3.index
    have ee : s'.events = s1.events ++ [.positionUnlocked signer v q.index (amt + y) (roundedDown amt q.index)] := by
      rw [e]; show m4.events ++ _ = _
      rw [h4.events, h3.events]
    have e3 : exits s' = exits s1 + 1 := by
      rw [exits_append ee, List.countP_cons, List.countP_nil]
      show exits s1 + (0 + if decide (v = 2) = true then 1 else 0) = _
      have : v = 2 := hv'
      simp [this]
    clear hy h3 h4 e ee
    rcases hw.run with ⟨_, _, rfl⟩ | ⟨_, _, _, m, hm, rfl⟩
    · have e4 : exits { s with totalFlexible := s.totalFlexible - roundedDown amt q.index } = exits s := rfl
      rw [e4] at e3
      exact ⟨⟨r, by rw [e1]; exact hk, hQ.mono _ _ _ (by omega) h⟩, ei⟩
    · have e2 : s'.rewards = rewardsAfter s.rewards q.index s.index (roundedDown amt q.index) :=
        e1.trans hm.rewards
      have e5 : exits s' = exits s + 1 := by
        rw [e3]
        have : exits { m with events := m.events ++ [.rewardClaimed q.address owed] } = exits s := by
          rw [exits_append (s := m) rfl, exits_congr hm.events]; rfl
        exact congrArg (· + 1) this
      have hx := (hi.entry _ (KV.mem_of_get? hget)).idx
      have hq : 0 ≤ roundedDown amt q.index := down_nonneg h0 hx
      refine ⟨⟨_, by rw [e2, get?_rewardsAfter, hk]; rfl, ?_⟩, ei.trans hm.index⟩
      rw [e5]
      dsimp only
      split
      · next hlt =>
        refine hQ.pay _ _ _ hq ?_ h
        have hc := hi.covers (p := q) (hpv.trans hv') hget (KV.mem_of_get? hk) hlt
        exact (down_mono h0 h1 hx).trans hc
      · exact hQ.mono _ _ _ (by omega) h

theorem LoopOk.flow {c : Cfg} (hc : c.WF) {signer : String} {a : Addr} {v : Int} {l : List PosEntry}
    {rem removed rem' removed' : Int} {s s' : State} (hd : c.decode signer = some a)
    (hu : c.IsUser a) (hi : V0 c s) {k : Int} {r : Reward} {Q : Nat → Reward → Prop}
    (hQ : Flows s.index Q) (hk : s.rewards.get? k = some r) (hq : Q (exits s) r)
    (hp : Pending s a v l) (h0 : 0 ≤ rem)
    (h : LoopOk c signer a v l rem removed s rem' removed' s') :
    ∃ r', s'.rewards.get? k = some r' ∧ Q (exits s') r' := by
  induction h generalizing r with
  | nil => exact ⟨r, hk, hq⟩
  | stop => exact ⟨r, hk, hq⟩
  | step q t rem removed s m rem' removed' s' _ _ h1 _ ih =>
    have hget := hp.stored q List.mem_cons_self
    have hpa := hp.addr q List.mem_cons_self
    have hpv := hp.vault q List.mem_cons_self
    have ho := hi.entry _ (KV.mem_of_get? hget)
    obtain ⟨b0, b1, b2⟩ := amountToRemove_bounds (p := q) h0 ho.amount
    obtain ⟨g1, g2, _⟩ := hi.of_one hc hd hu hpa hpv hget b0 b1 h1
    obtain ⟨⟨r', k1, k2⟩, k3⟩ := h1.flow hi hQ hk hq hpv hget b0 b1
    exact ih g1 (by rw [k3]; exact hQ) k1 k2 (hp.tail g2) (by omega)

theorem UI.record {c : Cfg} {s s' : State} {i k : Int} (hu : UI c s i s') (hk : k ≤ s.index) :
    s'.rewards.get? k = s.rewards.get? k := by
  rcases hu.rewards with hr | ⟨_, he, hlt, r, hr0, hr, hbal⟩
  · rw [hr]
  · rw [hr, KV.get?_set_ne _ _ (by omega)]

/-- One message. -/
theorem flow_step {c : Cfg} (hc : c.WF) {env : Env} {msg : Msg} {s : State} (hr : Reachable c s)
    (hm : msg.SignedByUser c) {k : Int} {r : Reward} {Q : Nat → Reward → Prop} (hQ : Flows s.index Q)
    (hi : k ≤ s.index) (hk : s.rewards.get? k = some r) (hq : Q (exits s) r) :
    ∃ r', (step c env msg s).rewards.get? k = some r' ∧ Q (exits (step c env msg s)) r' := by
  have hl := hr.led hc
  have hv := (hr.vinv hc).toV0
  rcases step_cases c env msg s with h | h
  · rw [h]; exact ⟨r, hk, hq⟩
  have hlog := (exec_logged hc hr hm h).exits
  generalize Dollar.step c env msg s = s' at h hlog
  have same : s'.rewards.get? k = s.rewards.get? k → ∃ r', s'.rewards.get? k = some r' ∧ Q (exits s') r' :=
    fun e => ⟨r, e.trans hk, hQ.mono _ _ _ hlog hq⟩
  have core : vaultF s' = vaultF s → ∃ r', s'.rewards.get? k = some r' ∧ Q (exits s') r' := by
    intro h3
    have e3 : s'.rewards = s.rewards := congrArg (fun x => x.2.2.1) h3
    exact same (by rw [e3])
  by_cases ho : msg.noOther = true
  · exact core (congrArg Prod.fst ((Other.msg c env msg ho).ok h) :)
  have ho : msg.noOther = false := by simpa using ho
  cases msg with
  | lock signer v amt? =>
    obtain ⟨amt, a, _, hkk⟩ := lock_ok (show lock c env signer v amt? s = .ok () s' from h)
    obtain ⟨m, hmv, rfl⟩ := hkk.run
    have e1 : (lockedState m signer a v amt env.time).rewards = s.rewards := hmv.rewards
    exact same (by rw [e1])
  | unlock signer v amt? =>
    obtain ⟨_, _, amt, a, _, hkk⟩ := unlock_ok (show unlock c signer v amt? s = .ok () s' from h)
    obtain ⟨m, removed, hlp, rfl⟩ := hkk.run
    show ∃ r', m.rewards.get? k = some r' ∧ Q (exits m) r'
    exact hlp.flow hc hkk.dec (hm a hkk.dec) hv hQ hk hq (pending_positionsOf hv a v) hkk.pos.le
  | deliver vaa =>
    obtain ⟨v, sA, _, _, rfl, hA, _, hd⟩ := deliver_did hc hl (show deliver c env vaa s = .ok () s' from h)
    generalize content env vaa = q at hd
    cases hd with
    | ignored _ _ _ _ _ _ _ _ e =>
      have e1 : s'.rewards = s.rewards := (congrArg State.rewards e :)
      exact same (by rw [e1])
    | token amount i rcp s1 _ hu hm =>
      have e1 : s'.rewards = s1.rewards := hm.moved.rewards
      exact same (by rw [e1]; exact hu.record hi)
    | index i m _ e hu _ =>
      have e1 : s'.rewards = m.rewards := (congrArg State.rewards e :)
      exact same (by rw [e1]; exact hu.record hi)
  | _ =>
    first
    | exact core ((VaultF.route c env _ ho rfl nofun nofun).ok h)
    | exact Bool.noConfusion ho

end Dollar
