import Verif.Lemmas.Share
import Verif.Props.C61

/-
A reward record does not grow the share of a flexible position beyond what others lost to rounding.
-/
set_option linter.unusedSimpArgs false

namespace Dollar
open MM Spec

/-- One withdrawal of others from a record of a closed cycle. -/
theorem shareUp_step {P q w R0 T0 R T D n : Int} (hT : 0 < T) (hT0 : T ≤ T0) (hD : 0 ≤ D)
    (hq : 0 ≤ q) (hle : P ≤ T - q) (hP : 0 ≤ P) (hw : q * R * D ≤ (w + 1) * T * D + q * T)
    (h : D * P * R * T0 ≤ D * P * R0 * T + (D * n + (T0 - T)) * T0 * T) :
    D * P * (R - w) * T0 ≤ D * P * R0 * (T - q) + (D * (n + 1) + (T0 - (T - q))) * T0 * (T - q) := by
  have h1 : (T - q) * (D * P * R * T0) ≤ (T - q) * (D * P * R0 * T + (D * n + (T0 - T)) * T0 * T) :=
    mul_le_mul_of_nonneg_left h (by omega)
  have h2 : P * T0 * (q * R * D) ≤ P * T0 * ((w + 1) * T * D + q * T) :=
    mul_le_mul_of_nonneg_left hw (mul_nonneg hP (by omega))
  have h3 : 0 ≤ (D + q) * T0 * T * (T - q - P) :=
    mul_nonneg (mul_nonneg (mul_nonneg (by omega) (by omega)) hT.le) (by omega)
  refine le_of_mul_le_mul_left ?_ hT
  nlinarith [h1, h2, h3]

/-- What the position is paid from the record afterwards. -/
theorem shareUp_end {P w0 w R0 T0 R T D n : Int} (hT : 0 < T) (hT0 : T ≤ T0) (hPT : P ≤ T)
    (hbig : 3 * T0 ≤ 2 * D)
    (h0 : P * R0 * D < (w0 + 1) * T0 * D + P * T0)
    (hw : 2 * (w * T * D) ≤ 2 * (P * R * D) + P * T)
    (h : D * P * R * T0 ≤ D * P * R0 * T + (D * n + (T0 - T)) * T0 * T) : w ≤ w0 + n + 1 := by
  by_contra hn
  have hn : w0 + n + 2 ≤ w := by omega
  have hT0' : 0 < T0 := by omega
  have h1 : T0 * (2 * (w * T * D)) ≤ T0 * (2 * (P * R * D) + P * T) :=
    mul_le_mul_of_nonneg_left hw hT0'.le
  have h2 : T * (P * R0 * D) < T * ((w0 + 1) * T0 * D + P * T0) := mul_lt_mul_of_pos_left h0 hT
  have h3 : T0 * T * (2 * w * D) < T0 * T * (2 * (w0 + 1 + n) * D + 3 * P + 2 * (T0 - T)) := by
    nlinarith [h1, h2, h]
  have h4 := lt_of_mul_lt_mul_left h3 (mul_pos hT0' hT).le
  have hD : 0 ≤ D := by omega
  have h5 : (w0 + n + 2) * D ≤ w * D := mul_le_mul_of_nonneg_right hn hD
  nlinarith [h4, h5]

/-- Whether an event tells that a flexible position was paid out, in full or in part. -/
def Spec.isExit : Event → Bool
  | .positionUnlocked _ v _ _ _ => decide (v = 2)
  | _ => false

/-- How many payouts of flexible positions the event log shows. -/
def Spec.exits (s : State) : Nat := s.events.countP isExit

theorem exits_append {s s' : State} {l : List Event} (h : s'.events = s.events ++ l) :
    exits s' = exits s + l.countP isExit := by
  unfold exits; rw [h, List.countP_append]

theorem exits_congr {s s' : State} (h : s'.events = s.events) : exits s' = exits s := by
  unfold exits; rw [h]

theorem Logged.exits {s s' : State} (h : Logged s s') : exits s ≤ Spec.exits s' := by
  obtain ⟨new, e, _⟩ := h
  rw [exits_append e]; omega

/-- The position `key ↦ p` is stored, and the records of closed cycles newer than it among `rs` have not gained
on it more than `n` units and rounding. -/
structure ShareTop (key : PKey) (p : Position) (rs : KV Int Reward) (n : Int) (s : State) : Prop where
  pos : s.positions.get? key = some p
  rew : ∀ x ∈ rs, p.index < x.1 → ∃ r, s.rewards.get? x.1 = some r ∧ r.total ≤ x.2.total ∧
    DEC * roundedDown p.amount p.index * r.rewards * x.2.total ≤
      DEC * roundedDown p.amount p.index * x.2.rewards * r.total +
        (DEC * n + (x.2.total - r.total)) * x.2.total * r.total

theorem ShareTop.congr {key : PKey} {p : Position} {rs : KV Int Reward} {n : Int} {s s' : State}
    (h : ShareTop key p rs n s)
    (e1 : s'.positions.get? key = s.positions.get? key) (e2 : ∀ x ∈ rs, s'.rewards.get? x.1 = s.rewards.get? x.1) :
    ShareTop key p rs n s' := ⟨e1 ▸ h.pos, fun x hx hk => e2 x hx ▸ h.rew x hx hk⟩

theorem ShareTop.mono {c : Cfg} {key : PKey} {p : Position} {rs : KV Int Reward} {n n' : Int} {s : State}
    (hi : V0 c s) (hv : key.2.1 = FLEXIBLE) (h : ShareTop key p rs n s) (hn : n ≤ n') : ShareTop key p rs n' s := by
  refine ⟨h.pos, fun x hx hk => ?_⟩
  obtain ⟨r, h1, h2, h3⟩ := h.rew x hx hk
  refine ⟨r, h1, h2, h3.trans ?_⟩
  have hcov := covered_at hi h.pos hv hk h1
  have hP := down_nonneg (hi.entry _ (KV.mem_of_get? h.pos)).amount (hi.entry _ (KV.mem_of_get? h.pos)).idx
  have hT : 0 ≤ r.total := hP.trans hcov
  have hD : (0 : Int) ≤ DEC := by decide
  have a1 : DEC * n ≤ DEC * n' := mul_le_mul_of_nonneg_left hn hD
  have a2 : (DEC * n + (x.2.total - r.total)) * x.2.total * r.total ≤
      (DEC * n' + (x.2.total - r.total)) * x.2.total * r.total :=
    mul_le_mul_of_nonneg_right (mul_le_mul_of_nonneg_right (by omega) (by omega)) hT
  omega

theorem OneOk.topShare {c : Cfg} (hc : c.WF) {signer : String} {a : Addr} {q : PosEntry}
    {v amt : Int} {s s' : State} (hd : c.decode signer = some a) (hu : c.IsUser a) (hi : V0 c s)
    {key : PKey} {p : Position} {rs : KV Int Reward} {n : Int} (h : ShareTop key p rs n s)
    (hv : key.2.1 = FLEXIBLE) (hcl : ∀ x ∈ rs, x.1 < s.index)
    (hpa : q.address = a) (hpv : q.vault = v) (hne : key ≠ q.key)
    (hget : s.positions.get? q.key = some q.val) (h0 : 0 ≤ amt) (h1 : amt ≤ q.amount)
    (ho : OneOk c signer a v q amt s s') :
    ShareTop key p rs (n + (exits s' - exits s)) s' ∧ exits s ≤ exits s' ∧ s'.index = s.index := by
  obtain ⟨g1, g2, _⟩ := hi.of_one hc hd hu hpa hpv hget h0 h1 ho
  have hpos : s'.positions.get? key = s.positions.get? key := by rw [g2, get?_posUpd_ne _ _ _ hne]
  cases ho with
  | staked m hv' ha hm e =>
    have e2 : s'.rewards = s.rewards := by rw [e]; exact hm.rewards
    have e3 : exits s' = exits s := by
      have : s'.events = s.events ++ [.positionUnlocked signer v q.index amt (roundedDown amt q.index)] := by
        rw [e]; show m.events ++ _ = _; rw [hm.events]
      rw [exits_append this]
      show exits s + List.countP isExit [_] = _
      rw [List.countP_cons, List.countP_nil]
      show exits s + (0 + if decide (v = 2) = true then 1 else 0) = exits s
      have : v ≠ 2 := hv'
      simp [this]
    refine ⟨?_, by omega, by rw [e]; exact hm.index⟩
    rw [e3]
    exact (h.congr hpos (fun _ _ => by rw [e2])).mono g1 hv (by omega)
  | flexible s1 m3 m4 owed y hv' hw hy h3 hn h4 e =>
    have e1 : s'.rewards = s1.rewards := by
      rw [e]; exact h4.rewards.trans h3.rewards
    have ei : s'.index = s1.index := by
      rw [e]; exact h4.index.trans h3.index
    have ee : s'.events = s1.events ++ [.positionUnlocked signer v q.index (amt + y) (roundedDown amt q.index)] := by
      rw [e]; show m4.events ++ _ = _
      rw [h4.events, h3.events]
    have e3 : exits s' = exits s1 + 1 := by
      rw [exits_append ee, List.countP_cons, List.countP_nil]
      show exits s1 + (0 + if decide (v = 2) = true then 1 else 0) = _
      have : v = 2 := hv'
      simp [this]
    clear hy h3 h4 e ee
    rcases hw.run with ⟨_, _, rfl⟩ | ⟨_, _, _, m, hm, rfl⟩
    · have e4 : exits { s with totalFlexible := s.totalFlexible - roundedDown amt q.index } = exits s := rfl
      rw [e4] at e3
      exact ⟨(h.congr hpos (fun _ _ => by rw [e1])).mono g1 hv (by omega), by omega, ei⟩
    · have e2 : s'.rewards = rewardsAfter s.rewards q.index s.index (roundedDown amt q.index) :=
        e1.trans hm.rewards
      have e5 : exits s' = exits s + 1 := by
        rw [e3]
        have : exits { m with events := m.events ++ [.rewardClaimed q.address owed] } = exits s := by
          rw [exits_append (s := m) rfl, exits_congr hm.events]; rfl
        exact congrArg (· + 1) this
      have hq : 0 ≤ roundedDown amt q.index := down_nonneg h0 (hi.entry _ (KV.mem_of_get? hget)).idx
      refine ⟨⟨hpos.trans h.pos, ?_⟩, by omega, ei.trans hm.index⟩
      intro x hx hk
      have hmono := (h.mono hi hv (show n ≤ n + 1 by omega)).rew x hx hk
      obtain ⟨r, hr, hT, hin⟩ := h.rew x hx hk
      obtain ⟨r2, hr2, _, hin2⟩ := hmono
      obtain rfl : r = r2 := Option.some.inj (hr.symm.trans hr2)
      have hr' : s'.rewards.get? x.1 =
          some (if q.index < x.1 then rewardAfter s.index (roundedDown amt q.index) r else r) := by
        rw [e2, get?_rewardsAfter, hr]; rfl
      refine ⟨_, hr', ?_⟩
      have hcov : roundedDown p.amount p.index ≤ _ :=
        covered_at g1 (hpos.trans h.pos) hv hk hr'
      have hri : r.index = x.1 := (hi.rew _ (KV.mem_of_get? hr)).1
      have hcur : r.index ≠ s.index := by have := hcl x hx; omega
      have en : n + ((exits s' : Int) - exits s) = n + 1 := by omega
      rw [en]
      revert hcov
      split
      · unfold rewardAfter
        split
        · next h2 =>
          intro hcov
          have hcov : roundedDown p.amount p.index ≤ r.total - roundedDown amt q.index := hcov
          have hP := down_nonneg (hi.entry _ (KV.mem_of_get? h.pos)).amount
            (hi.entry _ (KV.mem_of_get? h.pos)).idx
          refine ⟨by show r.total - _ ≤ _; omega, ?_⟩
          refine shareUp_step h2.1 hT (by decide) hq hcov hP ?_ hin
          unfold userReward
          rw [if_pos h2, if_pos ⟨hcur, h2.2.le⟩]
          exact (share_bounds h2.2.le h2.1 hq).2.2.1.le
        · exact fun _ => ⟨hT, hin2⟩
      · exact fun _ => ⟨hT, hin2⟩

theorem LoopOk.topShare {c : Cfg} (hc : c.WF) {signer : String} {a : Addr} {v : Int} {l : List PosEntry}
    {rem removed rem' removed' : Int} {s s' : State} (hd : c.decode signer = some a)
    (hu : c.IsUser a) (hi : V0 c s) {key : PKey} {p : Position} {rs : KV Int Reward} {n : Int}
    (hkp : ShareTop key p rs n s) (hcl : ∀ x ∈ rs, x.1 < s.index)
    (hv : key.2.1 = FLEXIBLE) (hne : ¬ (a = key.1 ∧ v = FLEXIBLE))
    (hp : Pending s a v l) (h0 : 0 ≤ rem)
    (h : LoopOk c signer a v l rem removed s rem' removed' s') :
    ShareTop key p rs (n + (exits s' - exits s)) s' := by
  induction h generalizing n with
  | nil => rw [Int.sub_self, Int.add_zero]; exact hkp
  | stop => rw [Int.sub_self, Int.add_zero]; exact hkp
  | step q t rem removed s m rem' removed' s' _ _ h1 _ ih =>
    have hget := hp.stored q List.mem_cons_self
    have hpa := hp.addr q List.mem_cons_self
    have hpv := hp.vault q List.mem_cons_self
    have ho := hi.entry _ (KV.mem_of_get? hget)
    obtain ⟨b0, b1, b2⟩ := amountToRemove_bounds (p := q) h0 ho.amount
    obtain ⟨g1, g2, _⟩ := hi.of_one hc hd hu hpa hpv hget b0 b1 h1
    have hkey : key ≠ q.key := by
      intro e
      refine hne ⟨?_, ?_⟩
      · rw [e, ← hpa]; rfl
      · rw [← hv, e, ← hpv]; rfl
    obtain ⟨k1, k2, k3⟩ := h1.topShare hc hd hu hi hkp hv hcl hpa hpv hkey hget b0 b1
    have := ih g1 k1 (fun x hx => by rw [k3]; exact hcl x hx) (hp.tail g2) (by omega)
    have e : n + ((exits m : Int) - exits s) + (exits s' - exits m) = n + (exits s' - exits s) := by omega
    rw [e] at this
    exact this

theorem ShareTop.of_UI {c : Cfg} {s s' : State} {i n : Int} {key : PKey} {p : Position} {rs : KV Int Reward}
    (h : ShareTop key p rs n s) (hki : ∀ x ∈ rs, x.1 < s.index) (hu : UI c s i s') : ShareTop key p rs n s' := by
  have e1 : s'.positions = s.positions := hu.positions
  refine h.congr (by rw [e1]) fun x hx => ?_
  have := hki x hx
  rcases hu.rewards with hr | ⟨_, he, hlt, r, hr0, hr, hbal⟩
  · rw [hr]
  · rw [hr, KV.get?_set_ne _ _ (by omega)]

theorem ShareTop.of_deliver {c : Cfg} (hc : c.WF) {env : Env} {vaa : Bytes} {s s' : State} (hl : Led c s)
    {key : PKey} {p : Position} {rs : KV Int Reward} {n : Int} (hkp : ShareTop key p rs n s)
    (hki : ∀ x ∈ rs, x.1 < s.index)
    (h : deliver c env vaa s = .ok () s') : ShareTop key p rs n s' := by
  obtain ⟨v, sA, _, _, rfl, hA, _, hd⟩ := deliver_did hc hl h
  have hvA : ShareTop key p rs n { s with archive := s.archive ++ [v.digest] } := hkp.congr rfl (fun _ _ => rfl)
  generalize content env vaa = q at hd
  cases hd with
  | ignored _ _ _ _ _ _ _ _ e =>
    have e1 : s'.rewards = s.rewards := (congrArg State.rewards e :)
    have e2 : s'.positions = s.positions := (congrArg State.positions e :)
    exact hkp.congr (by rw [e2]) (fun _ _ => by rw [e1])
  | token amount i rcp s1 _ hu hm =>
    have h1 := hvA.of_UI hki hu
    have e1 : s'.rewards = s1.rewards := hm.moved.rewards
    have e2 : s'.positions = s1.positions := hm.moved.positions
    exact h1.congr (by rw [e2]) (fun _ _ => by rw [e1])
  | index i m _ e hu _ =>
    have h1 := hvA.of_UI hki hu
    have e1 : s'.rewards = m.rewards := (congrArg State.rewards e :)
    have e2 : s'.positions = m.positions := (congrArg State.positions e :)
    exact h1.congr (by rw [e2]) (fun _ _ => by rw [e1])

theorem ShareTop.step {c : Cfg} (hc : c.WF) {env : Env} {msg : Msg} {s : State} (hr : Reachable c s)
    {key : PKey} {p : Position} {rs : KV Int Reward} {n : Int} (hkp : ShareTop key p rs n s)
    (hfl : key.2.1 = FLEXIBLE) (hki : ∀ x ∈ rs, x.1 < s.index)
    (hq : ∀ signer amount, msg = .unlock signer FLEXIBLE amount → c.decode signer ≠ some key.1)
    (hm : msg.SignedByUser c) : ShareTop key p rs (n + (exits (step c env msg s) - exits s)) (step c env msg s) := by
  have hl := hr.led hc
  have hv := (hr.vinv hc).toV0
  have hr1 : Reachable c (Dollar.step c env msg s) := hr.step hm
  have hv1 := (hr1.vinv hc).toV0
  rcases step_cases c env msg s with h | h
  · rw [h, Int.sub_self, Int.add_zero]; exact hkp
  have hlog := (exec_logged hc hr hm h).exits
  generalize Dollar.step c env msg s = s' at h hv1 hlog
  have up : ShareTop key p rs n s' → ShareTop key p rs (n + (exits s' - exits s)) s' :=
    fun g => g.mono hv1 hfl (by omega)
  have core : vaultF s' = vaultF s → ShareTop key p rs (n + (exits s' - exits s)) s' := by
    intro h3
    have e1 : s'.positions = s.positions := congrArg (fun x => x.1) h3
    have e3 : s'.rewards = s.rewards := congrArg (fun x => x.2.2.1) h3
    exact up (hkp.congr (by rw [e1]) (fun _ _ => by rw [e3]))
  by_cases ho : msg.noOther = true
  · exact core (congrArg Prod.fst ((Other.msg c env msg ho).ok h) :)
  have ho : msg.noOther = false := by simpa using ho
  cases msg with
  | lock signer v amt? =>
    refine up ?_
    obtain ⟨amt, a, _, hkk⟩ := lock_ok (show lock c env signer v amt? s = .ok () s' from h)
    have hf := hkk.fresh
    obtain ⟨m, hmv, rfl⟩ := hkk.run
    have e1 : (lockedState m signer a v amt env.time).rewards = s.rewards := hmv.rewards
    have e0 : m.positions = s.positions := hmv.positions
    refine hkp.congr ?_ (fun _ _ => by rw [e1])
    show (m.positions.set _ _).get? key = _
    rw [KV.get?_set_ne, e0]
    rintro rfl
    unfold KV.has at hf
    rw [hkp.pos] at hf
    cases hf
  | unlock signer v amt? =>
    obtain ⟨_, _, amt, a, _, hkk⟩ := unlock_ok (show unlock c signer v amt? s = .ok () s' from h)
    obtain ⟨m, removed, hlp, rfl⟩ := hkk.run
    have key := hlp.topShare hc hkk.dec (hm a hkk.dec) hv hkp hki hfl (by
      rintro ⟨rfl, rfl⟩
      exact hq _ _ rfl hkk.dec) (pending_positionsOf hv a v) hkk.pos.le
    exact ShareTop.congr (s := m) key rfl (fun _ _ => rfl)
  | deliver vaa => exact up (hkp.of_deliver hc hl hki h)
  | _ =>
    first
    | exact core ((VaultF.route c env _ ho rfl nofun nofun).ok h)
    | exact Bool.noConfusion ho

/-- A payout opens no reward record. -/
theorem OneOk.norecord {c : Cfg} {signer : String} {a : Addr} {q : PosEntry} {v amt : Int} {s s' : State}
    {k : Int} (h : s.rewards.get? k = none) (ho : OneOk c signer a v q amt s s') : s'.rewards.get? k = none := by
  cases ho with
  | staked m hv' ha hm e =>
    have e2 : s'.rewards = s.rewards := by rw [e]; exact hm.rewards
    rw [e2]; exact h
  | flexible s1 m3 m4 owed y hv' hw hy h3 hn h4 e =>
    have e1 : s'.rewards = s1.rewards := by
      rw [e]; exact h4.rewards.trans h3.rewards
    clear hy h3 h4 e
    rcases hw.run with ⟨_, _, rfl⟩ | ⟨_, _, _, m, hm, rfl⟩
    · rw [e1]; exact h
    · have e2 : s'.rewards = rewardsAfter s.rewards q.index s.index (roundedDown amt q.index) :=
        e1.trans hm.rewards
      rw [e2, get?_rewardsAfter, h]; rfl

theorem LoopOk.norecord {c : Cfg} {signer : String} {a : Addr} {v : Int} {l : List PosEntry}
    {rem removed rem' removed' : Int} {s s' : State} {k : Int} (hn : s.rewards.get? k = none)
    (h : LoopOk c signer a v l rem removed s rem' removed' s') : s'.rewards.get? k = none := by
  induction h with
  | nil => exact hn
  | stop => exact hn
  | step q t rem removed s m rem' removed' s' _ _ h1 _ ih => exact ih (h1.norecord hn)

theorem UI.norecord {c : Cfg} {s s' : State} {i k : Int} (hu : UI c s i s') (hn : s.rewards.get? k = none)
    (hk : k < s.index) : s'.rewards.get? k = none := by
  rcases hu.rewards with hr | ⟨_, he, hlt, r, hr0, hr, hbal⟩
  · rw [hr]; exact hn
  · rw [hr, KV.get?_set_ne _ _ (by omega)]; exact hn

/-- No record is opened for a cycle that is over. -/
theorem norecord_step {c : Cfg} (hc : c.WF) {env : Env} {msg : Msg} {s : State} (hr : Reachable c s) {k : Int}
    (hn : s.rewards.get? k = none) (hk : k < s.index) : (step c env msg s).rewards.get? k = none := by
  have hl := hr.led hc
  rcases step_cases c env msg s with h | h
  · rw [h]; exact hn
  generalize Dollar.step c env msg s = s' at h
  have core : vaultF s' = vaultF s → s'.rewards.get? k = none := by
    intro h3
    have e3 : s'.rewards = s.rewards := congrArg (fun x => x.2.2.1) h3
    rw [e3]; exact hn
  by_cases ho : msg.noOther = true
  · exact core (congrArg Prod.fst ((Other.msg c env msg ho).ok h) :)
  have ho : msg.noOther = false := by simpa using ho
  cases msg with
  | lock signer v amt? =>
    obtain ⟨amt, a, _, hkk⟩ := lock_ok (show lock c env signer v amt? s = .ok () s' from h)
    obtain ⟨m, hmv, rfl⟩ := hkk.run
    have e1 : (lockedState m signer a v amt env.time).rewards = s.rewards := hmv.rewards
    rw [e1]; exact hn
  | unlock signer v amt? =>
    obtain ⟨_, _, amt, a, _, hkk⟩ := unlock_ok (show unlock c signer v amt? s = .ok () s' from h)
    obtain ⟨m, removed, hlp, rfl⟩ := hkk.run
    show m.rewards.get? k = none
    exact hlp.norecord hn
  | deliver vaa =>
    obtain ⟨v, sA, _, _, rfl, hA, _, hd⟩ := deliver_did hc hl (show deliver c env vaa s = .ok () s' from h)
    generalize content env vaa = q at hd
    cases hd with
    | ignored _ _ _ _ _ _ _ _ e =>
      have e1 : s'.rewards = s.rewards := (congrArg State.rewards e :)
      rw [e1]; exact hn
    | token amount i rcp s1 _ hu hm =>
      have e1 : s'.rewards = s1.rewards := hm.moved.rewards
      rw [e1]; exact hu.norecord hn hk
    | index i m _ e hu _ =>
      have e1 : s'.rewards = m.rewards := (congrArg State.rewards e :)
      rw [e1]; exact hu.norecord hn hk
  | _ =>
    first
    | exact core ((VaultF.route c env _ ho rfl nofun nofun).ok h)
    | exact Bool.noConfusion ho

end Dollar
