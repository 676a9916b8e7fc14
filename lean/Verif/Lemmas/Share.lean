import Verif.Lemmas.RNN

/-
A reward record keeps the share of a flexible position while other users withdraw.
-/
set_option linter.unusedSimpArgs false

namespace Dollar
open MM Spec

/-- One other withdrawal from a record. -/
theorem share_step {P q w R0 T0 R T D : Int} (hT : 0 < T) (hT0 : T ≤ T0) (hP : 0 ≤ P)
    (hq : 0 ≤ q) (hle : P ≤ T - q) (hw : 2 * (w * T * D) ≤ 2 * (q * R * D) + q * T)
    (h : 2 * D * P * R0 * T ≤ 2 * D * P * R * T0 + (T0 - T) * T0 * T) :
    2 * D * P * R0 * (T - q) ≤ 2 * D * P * (R - w) * T0 + (T0 - (T - q)) * T0 * (T - q) := by
  have h1 : (T - q) * (2 * D * P * R0 * T) ≤ (T - q) * (2 * D * P * R * T0 + (T0 - T) * T0 * T) :=
    mul_le_mul_of_nonneg_left h (by omega)
  have h2 : P * T0 * (2 * (w * T * D)) ≤ P * T0 * (2 * (q * R * D) + q * T) :=
    mul_le_mul_of_nonneg_left hw (mul_nonneg hP (by omega))
  have h3 : 0 ≤ q * T0 * T * (T - q - P) :=
    mul_nonneg (mul_nonneg (mul_nonneg hq (by omega)) hT.le) (by omega)
  refine le_of_mul_le_mul_left ?_ hT
  nlinarith [h1, h2, h3]

/-- What the position is paid from the record afterwards. -/
theorem share_end {P w0 w R0 T0 R T D : Int} (hT : 0 < T) (hT0 : T ≤ T0) (hPT : P ≤ T)
    (hbig : 3 * T0 ≤ 2 * D)
    (h0 : 2 * (w0 * T0 * D) ≤ 2 * (P * R0 * D) + P * T0)
    (hw : P * R * D < (w + 1) * T * D + P * T)
    (h : 2 * D * P * R0 * T ≤ 2 * D * P * R * T0 + (T0 - T) * T0 * T) : w0 - 1 ≤ w := by
  by_contra hn
  have hn : w + 2 ≤ w0 := by omega
  have hT0' : 0 < T0 := by omega
  have h1 : T * (2 * (w0 * T0 * D)) ≤ T * (2 * (P * R0 * D) + P * T0) :=
    mul_le_mul_of_nonneg_left h0 hT.le
  have h2 : T0 * (P * R * D) < T0 * ((w + 1) * T * D + P * T) := mul_lt_mul_of_pos_left hw hT0'
  have h3 : T0 * T * (2 * w0 * D) < T0 * T * (2 * (w + 1) * D + 3 * P + (T0 - T)) := by
    nlinarith [h1, h2, h]
  have h4 := lt_of_mul_lt_mul_left h3 (mul_nonneg hT0'.le hT.le)
  have hD : 0 ≤ D := by omega
  have h5 : (w + 2) * D ≤ w0 * D := mul_le_mul_of_nonneg_right hn hD
  nlinarith [h4, h5]

theorem get?_rewardsAfter (rs : KV Int Reward) (start cur q k : Int) :
    (rewardsAfter rs start cur q).get? k =
      (rs.get? k).map fun r => if start < k then rewardAfter cur q r else r := by
  unfold rewardsAfter
  induction rs with
  | nil => rfl
  | cons e t ih =>
    rw [List.map_cons]
    unfold KV.get?
    by_cases h : e.1 = k
    · subst h; simp
    · simp only [h, if_false]; exact ih

/-- The position `key ↦ p` is stored, and the records newer than it among `rs`, which held total
`x.2.total` and rewards `x.2.rewards`, have been drawn on by others at most in proportion. -/
structure ShareKept (key : PKey) (p : Position) (rs : KV Int Reward) (s : State) : Prop where
  pos : s.positions.get? key = some p
  rew : ∀ x ∈ rs, p.index < x.1 → ∃ r, s.rewards.get? x.1 = some r ∧ r.total ≤ x.2.total ∧
    2 * DEC * roundedDown p.amount p.index * x.2.rewards * r.total ≤
      2 * DEC * roundedDown p.amount p.index * r.rewards * x.2.total +
        (x.2.total - r.total) * x.2.total * r.total

theorem ShareKept.congr {key : PKey} {p : Position} {rs : KV Int Reward} {s s' : State} (h : ShareKept key p rs s)
    (e1 : s'.positions.get? key = s.positions.get? key) (e2 : ∀ x ∈ rs, s'.rewards.get? x.1 = s.rewards.get? x.1) :
    ShareKept key p rs s' := ⟨e1 ▸ h.pos, fun x hx hk => e2 x hx ▸ h.rew x hx hk⟩

/-- The entry of a stored position. -/
def entryAt (key : PKey) (p : Position) : PosEntry := ⟨key.1, key.2.1, p.principal, p.index, p.amount, key.2.2⟩

theorem covered_at {c : Cfg} {s : State} {key : PKey} {p : Position} {k : Int} (hi : V0 c s)
    (h : s.positions.get? key = some p) (hv : key.2.1 = FLEXIBLE) (hk : p.index < k) {r : Reward}
    (hr : s.rewards.get? k = some r) : roundedDown p.amount p.index ≤ r.total := by
  have ho := hi.entry _ (KV.mem_of_get? h)
  have e : (entryAt key p).val = p := by
    unfold entryAt PosEntry.val
    rw [← ho.time]
  exact hi.covers (p := entryAt key p) hv (by rw [e]; exact h) (KV.mem_of_get? hr) hk

theorem OneOk.keptShare {c : Cfg} (hc : c.WF) {signer : String} {a : Addr} {q : PosEntry}
    {v amt : Int} {s s' : State} (hd : c.decode signer = some a) (hu : c.IsUser a) (hi : V0 c s)
    {key : PKey} {p : Position} {rs : KV Int Reward} (h : ShareKept key p rs s)
    (hv : key.2.1 = FLEXIBLE)
    (hpa : q.address = a) (hpv : q.vault = v) (hne : key ≠ q.key)
    (hget : s.positions.get? q.key = some q.val) (h0 : 0 ≤ amt) (h1 : amt ≤ q.amount)
    (ho : OneOk c signer a v q amt s s') : ShareKept key p rs s' := by
  obtain ⟨g1, g2, _⟩ := hi.of_one hc hd hu hpa hpv hget h0 h1 ho
  have hpos : s'.positions.get? key = s.positions.get? key := by rw [g2, get?_posUpd_ne _ _ _ hne]
  cases ho with
  | staked m hv ha hm e =>
    have e2 : s'.rewards = s.rewards := by rw [e]; exact hm.rewards
    exact h.congr hpos (fun _ _ => by rw [e2])
  | flexible s1 m3 m4 owed y hv' hw hy h3 hn h4 e =>
    have e1 : s'.rewards = s1.rewards := by
      rw [e]; exact h4.rewards.trans h3.rewards
    clear hy h3 h4 e
    rcases hw.run with ⟨_, _, rfl⟩ | ⟨_, _, _, m, hm, rfl⟩
    · exact h.congr hpos (fun _ _ => by rw [e1])
    · have e2 : s'.rewards = rewardsAfter s.rewards q.index s.index (roundedDown amt q.index) :=
        e1.trans hm.rewards
      have hq : 0 ≤ roundedDown amt q.index := down_nonneg h0 (hi.entry _ (KV.mem_of_get? hget)).idx
      refine ⟨hpos.trans h.pos, ?_⟩
      intro x hx hk
      obtain ⟨r, hr, hT, hin⟩ := h.rew x hx hk
      have hr' : s'.rewards.get? x.1 =
          some (if q.index < x.1 then rewardAfter s.index (roundedDown amt q.index) r else r) := by
        rw [e2, get?_rewardsAfter, hr]; rfl
      refine ⟨_, hr', ?_⟩
      have hcov : roundedDown p.amount p.index ≤ _ :=
        covered_at g1 (hpos.trans h.pos) hv hk hr'
      · revert hcov
        split
        · unfold rewardAfter
          split
          · next h2 =>
            intro hcov
            have hcov : roundedDown p.amount p.index ≤ r.total - roundedDown amt q.index := hcov
            have hP := down_nonneg (hi.entry _ (KV.mem_of_get? h.pos)).amount
              (hi.entry _ (KV.mem_of_get? h.pos)).idx
            refine ⟨by show r.total - _ ≤ _; omega, ?_⟩
            refine share_step h2.1 hT hP hq hcov ?_ hin
            unfold userReward
            rw [if_pos h2]
            split
            · exact (share_bounds h2.2.le h2.1 hq).2.1
            · have := mul_nonneg hq h2.1.le
              have := mul_nonneg (mul_nonneg hq h2.2.le) (show 0 ≤ DEC by decide)
              rw [Int.zero_mul, Int.zero_mul]
              omega
          · exact fun _ => ⟨hT, hin⟩
        · exact fun _ => ⟨hT, hin⟩

theorem LoopOk.keptShare {c : Cfg} (hc : c.WF) {signer : String} {a : Addr} {v : Int} {l : List PosEntry}
    {rem removed rem' removed' : Int} {s s' : State} (hd : c.decode signer = some a)
    (hu : c.IsUser a) (hi : V0 c s) {key : PKey} {p : Position} {rs : KV Int Reward} (hkp : ShareKept key p rs s)
    (hv : key.2.1 = FLEXIBLE) (hne : ¬ (a = key.1 ∧ v = FLEXIBLE))
    (hp : Pending s a v l) (h0 : 0 ≤ rem)
    (h : LoopOk c signer a v l rem removed s rem' removed' s') : ShareKept key p rs s' := by
  induction h with
  | nil => exact hkp
  | stop => exact hkp
  | step q t rem removed s m rem' removed' s' _ _ h1 _ ih =>
    have hget := hp.stored q List.mem_cons_self
    have hpa := hp.addr q List.mem_cons_self
    have hpv := hp.vault q List.mem_cons_self
    have ho := hi.entry _ (KV.mem_of_get? hget)
    obtain ⟨b0, b1, b2⟩ := amountToRemove_bounds (p := q) h0 ho.amount
    obtain ⟨g1, g2, _⟩ := hi.of_one hc hd hu hpa hpv hget b0 b1 h1
    have hkey : key ≠ q.key := by
      intro e
      refine hne ⟨?_, ?_⟩
      · rw [e, ← hpa]; rfl
      · rw [← hv, e, ← hpv]; rfl
    exact ih g1 (h1.keptShare hc hd hu hi hkp hv hpa hpv hkey hget b0 b1) (hp.tail g2) (by omega)

theorem ShareKept.of_UI {c : Cfg} {s s' : State} {i : Int} {key : PKey} {p : Position} {rs : KV Int Reward}
    (h : ShareKept key p rs s) (hki : ∀ x ∈ rs, x.1 ≤ s.index) (hu : UI c s i s') : ShareKept key p rs s' := by
  have e1 : s'.positions = s.positions := hu.positions
  refine h.congr (by rw [e1]) fun x hx => ?_
  have := hki x hx
  rcases hu.rewards with hr | ⟨_, he, hlt, r, hr0, hr, hbal⟩
  · rw [hr]
  · rw [hr, KV.get?_set_ne _ _ (by omega)]

theorem ShareKept.of_deliver {c : Cfg} (hc : c.WF) {env : Env} {vaa : Bytes} {s s' : State} (hl : Led c s)
    {key : PKey} {p : Position} {rs : KV Int Reward} (hkp : ShareKept key p rs s) (hki : ∀ x ∈ rs, x.1 ≤ s.index)
    (h : deliver c env vaa s = .ok () s') : ShareKept key p rs s' := by
  obtain ⟨v, sA, _, _, rfl, hA, _, hd⟩ := deliver_did hc hl h
  have hvA : ShareKept key p rs { s with archive := s.archive ++ [v.digest] } := hkp.congr rfl (fun _ _ => rfl)
  generalize content env vaa = q at hd
  cases hd with
  | ignored _ _ _ _ _ _ _ _ e =>
    have e1 : s'.rewards = s.rewards := (congrArg State.rewards e :)
    have e2 : s'.positions = s.positions := (congrArg State.positions e :)
    exact hkp.congr (by rw [e2]) (fun _ _ => by rw [e1])
  | token amount i rcp s1 _ hu hm =>
    have h1 := hvA.of_UI hki hu
    have e1 : s'.rewards = s1.rewards := hm.moved.rewards
    have e2 : s'.positions = s1.positions := hm.moved.positions
    exact h1.congr (by rw [e2]) (fun _ _ => by rw [e1])
  | index i m _ e hu _ =>
    have h1 := hvA.of_UI hki hu
    have e1 : s'.rewards = m.rewards := (congrArg State.rewards e :)
    have e2 : s'.positions = m.positions := (congrArg State.positions e :)
    exact h1.congr (by rw [e2]) (fun _ _ => by rw [e1])

theorem ShareKept.step {c : Cfg} (hc : c.WF) {env : Env} {msg : Msg} {s : State} (hl : Led c s)
    (hv : V0 c s) {key : PKey} {p : Position} {rs : KV Int Reward} (hkp : ShareKept key p rs s)
    (hfl : key.2.1 = FLEXIBLE) (hki : ∀ x ∈ rs, x.1 ≤ s.index)
    (hq : ∀ signer amount, msg = .unlock signer FLEXIBLE amount → c.decode signer ≠ some key.1)
    (hm : msg.SignedByUser c) : ShareKept key p rs (step c env msg s) := by
  rcases step_cases c env msg s with h | h
  · rw [h]; exact hkp
  generalize Dollar.step c env msg s = s' at h
  have core : vaultF s' = vaultF s → ShareKept key p rs s' := by
    intro h3
    have e1 : s'.positions = s.positions := congrArg (fun x => x.1) h3
    have e3 : s'.rewards = s.rewards := congrArg (fun x => x.2.2.1) h3
    exact hkp.congr (by rw [e1]) (fun _ _ => by rw [e3])
  by_cases ho : msg.noOther = true
  · exact core (congrArg Prod.fst ((Other.msg c env msg ho).ok h) :)
  have ho : msg.noOther = false := by simpa using ho
  cases msg with
  | lock signer v amt? =>
    obtain ⟨amt, a, _, hkk⟩ := lock_ok (show lock c env signer v amt? s = .ok () s' from h)
    have hf := hkk.fresh
    obtain ⟨m, hmv, rfl⟩ := hkk.run
    have e1 : (lockedState m signer a v amt env.time).rewards = s.rewards := hmv.rewards
    have e0 : m.positions = s.positions := hmv.positions
    refine hkp.congr ?_ (fun _ _ => by rw [e1])
    show (m.positions.set _ _).get? key = _
    rw [KV.get?_set_ne, e0]
    rintro rfl
    unfold KV.has at hf
    rw [hkp.pos] at hf
    cases hf
  | unlock signer v amt? =>
    obtain ⟨_, _, amt, a, _, hkk⟩ := unlock_ok (show unlock c signer v amt? s = .ok () s' from h)
    obtain ⟨m, removed, hlp, rfl⟩ := hkk.run
    refine ShareKept.congr (s := m) ?_ rfl (fun _ _ => rfl)
    refine hlp.keptShare hc hkk.dec (hm a hkk.dec) hv hkp hfl ?_ (pending_positionsOf hv a v) hkk.pos.le
    rintro ⟨rfl, rfl⟩
    exact hq _ _ rfl hkk.dec
  | deliver vaa => exact hkp.of_deliver hc hl hki h
  | _ =>
    first
    | exact core ((VaultF.route c env _ ho rfl nofun nofun).ok h)
    | exact Bool.noConfusion ho

end Dollar
