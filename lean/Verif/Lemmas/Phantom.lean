import Verif.Lemmas.RecordFlow

/-
Principal that reward records and the flexible total carry without a position: at most one unit per payout of
a flexible position, as long as every payout claimed its rewards.
-/
set_option linter.unusedSimpArgs false

namespace Dollar
open MM Spec

/-- Whether an event tells that rewards of the flexible vault were claimed. -/
def Spec.isRewardClaim : Event → Bool
  | .rewardClaimed _ _ => true
  | _ => false

/-- How many claims of rewards the event log shows. -/
def Spec.rewardClaims (s : State) : Nat := s.events.countP isRewardClaim

theorem claims_append {s s' : State} {l : List Event} (h : s'.events = s.events ++ l) :
    rewardClaims s' = rewardClaims s + l.countP isRewardClaim := by
  unfold rewardClaims; rw [h, List.countP_append]

theorem claims_congr {s s' : State} (h : s'.events = s.events) : rewardClaims s' = rewardClaims s := by
  unfold rewardClaims; rw [h]

theorem claims_new {s s' : State} {l : List Event} (h : s'.events = s.events ++ l)
    (hl : l.countP isRewardClaim = 0 := by rfl) : rewardClaims s' = rewardClaims s := by
  rw [claims_append h, hl]; rfl

theorem Updated.rewardClaims {s s' : State} {i : Int} (hu : Updated s i s') : rewardClaims s' = rewardClaims s := by
  rw [claims_append hu.events]; rfl

/-- Only unlocks claim rewards. -/
theorem exec_claims {c : Cfg} (hc : c.WF) {env : Env} {m : Msg} {s s' : State} (hr : Reachable c s)
    (hm : m.SignedByUser c) (hn : ∀ a v x, m ≠ .unlock a v x) (h : exec c env m s = .ok () s') :
    rewardClaims s' = rewardClaims s := by
  have failed : ∀ p b, packetFailed c p b s = .ok () s' → rewardClaims s' = rewardClaims s := by
    intro p b hp
    obtain ⟨_, _, n, hmv, rfl⟩ := packetFailed_ok hp
    have e1 : n.events = s.events := by rw [hmv.events]; split <;> rfl
    exact claims_congr e1
  cases m with
  | claimYield signer =>
    obtain ⟨_, a, n, hd, hb, hmv, rfl⟩ := claimYield_ok h
    exact (claims_new (s := n) rfl).trans (claims_congr hmv.events)
  | setPaused signer p =>
    obtain ⟨_, rfl⟩ := setPaused_ok h
    exact claims_new (s := s) rfl
  | setYieldRecipient signer p i r =>
    obtain ⟨_, _, rfl⟩ := setYieldRecipient_ok h
    exact claims_new (s := s) rfl
  | deliver vaa =>
    obtain ⟨_, v, peer, t, mm, n, h1, h2, h3, h4, h5, h6, h7, h8, h9, rfl⟩ := (deliver_ok h).run
    refine (claims_new (s := n) rfl).trans ?_
    have hg : Good c { s with archive := s.archive ++ [v.digest] } := (hr.led hc).good.congr
    have e0 : rewardClaims { s with archive := s.archive ++ [v.digest] } = rewardClaims s := rfl
    rw [← e0]
    generalize { s with archive := s.archive ++ [v.digest] } = sA at h9 hg
    show rewardClaims n = rewardClaims sA
    cases h9 with
    | ignored _ e => rw [e]
    | token p m1 _ _ _ _ hmint e =>
      obtain ⟨s1, hi, hu, hmk⟩ := mint_ok hc hg hmint
      have e1 : m1.events = s1.events := hmk.moved.events
      have e2 : rewardClaims n = rewardClaims s1 := by
        rw [e]; exact (claims_new (s := m1) (List.append_assoc ..)).trans (claims_congr e1)
      rw [e2]
      by_cases hok : (updateIndex c env p.index sA).isOk = true
      · have hup : updateIndex c env p.index sA = .ok () s1 := by
          rw [ignore_apply] at hi
          cases hx : updateIndex c env p.index sA with
          | ok _ s2 => rw [hx] at hi; cases hi; rfl
          | err => rw [hx] at hok; cases hok
          | panic => rw [hx] at hok; cases hok
        obtain ⟨_, hU⟩ := (updateIndex_wp hc env p.index hg).of_ok hup
        exact hU.rewardClaims
      · have hup : ∃ er, updateIndex c env p.index sA = .err er s1 := by
          rw [ignore_apply] at hi
          cases hx : updateIndex c env p.index sA with
          | ok _ s2 => rw [hx] at hok; exact absurd rfl hok
          | err er s2 => rw [hx] at hi; cases hi; exact ⟨er, rfl⟩
          | panic => rw [hx] at hi; cases hi
        obtain ⟨er, hup⟩ := hup
        exact claims_congr (EvF.updateIndex_err c env hup).1
    | index i _ _ hx =>
      obtain ⟨hu, hU⟩ := (updateIndex_wp hc env i hg).of_ok hx
      exact hU.rewardClaims
  | transfer signer amt? ch tok r =>
    obtain ⟨amt, _, ht⟩ := transfer_ok h
    obtain ⟨d, hev⟩ := ht.log
    exact claims_new hev
  | portalSetPaused signer p =>
    obtain ⟨_, _, rfl⟩ := portalSetPaused_ok h
    exact claims_new (s := s) rfl
  | setPeer signer ch t mg =>
    obtain ⟨_, _, _, _, _, _, _, _, rfl⟩ := setPeer_ok h
    exact claims_new (s := s) rfl
  | setBridgingPath signer ch t b =>
    obtain ⟨_, _, _, _, _, rfl⟩ := setBridgingPath_ok h
    exact claims_new (s := s) rfl
  | transferOwnership signer o =>
    obtain ⟨_, h1, h2, _, rfl⟩ := transferOwnership_ok h
    exact claims_new (s := s) rfl
  | lock signer v amt? =>
    obtain ⟨amt, a, _, hk⟩ := lock_ok h
    obtain ⟨n, hmv, rfl⟩ := hk.run
    exact (claims_new (s := n) rfl).trans (claims_congr hmv.events)
  | unlock signer v amt? => exact absurd rfl (hn _ _ _)
  | vaultsSetPaused signer p =>
    obtain ⟨_, _, _, rfl⟩ := vaultsSetPaused_ok h
    exact claims_new (s := s) rfl
  | bankSend a b amt =>
    obtain ⟨_, _, hmv⟩ := bankSend_ok h
    exact claims_congr hmv.events
  | keeperSend a b amt =>
    obtain ⟨_, hmv⟩ := keeperSend_ok h
    exact claims_congr hmv.events
  | bankMultiSend a outs =>
    have hu : c.IsUser a := hm
    have hmm := bankMultiSend_ok hc hu.ne_yield hu.ne_module (hr.led hc).good.index.ne' h
    exact claims_congr (congrArg State.events hmm.frame :)
  | ibcTransfer a ch r amt =>
    obtain ⟨_, _, n, hmv, rfl⟩ := userIbcTransfer_ok h
    exact claims_congr hmv.events
  | ibcReceive ch r amt =>
    obtain ⟨_, _, _, n, hmv, rfl⟩ := ibcReceive_ok h
    exact claims_congr hmv.events
  | ibcTimeout p => exact failed p true h
  | ibcAckError p => exact failed p false h
  | ibcAckSuccess p =>
    obtain ⟨_, rfl⟩ := packetAcked_ok h
    rfl
  | warpCreate t =>
    have h : warpCreate t s = .ok () s' := h
    unfold warpCreate at h
    have h := modify_ok.1 h
    subst h
    split <;> rfl
  | warpTransfer a t d r amt =>
    obtain ⟨_, col, n, _, hmv, rfl⟩ := warpSend_ok h
    exact claims_congr hmv.events
  | warpReceive t a amt =>
    obtain ⟨_, _, col, _, _, hmv⟩ := warpReceive_ok h
    exact claims_congr (hmv.events :)

/-- What a flexible position counts for. -/
def flexDown : PKey → Position → Int := fun k p => if k.2.1 = FLEXIBLE then roundedDown p.amount p.index else 0

/-- Totals carry at most one unit per payout without a position. -/
structure Exact (s : State) : Prop where
  le : rewardClaims s ≤ exits s
  tot : s.totalFlexible ≤ s.positions.sum flexDown + exits s
  recs : rewardClaims s = exits s → ∀ e ∈ s.rewards, 0 < e.2.rewards → e.2.total ≤ s.positions.sum (below e.1) + exits s

theorem flexDown_below {c : Cfg} {s : State} (hi : V0 c s) {i : Int} (h : s.index < i) :
    s.positions.sum (below i) = s.positions.sum flexDown := by
  refine KV.sum_congr fun e he => ?_
  have := (hi.entry e he).le
  have h1 : e.2.index < i := by omega
  unfold below flexDown
  simp only [h1, and_true]

/-- Removing a part takes at most one unit more than its own principal. -/
theorem down_sub_ge {amount amt i : Int} (h0 : 0 ≤ amt) (h1 : amt ≤ amount) (hi : 0 < i) :
    roundedDown amount i - roundedDown amt i - 1 ≤ roundedDown (amount - amt) i := by
  have b1 := down_bounds (show 0 ≤ amount by omega) hi
  have b2 := down_bounds h0 hi
  have b3 := down_bounds (show 0 ≤ amount - amt by omega) hi
  by_contra hn
  have h4 : roundedDown (amount - amt) i + roundedDown amt i + 2 ≤ roundedDown amount i := by omega
  have h5 := mul_le_mul_of_nonneg_right h4 hi.le
  nlinarith

theorem sum_posUpd_ge {ps : KV PKey Position} (hs : ps.Sorted) {p : PosEntry}
    (hg : ps.get? p.key = some p.val) {amt : Int} (h0 : 0 ≤ amt) (h1 : amt ≤ p.amount) (hi : 0 < p.index)
    (k pr : Int) :
    ps.sum (below k) - (if p.vault = FLEXIBLE ∧ p.index < k then roundedDown amt p.index + 1 else 0) ≤
      (posUpd ps p amt pr).sum (below k) := by
  rw [sum_posUpd hs hg]
  unfold below
  show _ ≤ _ - (if p.vault = FLEXIBLE ∧ p.index < k then roundedDown p.amount p.index else 0) +
    (if p.amount ≤ amt then 0 else if p.vault = FLEXIBLE ∧ p.index < k then roundedDown (p.amount - amt) p.index else 0)
  by_cases hc : p.vault = FLEXIBLE ∧ p.index < k
  · simp only [hc, and_self, if_true]
    split
    · have : amt = p.amount := by omega
      rw [this]; omega
    · have := down_sub_ge h0 h1 hi
      omega
  · simp only [hc, if_false]
    split <;> omega

theorem sum_below_nonneg {c : Cfg} {s : State} (hi : V0 c s) (k : Int) : 0 ≤ s.positions.sum (below k) := by
  refine KV.sum_nonneg fun e he => ?_
  have ho := hi.entry e he
  have := down_nonneg ho.amount ho.idx
  unfold below
  split <;> omega

theorem Exact.of_one {c : Cfg} (hc : c.WF) {signer : String} {a : Addr} {q : PosEntry}
    {v amt : Int} {s s' : State} (hi : V0 c s) (h : Exact s) (hd : c.decode signer = some a) (hu : c.IsUser a)
    (hpa : q.address = a) (hpv : q.vault = v) (hget : s.positions.get? q.key = some q.val)
    (h0 : 0 ≤ amt) (h1 : amt ≤ q.amount) (ho : OneOk c signer a v q amt s s') : Exact s' := by
  obtain ⟨g1, g2, g3⟩ := hi.of_one hc hd hu hpa hpv hget h0 h1 ho
  have hx := (hi.entry _ (KV.mem_of_get? hget)).idx
  have hge := fun k => sum_posUpd_ge hi.sorted hget h0 h1 hx k (roundedDown amt q.index)
  have hq : 0 ≤ roundedDown amt q.index := down_nonneg h0 hx
  have htop : s.positions.sum flexDown - (if v = FLEXIBLE then roundedDown amt q.index + 1 else 0) ≤
      s'.positions.sum flexDown := by
    have hs' : s'.index < max s.index s'.index + 1 := by omega
    rw [← flexDown_below hi (i := max s.index s'.index + 1) (by omega), ← flexDown_below g1 hs', g2]
    have := hge (max s.index s'.index + 1)
    have hlt : q.index < max s.index s'.index + 1 := by
      have := (hi.entry _ (KV.mem_of_get? hget)).le
      have : q.index ≤ s.index := this
      omega
    rw [hpv] at this
    simp only [hlt, and_true] at this
    exact this
  have ht := h.tot
  have hle := h.le
  cases ho with
  | staked m hv' ha hm e =>
    have e2 : s'.rewards = s.rewards := by rw [e]; exact hm.rewards
    have ee : s'.events = s.events ++ [.positionUnlocked signer v q.index amt (roundedDown amt q.index)] := by
      rw [e]; show m.events ++ _ = _; rw [hm.events]
    have c1 : rewardClaims s' = rewardClaims s := claims_new ee
    have c2 : exits s' = exits s := by
      rw [exits_append ee, List.countP_cons, List.countP_nil]
      show exits s + (0 + if decide (v = 2) = true then 1 else 0) = _
      have : v ≠ 2 := hv'
      simp [this]
    rw [if_neg hv'] at g3 htop
    refine ⟨by omega, by omega, ?_⟩
    rw [c1, c2, e2, g2]
    intro hcl x hxm hpos
    have := h.recs hcl x hxm hpos
    have h2 := hge x.1
    rw [if_neg (by rw [hpv]; exact fun hh => hv' hh.1)] at h2
    omega
  | flexible s1 m3 m4 owed y hv' hw hy h3 hn h4 e =>
    have e1 : s'.rewards = s1.rewards := by
      rw [e]; exact h4.rewards.trans h3.rewards
    have ee : s'.events = s1.events ++ [.positionUnlocked signer v q.index (amt + y) (roundedDown amt q.index)] := by
      rw [e]; show m4.events ++ _ = _
      rw [h4.events, h3.events]
    have e3 : exits s' = exits s1 + 1 := by
      rw [exits_append ee, List.countP_cons, List.countP_nil]
      show exits s1 + (0 + if decide (v = 2) = true then 1 else 0) = _
      have : v = 2 := hv'
      simp [this]
    have e4 : rewardClaims s' = rewardClaims s1 := claims_new ee
    rw [if_pos hv'] at g3 htop
    clear hy h3 h4 e ee
    rcases hw.run with ⟨_, _, rfl⟩ | ⟨_, _, _, m, hm, rfl⟩
    · have x1 : exits { s with totalFlexible := s.totalFlexible - roundedDown amt q.index } = exits s := rfl
      have x2 : rewardClaims { s with totalFlexible := s.totalFlexible - roundedDown amt q.index } = rewardClaims s := rfl
      rw [x1] at e3
      rw [x2] at e4
      refine ⟨by omega, by omega, fun hcl => ?_⟩
      omega
    · have e2 : s'.rewards = rewardsAfter s.rewards q.index s.index (roundedDown amt q.index) :=
        e1.trans hm.rewards
      have x1 : exits { m with events := m.events ++ [.rewardClaimed q.address owed] } = exits s := by
        rw [exits_append (s := m) rfl, exits_congr hm.events]; rfl
      have x2 : rewardClaims { m with events := m.events ++ [.rewardClaimed q.address owed] } = rewardClaims s + 1 := by
        rw [claims_append (s := m) rfl, claims_congr hm.events]; rfl
      rw [x1] at e3
      rw [x2] at e4
      refine ⟨by omega, by omega, fun hcl => ?_⟩
      have hcl : rewardClaims s = exits s := by omega
      rw [e2, e3]
      intro x hxm hpos
      obtain ⟨r, hr, hrx⟩ := mem_rewardsAfter hxm
      have h2 := hge x.1
      rw [hpv, ← g2] at h2
      have hn := sum_below_nonneg g1 x.1
      rw [hrx] at hpos ⊢
      by_cases hlt : q.index < x.1
      · rw [if_pos hlt] at hpos ⊢
        rw [if_pos ⟨hv', hlt⟩] at h2
        unfold rewardAfter at hpos ⊢
        split at hpos
        · next hh =>
          rw [if_pos hh]
          have := h.recs hcl _ hr hh.2
          dsimp only at this ⊢
          push_cast
          omega
        · next hh =>
          rw [if_neg hh]
          push_cast
          omega
      · rw [if_neg hlt] at hpos ⊢
        rw [if_neg (fun hh => hlt hh.2)] at h2
        have := h.recs hcl _ hr hpos
        dsimp only at this ⊢
        push_cast
        omega

theorem Exact.of_loop {c : Cfg} (hc : c.WF) {signer : String} {a : Addr} {v : Int} {l : List PosEntry}
    {rem removed rem' removed' : Int} {s s' : State} (hd : c.decode signer = some a)
    (hu : c.IsUser a) (hi : V0 c s) (hx : Exact s)
    (hp : Pending s a v l) (h0 : 0 ≤ rem)
    (h : LoopOk c signer a v l rem removed s rem' removed' s') : Exact s' := by
  induction h with
  | nil => exact hx
  | stop => exact hx
  | step q t rem removed s m rem' removed' s' _ _ h1 _ ih =>
    have hget := hp.stored q List.mem_cons_self
    have hpa := hp.addr q List.mem_cons_self
    have hpv := hp.vault q List.mem_cons_self
    have ho := hi.entry _ (KV.mem_of_get? hget)
    obtain ⟨b0, b1, b2⟩ := amountToRemove_bounds (p := q) h0 ho.amount
    obtain ⟨g1, g2, _⟩ := hi.of_one hc hd hu hpa hpv hget b0 b1 h1
    exact ih g1 (hx.of_one hc hi hd hu hpa hpv hget b0 b1 h1) (hp.tail g2) (by omega)

/-- A message that changes neither positions nor totals nor records. -/
theorem Exact.keep {s s' : State} (h : Exact s) (h1 : rewardClaims s' = rewardClaims s) (h2 : exits s ≤ exits s')
    (h3 : s'.positions = s.positions) (h4 : s'.totalFlexible = s.totalFlexible) (h5 : s'.rewards = s.rewards) :
    Exact s' := by
  have hle := h.le
  refine ⟨by omega, ?_, ?_⟩
  · rw [h3, h4]; have := h.tot; omega
  · intro hcl e he hp
    rw [h3]
    rw [h5] at he
    have := h.recs (by omega) e he hp
    omega

theorem Exact.of_UI {c : Cfg} {s s' t : State} {i : Int} (hi : V0 c s) (h : Exact s) (hu : UI c s i s')
    (h1 : rewardClaims t = rewardClaims s) (h2 : exits s ≤ exits t) (h3 : t.positions = s'.positions)
    (h4 : t.totalFlexible = s'.totalFlexible) (h5 : t.rewards = s'.rewards) : Exact t := by
  rw [hu.positions] at h3
  rw [hu.totalFlexible] at h4
  rcases hu.rewards with hr | ⟨_, he, hlt, r, hr0, hr, hbal⟩
  · exact h.keep h1 h2 h3 h4 (h5.trans hr)
  · have hle := h.le
    have ht := h.tot
    refine ⟨by omega, by rw [h3, h4]; omega, ?_⟩
    intro hcl e hm hp
    rw [h5, hr] at hm
    rw [h3]
    rcases KV.mem_set hm with e1 | hm
    · rw [e1, flexDown_below hi hlt]
      show s.totalFlexible ≤ _
      omega
    · have := h.recs (by omega) e hm hp
      omega

theorem Exact.step {c : Cfg} (hc : c.WF) {env : Env} {msg : Msg} {s : State} (hr : Reachable c s) (hx : Exact s)
    (hm : msg.SignedByUser c) : Exact (step c env msg s) := by
  have hl := hr.led hc
  have hv := (hr.vinv hc).toV0
  rcases step_cases c env msg s with h | h
  · rw [h]; exact hx
  have hlog := (exec_logged hc hr hm h).exits
  have hcl := fun hn => exec_claims hc hr hm hn h
  generalize Dollar.step c env msg s = s' at h hlog hcl
  have core : (∀ a v x, msg ≠ .unlock a v x) → vaultF s' = vaultF s → Exact s' := by
    intro hn h3
    exact hx.keep (hcl hn) hlog (congrArg Prod.fst h3) (congrArg (fun x => x.2.1) h3) (congrArg (fun x => x.2.2.1) h3)
  by_cases ho : msg.noOther = true
  · refine core ?_ (congrArg Prod.fst ((Other.msg c env msg ho).ok h) :)
    rintro a v x rfl; cases ho
  have ho : msg.noOther = false := by simpa using ho
  cases msg with
  | lock signer v amt? =>
    have hcl := hcl nofun
    obtain ⟨amt, a, _, hkk⟩ := lock_ok (show lock c env signer v amt? s = .ok () s' from h)
    have hfr := hkk.fresh
    have hn0 := hkk.nonneg
    obtain ⟨m, hmv, rfl⟩ := hkk.run
    have e1 : (lockedState m signer a v amt env.time).rewards = s.rewards := hmv.rewards
    have hnone : m.positions.get? (a, v, env.time) = none := by
      rw [hmv.positions]
      unfold KV.has at hfr
      simpa using hfr
    have hat : ∀ f, m.positions.at' (a, v, env.time) f = 0 := by
      intro f; unfold KV.at'; rw [hnone]
    have hpos : (lockedState m signer a v amt env.time).positions =
      m.positions.set (a, v, env.time) ⟨roundedDown amt m.index, m.index, amt, env.time⟩ := rfl
    have hi0 : 0 < m.index := by rw [hmv.index]; exact hl.good.index
    have hd0 : 0 ≤ roundedDown amt m.index := down_nonneg hn0 hi0
    have htf : (lockedState m signer a v amt env.time).totalFlexible =
      if v = FLEXIBLE then m.totalFlexible + roundedDown amt m.index else m.totalFlexible := rfl
    have hle := hx.le
    have ht := hx.tot
    refine ⟨by omega, ?_, ?_⟩
    · rw [hpos, KV.sum_set, hat, htf, hmv.totalFlexible, hmv.positions]
      unfold flexDown at ht ⊢
      simp only
      split <;> omega
    · intro hc' e he hp
      rw [e1] at he
      have := hx.recs (by omega) e he hp
      rw [hpos, KV.sum_set, hat, hmv.positions]
      unfold below at this ⊢
      simp only
      split <;> omega
  | unlock signer v amt? =>
    obtain ⟨_, _, amt, a, _, hkk⟩ := unlock_ok (show unlock c signer v amt? s = .ok () s' from h)
    obtain ⟨m, removed, hlp, rfl⟩ := hkk.run
    have := hx.of_loop hc hkk.dec (hm a hkk.dec) hv (pending_positionsOf hv a v) hkk.pos.le hlp
    exact this.keep rfl (le_refl _) rfl rfl rfl
  | deliver vaa =>
    have hcl := hcl nofun
    obtain ⟨v, sA, _, _, rfl, hA, _, hd⟩ := deliver_did hc hl (show deliver c env vaa s = .ok () s' from h)
    generalize content env vaa = q at hd
    have hx' : Exact { s with archive := s.archive ++ [v.digest] } := hx.keep rfl (le_refl _) rfl rfl rfl
    have hv' : V0 c { s with archive := s.archive ++ [v.digest] } :=
      ⟨hv.sorted, hv.entry, hv.staked, hv.flex, hv.ftot, hv.rew, hv.rsum⟩
    cases hd with
    | ignored _ _ _ _ _ _ _ _ e =>
      exact hx.keep hcl hlog (congrArg State.positions e :) (congrArg State.totalFlexible e :) (congrArg State.rewards e :)
    | token amount i rcp s1 _ hu hm =>
      exact hx'.of_UI hv' hu hcl hlog hm.moved.positions hm.moved.totalFlexible hm.moved.rewards
    | index i m _ e hu _ =>
      exact hx'.of_UI hv' hu hcl hlog (congrArg State.positions e :) (congrArg State.totalFlexible e :)
        (congrArg State.rewards e :)
  | _ =>
    first
    | exact core nofun ((VaultF.route c env _ ho rfl nofun nofun).ok h)
    | exact Bool.noConfusion ho

theorem Exact.initial {c : Cfg} {s : State} (h : Initial c s) (he : s.events = []) : Exact s := by
  have e1 : rewardClaims s = 0 := by unfold rewardClaims; rw [he]; rfl
  have e2 : exits s = 0 := by unfold exits; rw [he]; rfl
  refine ⟨by omega, ?_, ?_⟩
  · rw [h.totalFlexible, h.positions, e2]; exact le_refl _
  · rw [h.rewards]; nofun

theorem exact_run {c : Cfg} (hc : c.WF) {s : State} (hr : Reachable c s) (hx : Exact s) (h : History)
    (hs : h.Signed c) : Exact (run c h s) := by
  induction h generalizing s with
  | nil => exact hx
  | cons e t ih =>
    have hm : e.2.SignedByUser c := hs e List.mem_cons_self
    exact ih (hr.step hm) (hx.step hc hr hm) fun e he => hs e (List.mem_cons_of_mem _ he)

end Dollar
