import Verif.Props.C61
import Verif.Props.C24
import Verif.Props.C01
import Verif.Spec.Views
import Verif.Spec.Arith

/-
C63: the events of vault messages and deliveries report what was paid, to whom and on which ground.
-/
set_option maxRecDepth 100000
namespace Dollar
open MM Spec

/-- The payments to the user that the events of an unlock report. -/
def Spec.paidOut : List Event → Int
  | [] => 0
  | .positionUnlocked _ _ _ amount _ :: t => amount + paidOut t
  | .rewardClaimed _ amount :: t => amount + paidOut t
  | _ :: t => paidOut t

theorem paidOut_append (l l' : List Event) : paidOut (l ++ l') = paidOut l + paidOut l' := by
  induction l with
  | nil => exact (zero_add _).symm
  | cons e t ih =>
    cases e
    case positionUnlocked a b c d f =>
      show d + paidOut (t ++ l') = d + paidOut t + _
      omega
    case rewardClaimed a d =>
      show d + paidOut (t ++ l') = d + paidOut t + _
      omega
    all_goals exact ih

/-- An event of an unlock by `user`: it reports a position of the user in that vault, the amount paid
for it, and the principal of the part `x` that was withdrawn (in the staked vault, what is paid is the
part withdrawn), or a reward of the flexible vault paid to the user. -/
def Spec.UnlockEvent (s : State) (signer : String) (user : Addr) (vault : Int) (e : Event) : Prop :=
  (∃ t pos x amount principal, s.positions.get? (user, vault, t) = some pos ∧ 0 ≤ x ∧ x ≤ pos.amount ∧
    0 ≤ amount ∧ (vault = 1 → amount = x) ∧ IsFloor (x * 10 ^ 12) pos.index principal ∧
    e = .positionUnlocked signer vault pos.index amount principal) ∨
  (∃ amount, vault = 2 ∧ 0 ≤ amount ∧ e = .rewardClaimed user amount)

theorem OneOk.paid {c : Cfg} (hc : c.WF) {signer : String} {a : Addr} {p : PosEntry}
    {v amt : Int} {s0 s s' : State} (hd : c.decode signer = some a) (hu : c.IsUser a) (hpa : p.address = a)
    (hpv : p.vault = v) (hst : s0.positions.get? p.key = some p.val) (hin : 0 < p.index) (ha0 : 0 ≤ amt)
    (ha1 : amt ≤ p.amount)
    (hk : OneOk c signer a v p amt s s') :
    ∃ new, s'.events = s.events ++ new ∧ s'.balance a = s.balance a + paidOut new ∧
      ∀ e ∈ new, UnlockEvent s0 signer a v e := by
  have hst : s0.positions.get? (a, v, p.time) = some p.val := by rw [← hpa, ← hpv]; exact hst
  have hfl := C01_down_exact amt p.index ha0 hin
  have hacc : ∀ t, a ≠ posAddr c signer v t := fun t => by
    rw [posAddr_eq hc hd]; exact hu.ne_acct _ _ _
  cases hk with
  | staked m hn h0 hm e =>
    refine ⟨[.positionUnlocked signer v p.index amt (roundedDown amt p.index)], ?_, ?_, ?_⟩
    · rw [e]; show m.events ++ _ = _; rw [hm.events]
    · rw [e]; show m.balance a = _ + (amt + 0)
      rw [hpv] at hm
      rw [hm.bal a, if_neg (hacc _), if_pos rfl]; omega
    · intro x hx; rw [List.mem_singleton.1 hx]; exact .inl ⟨_, _, amt, _, _, hst, ha0, ha1, h0, fun _ => rfl, hfl, rfl⟩
  | flexible s1 m3 m4 owed y hf hr hy h3 hn h4 e =>
    have e3 : m3.events = s1.events := h3.events
    have e4 : m4.events = m3.events := h4.events
    rw [hpv] at h4
    have bA : s'.balance a = s1.balance a + (amt + y) := by
      rw [e]; show m4.balance a = _
      rw [h4.bal a, h3.bal a, if_neg (hacc _), if_neg hu.ne_yield, if_neg (hacc _), if_pos rfl]
      show s1.balance a - 0 + 0 - 0 + (amt + y) = _
      omega
    have ev : s'.events = s1.events ++ [.positionUnlocked signer v p.index (amt + y) (roundedDown amt p.index)] := by
      rw [e]; show m4.events ++ _ = _; rw [e4, e3]
    have hlast : UnlockEvent s0 signer a v
      (.positionUnlocked signer v p.index (amt + y) (roundedDown amt p.index)) := 
      .inl ⟨_, _, amt, _, _, hst, ha0, ha1, hn, fun h => absurd (h.symm.trans hf) (by decide), hfl, rfl⟩
    rcases hr.run with ⟨_, ho, rfl⟩ | ⟨_, _, _, m, hm, rfl⟩
    · refine ⟨_, ev, ?_, ?_⟩
      · rw [bA]; show s.balance a + _ = s.balance a + (amt + y + 0); omega
      · intro x hx; rw [List.mem_singleton.1 hx]; exact hlast
    · refine ⟨[.rewardClaimed p.address owed,
        .positionUnlocked signer v p.index (amt + y) (roundedDown amt p.index)], ?_, ?_, ?_⟩
      · rw [ev]; show m.events ++ _ ++ _ = _
        rw [hm.events, List.append_assoc]; rfl
      · rw [bA]; show m.balance a + _ = _ + (owed + (amt + y + 0))
        rw [hm.bal a, if_neg hu.ne_flexible, hpa, if_pos rfl]
        show s.balance a - 0 + owed + _ = _
        omega
      · intro x hx
        rcases List.mem_cons.1 hx with rfl | hx
        · exact .inr ⟨owed, hf, hr.nonneg, by rw [hpa]⟩
        · rw [List.mem_singleton.1 hx]; exact hlast

theorem LoopOk.paid {c : Cfg} (hc : c.WF) {signer : String} {a : Addr} {v : Int} {l : List PosEntry}
    {rem removed rem' removed' : Int} {s0 s s' : State} (hd : c.decode signer = some a) (hu : c.IsUser a) (h0 : 0 ≤ rem)
    (hp : ∀ p ∈ l, p.address = a ∧ p.vault = v ∧ s0.positions.get? p.key = some p.val ∧ 0 ≤ p.amount ∧
      0 < p.index)
    (h : LoopOk c signer a v l rem removed s rem' removed' s') :
    ∃ new, s'.events = s.events ++ new ∧ s'.balance a = s.balance a + paidOut new ∧
      ∀ e ∈ new, UnlockEvent s0 signer a v e := by
  induction h with
  | nil => exact ⟨[], by simp, by simp [paidOut], by simp⟩
  | stop => exact ⟨[], by simp, by simp [paidOut], by simp⟩
  | step p t rem removed s m rem' removed' s' _ _ h1 _ ih =>
    obtain ⟨q1, q2, q3, q4, q5⟩ := hp p List.mem_cons_self
    obtain ⟨x0, x1, x2⟩ := amountToRemove_bounds (p := p) h0 q4
    obtain ⟨n1, e1, b1, k1⟩ := h1.paid (s0 := s0) hc hd hu q1 q2 q3 q5 x0 x1
    obtain ⟨n2, e2, b2, k2⟩ := ih (by omega) fun q hq => hp q (List.mem_cons_of_mem _ hq)
    refine ⟨n1 ++ n2, by rw [e2, e1, List.append_assoc], by rw [b2, b1, paidOut_append]; omega, ?_⟩
    intro e he
    rcases List.mem_append.1 he with h | h
    · exact k1 e h
    · exact k2 e h

/-- The events of an accepted unlock speak of the signer only, and add up to what arrived on the
signer's account. -/
theorem C63_unlock_events {c : Cfg} (hc : c.WF) {s s' : State} (hr : Reachable c s) (env : Env)
    (signer : String) (vault amount : Int) (user : Addr) (hd : c.decode signer = some user)
    (hu : c.IsUser user) (h : exec c env (.unlock signer vault (some amount)) s = .ok () s') :
    ∃ new, s'.events = s.events ++ new ∧ s'.balance user = s.balance user + paidOut new ∧
      amount ≤ paidOut new ∧ ∀ e ∈ new, UnlockEvent s signer user vault e := by
  obtain ⟨_, _, amt, a, ha, hk⟩ := unlock_ok (show unlock c signer vault (some amount) s = .ok () s' from h)
  cases ha
  have ea : a = user := Option.some.inj (hk.dec.symm.trans hd)
  subst ea
  have hpay : s.balance a + amount ≤ s'.balance a := by
    rcases hk.vault with rfl | rfl
    · exact (C25_staked_unlock_effect hc env s s' hr signer a amount hd hu h).1.ge
    · have e := C25_flexible_unlock_effect hc env s s' hr signer a amount hd hu h
      have := e.1
      have := e.2.1
      have := e.2.2.1
      omega
  obtain ⟨m, removed, hlp, rfl⟩ := hk.run
  have hP := pending_positionsOf (hr.vinv hc).toV0 a vault
  obtain ⟨new, h1, h2, h3⟩ := hlp.paid (s0 := s) hc hd hu hk.pos.le fun p hp =>
    ⟨hP.addr p hp, hP.vault p hp, hP.stored p hp,
      ((hr.vinv hc).entry _ (KV.mem_of_get? (hP.stored p hp))).amount,
      ((hr.vinv hc).entry _ (KV.mem_of_get? (hP.stored p hp))).idx⟩
  have h2 : (unlockedState m a vault removed).balance a = s.balance a + paidOut new := h2
  exact ⟨new, h1, h2, by omega, h3⟩

/-- The event of an accepted lock reports the position that was opened. -/
theorem C63_lock_event {c : Cfg} (hc : c.WF) {s s' : State} (hr : Reachable c s) (env : Env)
    (signer : String) (vault amount : Int) (h : exec c env (.lock signer vault (some amount)) s = .ok () s') :
    ∃ user p, c.decode signer = some user ∧ IsFloor (amount * 10 ^ 12) s.index p ∧
      s'.positions.get? (user, vault, env.time) = some ⟨p, s.index, amount, env.time⟩ ∧
      s'.events = s.events ++ [.positionLocked signer vault s.index amount p] := by
  obtain ⟨amt, a, ha, hk⟩ := lock_ok (show lock c env signer vault (some amount) s = .ok () s' from h)
  cases ha
  obtain ⟨m, hm, rfl⟩ := hk.run
  refine ⟨a, roundedDown amount s.index, hk.dec,
    C01_down_exact _ _ hk.nonneg (hr.led hc).good.index, ?_, ?_⟩
  · show (m.positions.set (a, vault, env.time) _).get? _ = _
    rw [KV.get?_set_self, hm.index]
  · show m.events ++ _ = _
    rw [hm.events, hm.index]

/-- The events of an accepted delivery: an ignored message leaves only its bytes; an announcement is
reported with the old and the new index and the yield that was minted; a receipt names the source
chain, the sender and the identifier of the manager message, and exactly the token, recipient, amount
and index of its content, possibly after the report of an index update to that index. -/
theorem C63_deliver_events {c : Cfg} (hc : c.WF) {s s' : State} (hr : Reachable c s) (env : Env)
    (vaa : Bytes) (h : exec c env (.deliver vaa) s = .ok () s') :
    ∃ v t m, env.verify vaa = some v ∧ parseTransceiver v.payload = .ok t ∧
      parseManager t.managerPayload = .ok m ∧
      match content env vaa with
      | none => s'.events = s.events ++ [.delivered vaa]
      | some (.index i _) => s'.events = s.events ++
          [.indexUpdated s.index i s.totalPrincipal (s'.supply - s.supply), .delivered vaa]
      | some (.token amount i r _ token) =>
        ∃ upd, (upd = [] ∨ upd = [.indexUpdated s.index i s.totalPrincipal (s'.supply - amount - s.supply)]) ∧
          s'.events = s.events ++ upd ++
            [.mTokenReceived v.emitterChain token m.sender.bytes r amount i
              (c.keccak (toBE 2 v.emitterChain ++ encodeManager m.bytes)),
             .transferRedeemed (c.keccak (toBE 2 v.emitterChain ++ encodeManager m.bytes)),
             .delivered vaa] := by
  obtain ⟨_, v, peer, t, mm, n, h1, h2, h3, h4, h5, h6, h7, h8, h9, rfl⟩ :=
    (deliver_ok (show deliver c env vaa s = .ok () s' from h)).run
  clear h
  refine ⟨v, t, mm, h1, h5, h8, ?_⟩
  have hcon : content env vaa = contentOf mm.payload := by
    unfold content innerPayload
    simp only [h1, h5, h8]
  rw [hcon]
  have hg : Good c { s with archive := s.archive ++ [v.digest] } := (hr.led hc).good.congr
  cases h9 with
  | ignored hp e =>
    have e2 : contentOf mm.payload = none := by unfold contentOf; rw [hp]
    rw [e2, e]
  | token p m1 hp hd _ _ hmint e =>
    have e2 : contentOf mm.payload = some (.token p.amount p.index p.recipient p.chain p.token) := by
      unfold contentOf; rw [hp]; simp only [hd]
    rw [e2]
    obtain ⟨s1, hi, hu, hmk⟩ := mint_ok hc hg hmint
    have e1 : m1.events = s1.events := hmk.moved.events
    have u1 : m1.supply = s1.supply + p.amount := (congrArg State.supply hmk.moved.frame :)
    by_cases hok : (updateIndex c env p.index { s with archive := s.archive ++ [v.digest] }).isOk = true
    · have hup : updateIndex c env p.index { s with archive := s.archive ++ [v.digest] } = .ok () s1 := by
        rw [ignore_apply] at hi
        cases hx : updateIndex c env p.index { s with archive := s.archive ++ [v.digest] } with
        | ok _ s2 => rw [hx] at hi; cases hi; rfl
        | err => rw [hx] at hok; cases hok
        | panic => rw [hx] at hok; cases hok
      obtain ⟨_, hU⟩ := (updateIndex_wp hc env p.index hg).of_ok hup
      have hev : s1.events = s.events ++
        [.indexUpdated s.index p.index s.totalPrincipal (present s.totalPrincipal p.index - s.supply)] := hU.events
      have hsu : s1.supply = present s.totalPrincipal p.index := hU.supply
      refine ⟨_, .inr rfl, ?_⟩
      have e3 : n.supply - p.amount - s.supply = present s.totalPrincipal p.index - s.supply := by
        rw [e]; show m1.supply - _ - _ = _
        rw [u1, hsu]; omega
      show n.events ++ _ = s.events ++ [.indexUpdated _ _ _ (n.supply - p.amount - s.supply)] ++ _
      rw [e3, e]
      show m1.events ++ _ ++ _ ++ _ = _
      rw [e1, hev]
      simp only [List.append_assoc]
      rfl
    · have hup : ∃ er, updateIndex c env p.index { s with archive := s.archive ++ [v.digest] } = .err er s1 := by
        rw [ignore_apply] at hi
        cases hx : updateIndex c env p.index { s with archive := s.archive ++ [v.digest] } with
        | ok _ s2 => rw [hx] at hok; exact absurd rfl hok
        | err er s2 => rw [hx] at hi; cases hi; exact ⟨er, rfl⟩
        | panic => rw [hx] at hi; cases hi
      obtain ⟨er, hup⟩ := hup
      have hev : s1.events = s.events := (EvF.updateIndex_err c env hup).1
      refine ⟨[], .inl rfl, ?_⟩
      rw [e]
      show m1.events ++ _ ++ _ ++ _ = _
      rw [e1, hev]
      simp only [List.append_assoc]
      rfl
  | index i hp hd hx =>
    have e2 : contentOf mm.payload = some (.index i c.chain) := by
      unfold contentOf; rw [hp]; simp only [hd]
    rw [e2]
    obtain ⟨_, hU⟩ := (updateIndex_wp hc env i hg).of_ok hx
    have hev : n.events = s.events ++
      [.indexUpdated s.index i s.totalPrincipal (present s.totalPrincipal i - s.supply)] := hU.events
    have hsu : n.supply = present s.totalPrincipal i := hU.supply
    show n.events ++ _ = s.events ++ [.indexUpdated _ _ _ (n.supply - s.supply), _]
    rw [hev, hsu, List.append_assoc]
    rfl

/-- Non-vacuity: in the demo history a user unlocks 1000000 from the flexible vault and is paid 1650000,
as the two events of the unlock report: a reward of 250000 and a payment of 1400000. -/
example : let s := run Demo.cfg (Demo.hist2.take 10) Demo.start
    let s' := step Demo.cfg (Demo.env 11) (.unlock Demo.aliceS 2 (some 1000000)) s
    Reachable Demo.cfg s ∧ Demo.cfg.decode Demo.aliceS = some Demo.alice ∧ Demo.cfg.IsUser Demo.alice ∧
    (exec Demo.cfg (Demo.env 11) (.unlock Demo.aliceS 2 (some 1000000)) s).isOk = true ∧
    s'.balance Demo.alice - s.balance Demo.alice = 1650000 ∧
    s'.events = s.events ++ [.rewardClaimed Demo.alice 250000,
      .positionUnlocked Demo.aliceS 2 1000000000000 1400000 1000000] :=
  ⟨Demo.reach2_take 10, by decide +kernel, Demo.alice_user, by decide +kernel, by decide +kernel,
    by decide +kernel⟩

/-- Non-vacuity: the demo lock, and the delivery of an announcement of the index. -/
example : let s := run Demo.cfg (Demo.hist2.take 6) Demo.start
    Reachable Demo.cfg s ∧
    (exec Demo.cfg (Demo.env 7) (.lock Demo.aliceS 2 (some 1000000)) s).isOk = true ∧
    (exec Demo.cfg (Demo.env 7) (.deliver [3]) s).isOk = true :=
  ⟨Demo.reach2_take 6, by decide +kernel, by decide +kernel⟩

end Dollar
