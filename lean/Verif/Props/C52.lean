import Verif.Props.C14

/-
C52: a portal transfer succeeds exactly under the documented conditions, and its events report it.
-/
set_option maxRecDepth 100000
namespace Dollar
open MM Spec

theorem burn_progress {c : Cfg} {a : Addr} {amt : Int} {s : State} (h0 : 0 ≤ amt)
    (he : amt ≤ s.balance a) (hi : s.index ≠ 0) (hm : 0 ≤ s.balance c.moduleAddr)
    (hy : c.moduleAddr ≠ c.yieldAddr) :
    ∃ s', burn c a amt s = .ok () s' ∧ s'.posted = s.posted ∧ s'.events = s.events := by
  obtain ⟨m, hs, hmv⟩ := sendCoins_progress (c := c) (a := a) (b := c.moduleAddr) he hi (Or.inl hy)
  have hb : amt ≤ m.balance c.moduleAddr := by
    rw [hmv.bal, if_pos rfl]
    by_cases e : c.moduleAddr = a
    · rw [if_pos e, e]; omega
    · rw [if_neg e]; omega
  refine ⟨{ debit m c.moduleAddr amt with supply := m.supply - amt }, ?_, hmv.posted, hmv.events⟩
  unfold burn newCoin
  rw [if_neg (by omega)]
  show (sendCoins c a c.moduleAddr amt >>= fun _ => burnCoins c amt) s = _
  refine bind_ok.2 ⟨(), m, hs, ?_⟩
  unfold burnCoins
  refine bind_ok.2 ⟨(), debit m c.moduleAddr amt, ?_, rfl⟩
  rw [subCoins_eq, if_neg (by omega)]

/-- The hash that identifies the message: chain id and manager message, as the message digest of the
NTT protocol prescribes. -/
def Spec.digestOf (c : Cfg) (peer : Peer) (s : State) (amount : Nat) (chain : Nat)
    (token recipient : Bytes) (a : Addr) : Bytes :=
  managerDigest c c.chain
    (transferMessage c peer s.index amount chain token recipient (word a) s.nonce).1

theorem transfer_progress {c : Cfg} {env : Env} {signer : String} {amt : Int} {chain : Nat}
    {token recipient : Bytes} {s : State} {peer : Peer} {a : Addr}
    (hp : s.portalPaused = false) (hpe : s.peers.get? chain = some peer)
    (hpa : s.paths.has (chain, token) = true) (hl : recipient.length = 32) (h0 : 0 ≤ amt)
    (h1 : amt < 2 ^ 63) (hd : c.decode signer = some a) (ha : a.length ≤ 32) (he : amt ≤ s.balance a)
    (ho : env.postOk = true) (hi : s.index ≠ 0) (hm : 0 ≤ s.balance c.moduleAddr)
    (hy : c.moduleAddr ≠ c.yieldAddr) :
    ∃ s', transfer c env signer (some amt) chain token recipient s = .ok () s' ∧
      s'.events = s.events ++
        [.usdnTokenSent chain token signer recipient amt s.index
            (digestOf c peer s amt.toNat chain token recipient a),
         .transferSent recipient amt chain s.nonce,
         .transferSentDigest (digestOf c peer s amt.toNat chain token recipient a)] := by
  obtain ⟨m, hb, hpo, hev⟩ := burn_progress (c := c) (a := a) (amt := amt)
    (s := { s with nonce := (s.nonce + 1) % 2 ^ 32 }) h0 he hi hm hy
  have hpad : leftPad32 a = .ok (word a) := by unfold leftPad32; rw [if_pos ha]; rfl
  refine ⟨{ m with
      posted := m.posted ++ [((transferMessage c peer s.index amt.toNat chain token recipient
        (word a) s.nonce).2, s.nonce)],
      events := m.events ++
        [.usdnTokenSent chain token signer recipient amt s.index
            (digestOf c peer s amt.toNat chain token recipient a),
         .transferSent recipient amt chain s.nonce,
         .transferSentDigest (digestOf c peer s amt.toNat chain token recipient a)] }, ?_, ?_⟩
  · unfold transfer
    refine bind_ok.2 ⟨s, s, rfl, ?_⟩
    rw [if_neg (by rw [hp]; decide), hpe]
    show (if s.paths.has (chain, token) = false then _ else _ : M Unit) s = _
    rw [if_neg (by rw [hpa]; decide), if_neg (not_not.2 hl)]
    show (if amt < 0 ∨ 2 ^ 64 ≤ amt then crash else _ : M Unit) s = _
    rw [if_neg (by omega)]
    unfold transferSend
    refine bind_ok.2 ⟨s, s, rfl, ?_⟩
    rw [hd]
    refine bind_ok.2 ⟨word a, s, ?_, ?_⟩
    · rw [hpad]; rfl
    refine bind_ok.2 ⟨s.nonce, { s with nonce := (s.nonce + 1) % 2 ^ 32 }, rfl, ?_⟩
    refine bind_ok.2 ⟨(), m, hb, ?_⟩
    refine bind_ok.2 ⟨(), { m with
      posted := m.posted ++ [((transferMessage c peer s.index amt.toNat chain token recipient
        (word a) s.nonce).2, s.nonce)] }, ?_, ?_⟩
    · unfold postMessage
      rw [if_pos ho]
      rfl
    refine bind_ok.2 ⟨(), _, rfl, ?_⟩
    rw [if_neg (by omega)]
    refine bind_ok.2 ⟨(), _, rfl, ?_⟩
    show Res.ok () _ = _
    congr 1
    simp only [List.append_assoc]
    rfl
  · show m.events ++ _ = _
    rw [hev]

theorem encodeTransceiver_empty (a b m : Bytes) : encodeTransceiver ⟨a, b, m, []⟩ =
    [0x99, 0x45, 0xff, 0x10] ++ a ++ b ++ toBE 2 m.length ++ m ++ [0, 0] := by
  have h0 : toBE 2 0 = [0, 0] := by decide
  show transceiverPrefix ++ a ++ b ++ toBE 2 m.length ++ m ++ toBE 2 0 ++ [] = _
  rw [List.append_nil, h0]
  rfl

/-- A portal transfer succeeds exactly when the portal is not paused, the destination chain has a
peer, the bridging path was configured, the recipient has 32 bytes, the signer is an address of at
most 32 bytes holding the amount, the amount is below 2^63 and Wormhole accepts the message. -/
theorem C52_transfer_iff {c : Cfg} (hc : c.WF) {s : State} (hr : Reachable c s) (env : Env)
    (signer : String) (amount : Option Int) (chain : Nat) (token recipient : Bytes) :
    (∃ s', exec c env (.transfer signer amount chain token recipient) s = .ok () s') ↔
      s.portalPaused = false ∧ (∃ peer, s.peers.get? chain = some peer) ∧
      (∃ b, s.paths.get? (chain, token) = some b) ∧ recipient.length = 32 ∧ env.postOk = true ∧
      ∃ a amt, c.decode signer = some a ∧ a.length ≤ 32 ∧ amount = some amt ∧ 0 ≤ amt ∧
        amt < 2 ^ 63 ∧ amt ≤ s.balance a := by
  have hl := hr.led hc
  constructor
  · rintro ⟨s', h⟩
    obtain ⟨amt, rfl, ht⟩ := transfer_ok (show transfer c env _ _ _ _ _ s = .ok () s' from h)
    obtain ⟨peer, a, q, hpe, ha, hla, hpo, hb, e⟩ := ht.run
    refine ⟨ht.notPaused, ⟨peer, hpe⟩, ?_, ht.rcpLen, hpo, a, amt, ha, hla, rfl, ht.nonneg, ht.lt, ?_⟩
    · have := ht.path
      unfold KV.has at this
      exact Option.isSome_iff_exists.1 this
    · obtain ⟨_, m, hmv, _⟩ := hb
      rcases hmv.enough with h0 | h0
      · rw [h0]; exact hl.good.bal a
      · exact h0
  · rintro ⟨hp, ⟨peer, hpe⟩, ⟨b, hb⟩, hlen, ho, a, amt, hd, ha, rfl, h0, h1, he⟩
    obtain ⟨s', h, _⟩ := transfer_progress (token := token) (env := env) hp hpe
      (by unfold KV.has; rw [hb]; rfl) hlen h0 h1 hd ha he ho hl.good.index.ne'
      (hl.good.bal _) hc.yield_ne_module.symm
    exact ⟨s', h⟩

/-- The events of a successful transfer report the destination chain, token, recipient, amount,
current index, the nonce of the posted message and the hash of the posted manager message. -/
theorem C52_transfer_events {c : Cfg} (hc : c.WF) {s s' : State} (hr : Reachable c s) (env : Env)
    (signer : String) (amount : Option Int) (chain : Nat) (token recipient : Bytes)
    (h : exec c env (.transfer signer amount chain token recipient) s = .ok () s') :
    ∃ amt a peer raw mgr id, amount = some amt ∧ c.decode signer = some a ∧
      s.peers.get? chain = some peer ∧ s'.posted = s.posted ++ [(raw, s.nonce)] ∧
      raw = [0x99, 0x45, 0xff, 0x10] ++ c.paddedManager ++ peer.manager ++ toBE 2 mgr.length ++ mgr ++ [0, 0] ∧
      id = c.keccak (toBE 2 c.chain ++ mgr) ∧
      s'.events = s.events ++ [.usdnTokenSent chain token signer recipient amt s.index id,
        .transferSent recipient amt chain s.nonce, .transferSentDigest id] := by
  have hl := hr.led hc
  obtain ⟨hp, _, ⟨b, hb⟩, hlen, ho, a, amt, hd, ha, rfl, h0, h1, he⟩ :=
    (C52_transfer_iff hc hr env signer amount chain token recipient).1 ⟨s', h⟩
  obtain ⟨_, em, ht⟩ := transfer_ok
    (show transfer c env signer (some amt) chain token recipient s = .ok () s' from h)
  cases em
  obtain ⟨peer, a', q, hpe, ha', hla, hpo, hbu, e⟩ := ht.run
  rw [hd] at ha'; cases ha'
  obtain ⟨s'', h'', hev⟩ := transfer_progress (token := token) (env := env) hp hpe
      (by unfold KV.has; rw [hb]; rfl) hlen h0 h1 hd ha he ho hl.good.index.ne'
      (hl.good.bal _) hc.yield_ne_module.symm
  rw [show transfer c env signer (some amt) chain token recipient s = .ok () s' from h] at h''
  cases h''
  refine ⟨amt, a, peer, (transferMessage c peer s.index amt.toNat chain token recipient
    (word a) s.nonce).2, encodeManager (transferMessage c peer s.index amt.toNat chain token recipient
    (word a) s.nonce).1, _, rfl, hd, hpe, ?_, ?_, rfl, hev⟩
  · rcases posted_step h with ⟨_, h2⟩ | ⟨sg, amt', ch', tk', rc', peer', a', em, hp', ha', hl', hpo, hno⟩
    · have h3 := (ht.did hd).nonce
      rw [h2] at h3
      omega
    · cases em
      rw [hpe] at hp'; cases hp'
      rw [hd] at ha'; cases ha'
      exact hpo
  · exact encodeTransceiver_empty _ _ _

/-- Non-vacuity: a reachable demo state in which a transfer of one unit succeeds. -/
example : ∃ s', exec Demo.cfg (Demo.env 9) (.transfer Demo.aliceS (some 1) 2 (List.replicate 32 8)
    (List.replicate 32 1)) (run Demo.cfg Demo.hist1 Demo.start) = .ok () s' := by
  refine (C52_transfer_iff Demo.cfg_wf Demo.reach1 _ _ _ _ _ _).2 ?_
  refine ⟨by decide +kernel, Option.isSome_iff_exists.1 (by decide +kernel),
    Option.isSome_iff_exists.1 (by decide +kernel), by decide, by decide +kernel,
    Demo.alice, 1, by decide +kernel, by decide +kernel, rfl, by decide, by decide, by decide +kernel⟩

end Dollar
