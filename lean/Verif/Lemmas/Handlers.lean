import Verif.Lemmas.Update2

/-
Effects of the successful message handlers.
-/
set_option linter.unusedSimpArgs false

namespace Dollar
open MM

theorem newCoin_ok {a : Int} {s s' : State} {u : Unit} (h : newCoin a s = .ok u s') :
    0 ≤ a ∧ s' = s := by
  unfold newCoin at h
  rw [ite_ok] at h
  rcases h with ⟨_, h⟩ | ⟨h1, h⟩
  · cases h
  · exact ⟨by omega, (pure_ok.1 h).2.symm⟩

theorem emit_ok {e : Event} {s s' : State} {u : Unit} (h : emit e s = .ok u s') :
    s' = { s with events := s.events ++ [e] } := (modify_ok.1 h).symm

/-! ### Mint and burn -/

/-- Result of an ignored call. -/
theorem ignore_updateIndex {c : Cfg} (hc : c.WF) {env : Env} {i : Int} {s s' : State} {u : Unit}
    (hg : Good c s) (h : ignore (updateIndex c env i) s = .ok u s') : UI c s i s' := by
  have hw := updateIndex_wp hc env i hg
  rcases ignore_ok.1 h with h | ⟨e, h⟩
  · exact (hw.of_ok h).1
  · exact hw.of_err h

/-- Effect of `Mint`, given the state `s1` after the (ignored) index update. -/
structure MintOk (c : Cfg) (s1 : State) (rcp : Addr) (amt : Int) (s' : State) : Prop where
  nonneg : 0 ≤ amt
  allowed : c.blocked rcp = false
  moved : Moved c (minted s1 c.moduleAddr amt) c.moduleAddr rcp amt s'

theorem mint_ok {c : Cfg} (hc : c.WF) {env : Env} {rcp : Addr} {amt i : Int} {s s' : State} {u : Unit}
    (hg : Good c s) (h : mint c env rcp amt i s = .ok u s') :
    ∃ s1, ignore (updateIndex c env i) s = .ok () s1 ∧ UI c s i s1 ∧ MintOk c s1 rcp amt s' := by
  unfold mint at h
  simp only [bind_ok] at h
  obtain ⟨_, s1, h1, _, s2, h2, _, s3, h3, h4⟩ := h
  obtain ⟨h0, rfl⟩ := newCoin_ok h2
  rw [mintCoins_eq] at h3
  cases h3
  have := (sendModuleToAccount_wp c c.moduleAddr rcp amt _).of_ok h4
  exact ⟨s2, h1, ignore_updateIndex hc hg h1, h0, this.1, this.2⟩

namespace MintOk
variable {c : Cfg} {s1 s' : State} {rcp : Addr} {amt : Int}

theorem ne_module (h : MintOk c s1 rcp amt s') (hc : c.WF) : rcp ≠ c.moduleAddr := by
  rintro rfl
  have := h.allowed
  rw [hc.module_blocked] at this
  cases this

theorem bal (h : MintOk c s1 rcp amt s') (x : Addr) :
    s'.balance x = s1.balance x + (if x = rcp then amt else 0) := by
  rw [h.moved.bal, minted_balance]
  split <;> ring

theorem supply (h : MintOk c s1 rcp amt s') : s'.supply = s1.supply + amt := h.moved.supply

theorem sum (h : MintOk c s1 rcp amt s') : sumBal s' = sumBal s1 + amt := by
  rw [h.moved.sum, minted_sum]

end MintOk

/-- Effect of `Burn`. -/
structure BurnOk (c : Cfg) (s : State) (a : Addr) (amt : Int) (s' : State) : Prop where
  nonneg : 0 ≤ amt
  mid : ∃ m, Moved c s a c.moduleAddr amt m ∧ amt ≤ m.balance c.moduleAddr ∧
    s' = { debit m c.moduleAddr amt with supply := m.supply - amt }

theorem burn_ok {c : Cfg} {a : Addr} {amt : Int} {s s' : State} {u : Unit}
    (h : burn c a amt s = .ok u s') : BurnOk c s a amt s' := by
  unfold burn at h
  simp only [bind_ok] at h
  obtain ⟨_, s1, h1, _, m, h2, h3⟩ := h
  obtain ⟨h0, rfl⟩ := newCoin_ok h1
  unfold burnCoins at h3
  simp only [bind_ok] at h3
  obtain ⟨_, s3, h3, h4⟩ := h3
  rw [subCoins_eq] at h3
  split at h3
  · cases h3
  · next hlt =>
    cases h3
    refine ⟨h0, m, sendCoins_ok h2, by omega, (modify_ok.1 h4).symm⟩

namespace BurnOk
variable {c : Cfg} {s s' : State} {a : Addr} {amt : Int}

theorem bal (h : BurnOk c s a amt s') (x : Addr) :
    s'.balance x = s.balance x - (if x = a then amt else 0) := by
  obtain ⟨m, hm, _, rfl⟩ := h.mid
  show (debit m c.moduleAddr amt).balance x = _
  rw [balance_debit, hm.bal]; ring

theorem supply (h : BurnOk c s a amt s') : s'.supply = s.supply - amt := by
  obtain ⟨m, hm, _, rfl⟩ := h.mid
  show m.supply - amt = _
  rw [hm.supply]

theorem sum (h : BurnOk c s a amt s') : sumBal s' = sumBal s - amt := by
  obtain ⟨m, hm, _, rfl⟩ := h.mid
  show sumBal (debit m c.moduleAddr amt) = _
  rw [sumBal_debit, hm.sum]

end BurnOk

/-! ### Yield claims -/

theorem claimYield_ok {c : Cfg} {signer : String} {s s' : State} {u : Unit}
    (h : claimYield c signer s = .ok u s') :
    s.paused = false ∧ ∃ a m, c.decode signer = some a ∧ c.blocked a = false ∧
      Moved c s c.yieldAddr a (claimable s a) m ∧
      s' = { m with events := m.events ++ [.yieldClaimed signer (claimable s a)] } := by
  unfold claimYield at h
  simp only [bind_ok, get_ok] at h
  obtain ⟨_, _, ⟨rfl, rfl⟩, h⟩ := h
  rw [ite_ok] at h
  rcases h with ⟨_, h⟩ | ⟨hp, h⟩
  · cases h
  refine ⟨by simpa using hp, ?_⟩
  simp only [bind_ok] at h
  obtain ⟨⟨y, a⟩, s1, h1, _, s2, h2, _, s3, h3, h4⟩ := h
  unfold getYield at h1
  cases ha : c.decode signer with
  | none => rw [ha] at h1; cases h1
  | some a' =>
  rw [ha] at h1
  simp only [bind_ok, get_ok, pure_ok] at h1
  obtain ⟨_, _, ⟨rfl, rfl⟩, h1, rfl⟩ := h1
  cases h1
  obtain ⟨h0, rfl⟩ := newCoin_ok h2
  have hm := (sendModuleToAccount_wp c c.yieldAddr _ _ _).of_ok h3
  exact ⟨_, s3, rfl, hm.1, hm.2, emit_ok h4⟩

/-! ### Portal -/

theorem parse_ok {α : Type} {r : PRes α} {a : α} {s s' : State} (h : parse r s = .ok a s') :
    r = .ok a ∧ s' = s := by
  unfold parse at h
  split at h
  · obtain ⟨rfl, rfl⟩ := pure_ok.1 h; exact ⟨rfl, rfl⟩
  · cases h
  · cases h

/-- What an accepted VAA did. -/
inductive Handled (c : Cfg) (env : Env) (payload : Sl) (ev : EventsPayload) (s s' : State) : Prop
  | ignored : payloadType payload = .ok .unknown → s' = s → Handled c env payload ev s s'
  | token (p : TokenPayload) (m : State) : payloadType payload = .ok .token →
      decodeToken payload = .ok p → c.chain = p.chain → c.rawToken = p.token →
      mint c env p.recipient p.amount p.index s = .ok () m →
      s' = { m with events := m.events ++
        [.mTokenReceived ev.sourceChain p.token ev.sender p.recipient p.amount p.index ev.messageId] ++
        [.transferRedeemed ev.messageId] } → Handled c env payload ev s s'
  | index (i : Int) : payloadType payload = .ok .index → decodeIndex payload = .ok (i, c.chain) →
      updateIndex c env i s = .ok () s' → Handled c env payload ev s s'

theorem handlePayload_ok {c : Cfg} {env : Env} {payload : Sl} {ev : EventsPayload} {s s' : State}
    {u : Unit} (h : handlePayload c env payload ev s = .ok u s') : Handled c env payload ev s s' := by
  unfold handlePayload at h
  simp only [bind_ok] at h
  obtain ⟨t, s1, h1, h2⟩ := h
  obtain ⟨e1, rfl⟩ := parse_ok h1
  clear h1
  cases t with
  | unknown => exact .ignored e1 (pure_ok.1 h2).2.symm
  | token =>
    simp only at h2
    unfold handleToken at h2
    simp only [bind_ok] at h2
    obtain ⟨p, s2, h2, h3⟩ := h2
    obtain ⟨e2, rfl⟩ := parse_ok h2
    clear h2
    rw [ite_ok] at h3
    rcases h3 with ⟨_, h3⟩ | ⟨hch, h3⟩
    · cases h3
    rw [ite_ok] at h3
    rcases h3 with ⟨_, h3⟩ | ⟨htok, h3⟩
    · cases h3
    simp only [bind_ok] at h3
    obtain ⟨_, m, h3, _, m2, h4, h5⟩ := h3
    have h4 := emit_ok h4
    have h5 := emit_ok h5
    subst h4
    exact .token p m e1 e2 (by simpa using hch) (by simpa using htok) h3 h5
  | index =>
    simp only at h2
    unfold handleIndex at h2
    simp only [bind_ok] at h2
    obtain ⟨p, s2, h2, h3⟩ := h2
    obtain ⟨e2, rfl⟩ := parse_ok h2
    clear h2
    rw [ite_ok] at h3
    rcases h3 with ⟨_, h3⟩ | ⟨hch, h3⟩
    · cases h3
    have hch : c.chain = p.2 := by simpa using hch
    exact .index p.1 e1 (by rw [e2, hch]) h3

/-- Everything `Deliver` checked and did. -/
structure DeliverOk (c : Cfg) (env : Env) (bz : Bytes) (s s' : State) : Prop where
  run : s.portalPaused = false ∧ ∃ v peer t mm m,
    env.verify bz = some v ∧ v.digest ∉ s.archive ∧
    s.peers.get? v.emitterChain = some peer ∧ peer.transceiver = v.emitterAddress ∧
    parseTransceiver v.payload = .ok t ∧ peer.manager = t.sourceManager.bytes ∧
    c.paddedManager = t.recipientManager.bytes ∧ parseManager t.managerPayload = .ok mm ∧
    Handled c env mm.payload ⟨v.emitterChain, mm.sender.bytes, managerDigest c v.emitterChain mm.bytes⟩
      { s with archive := s.archive ++ [v.digest] } m ∧
    s' = { m with events := m.events ++ [.delivered bz] }

theorem deliver_ok {c : Cfg} {env : Env} {bz : Bytes} {s s' : State} {u : Unit}
    (h : deliver c env bz s = .ok u s') : DeliverOk c env bz s s' := by
  unfold deliver at h
  simp only [bind_ok] at h
  obtain ⟨_, m, h, he⟩ := h
  have he := emit_ok he
  unfold deliverInner at h
  simp only [bind_ok, get_ok] at h
  obtain ⟨_, _, ⟨rfl, rfl⟩, h⟩ := h
  rw [ite_ok] at h
  rcases h with ⟨_, h⟩ | ⟨hp, h⟩
  · cases h
  simp only [bind_ok] at h
  obtain ⟨v, s1, hv, h⟩ := h
  unfold verifyVAA at hv
  cases hver : env.verify bz with
  | none => rw [hver] at hv; cases hv
  | some v' =>
  rw [hver] at hv
  simp only [bind_ok, get_ok] at hv
  obtain ⟨_, _, ⟨rfl, rfl⟩, hv⟩ := hv
  rw [ite_ok] at hv
  rcases hv with ⟨_, hv⟩ | ⟨hnew, hv⟩
  · cases hv
  simp only [bind_ok, modify_ok, pure_ok] at hv
  obtain ⟨_, _, hs1, rfl, rfl⟩ := hv
  cases hpeer : s.peers.get? v'.emitterChain with
  | none => simp only [hpeer] at h; cases h
  | some peer =>
  simp only [hpeer] at h
  rw [ite_ok] at h
  rcases h with ⟨_, h⟩ | ⟨htr, h⟩
  · cases h
  unfold deliverPayload at h
  simp only [bind_ok] at h
  obtain ⟨t, s2, ht, h⟩ := h
  obtain ⟨et, rfl⟩ := parse_ok ht
  rw [ite_ok] at h
  rcases h with ⟨_, h⟩ | ⟨hsm, h⟩
  · cases h
  rw [ite_ok] at h
  rcases h with ⟨_, h⟩ | ⟨hrm, h⟩
  · cases h
  simp only [bind_ok] at h
  obtain ⟨mm, s3, hmm, h⟩ := h
  obtain ⟨emm, rfl⟩ := parse_ok hmm
  refine ⟨by simpa using hp, v', peer, t, mm, m, hver, hnew, hpeer, by simpa using htr, et,
    by simpa using hsm, by simpa using hrm, emm, ?_, he⟩
  rw [hs1]
  exact handlePayload_ok h

/-- Everything `Transfer` checked and did. -/
structure TransferOk (c : Cfg) (env : Env) (signer : String) (amt : Int) (chain : Nat)
    (token recipient : Bytes) (s s' : State) : Prop where
  notPaused : s.portalPaused = false
  path : s.paths.has (chain, token) = true
  rcpLen : recipient.length = 32
  nonneg : 0 ≤ amt
  lt : amt < 2 ^ 63
  run : ∃ peer sender m, s.peers.get? chain = some peer ∧ c.decode signer = some sender ∧
    sender.length ≤ 32 ∧ env.postOk = true ∧
    BurnOk c { s with nonce := (s.nonce + 1) % 2 ^ 32 } sender amt m ∧
    s' = { m with
      posted := m.posted ++ [((transferMessage c peer s.index amt.toNat chain token recipient
        (List.replicate (32 - sender.length) 0 ++ sender) s.nonce).2, s.nonce)],
      events := s'.events }
  log : ∃ d, s'.events = s.events ++ [.usdnTokenSent chain token signer recipient amt s.index d,
    .transferSent recipient amt chain s.nonce, .transferSentDigest d]

theorem transfer_ok {c : Cfg} {env : Env} {signer : String} {amt? : Option Int} {chain : Nat}
    {token recipient : Bytes} {s s' : State} {u : Unit}
    (h : transfer c env signer amt? chain token recipient s = .ok u s') :
    ∃ amt, amt? = some amt ∧ TransferOk c env signer amt chain token recipient s s' := by
  unfold transfer at h
  simp only [bind_ok, get_ok] at h
  obtain ⟨_, _, ⟨rfl, rfl⟩, h⟩ := h
  rw [ite_ok] at h
  rcases h with ⟨_, h⟩ | ⟨hp, h⟩
  · cases h
  cases hpeer : s.peers.get? chain with
  | none => simp only [hpeer] at h; cases h
  | some peer =>
  simp only [hpeer] at h
  rw [ite_ok] at h
  rcases h with ⟨_, h⟩ | ⟨hpath, h⟩
  · cases h
  rw [ite_ok] at h
  rcases h with ⟨_, h⟩ | ⟨hlen, h⟩
  · cases h
  cases amt? with
  | none => cases h
  | some amt =>
  simp only at h
  rw [ite_ok] at h
  rcases h with ⟨_, h⟩ | ⟨hrange, h⟩
  · cases h
  refine ⟨amt, rfl, ?_⟩
  unfold transferSend at h
  simp only [bind_ok, get_ok] at h
  obtain ⟨_, _, ⟨rfl, rfl⟩, h⟩ := h
  cases hdec : c.decode signer with
  | none => simp only [hdec] at h; cases h
  | some sender =>
  simp only [hdec] at h
  simp only [bind_ok] at h
  obtain ⟨raw, s1, hraw, h⟩ := h
  obtain ⟨hraw, rfl⟩ := parse_ok hraw
  unfold leftPad32 at hraw
  split at hraw
  swap
  · cases hraw
  next hsl =>
  cases hraw
  obtain ⟨n, s2, hn, h⟩ := h
  unfold incrementNonce at hn
  simp only [bind_ok, get_ok, modify_ok, pure_ok] at hn
  obtain ⟨_, _, ⟨rfl, rfl⟩, _, _, rfl, rfl, rfl⟩ := hn
  obtain ⟨_, m, hb, h⟩ := h
  obtain ⟨_, m2, hpost, h⟩ := h
  unfold postMessage at hpost
  rw [ite_ok] at hpost
  rcases hpost with ⟨hok, hpost⟩ | ⟨_, hpost⟩
  swap
  · cases hpost
  have hpost := modify_ok.1 hpost
  obtain ⟨_, m3, he1, h⟩ := h
  have he1 := emit_ok he1
  rw [ite_ok] at h
  rcases h with ⟨_, h⟩ | ⟨hlt, h⟩
  · cases h
  simp only [bind_ok] at h
  obtain ⟨_, m4, he2, he3⟩ := h
  have he2 := emit_ok he2
  have he3 := emit_ok he3
  refine ⟨by simpa using hp, by simpa using hpath, by simpa using hlen, by omega, by omega,
    ⟨peer, sender, m, hpeer, hdec, hsl, hok, burn_ok hb, ?_⟩, ?_⟩
  · subst hpost he1 he2 he3
    rfl
  · obtain ⟨n, hn, _, rfl⟩ := (burn_ok hb).mid
    have hev : n.events = _ := (congrArg State.events hn.frame :)
    subst hpost he1 he2 he3
    refine ⟨managerDigest c c.chain (transferMessage c peer s1.index amt.toNat chain token recipient
      (List.replicate (32 - sender.length) 0 ++ sender) s1.nonce).1, ?_⟩
    show n.events ++ _ ++ _ ++ _ = _
    rw [hev, List.append_assoc, List.append_assoc]
    rfl

end Dollar
