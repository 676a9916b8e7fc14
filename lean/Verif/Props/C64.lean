import Verif.Props.C11
import Verif.Props.C36
import Verif.Props.C41
import Verif.Props.C52
import Verif.Props.C57
import Verif.Props.C63

/-
C64: when a delivery is accepted, and what one chain sends another one running this code accepts.
-/
set_option maxRecDepth 100000
namespace Dollar
open MM Spec

namespace Spec

/-- The verified message `v` comes, for the first time, from the configured peer of its chain and is
addressed to this module, and the portal is open. -/
def Admitted (c : Cfg) (s : State) (v : VAA) : Prop :=
  s.portalPaused = false ∧ v.digest ∉ s.archive ∧
  ∃ peer t, s.peers.get? v.emitterChain = some peer ∧ peer.transceiver = v.emitterAddress ∧
    parseTransceiver v.payload = .ok t ∧ t.sourceManager.bytes = peer.manager ∧
    t.recipientManager.bytes = List.replicate 12 0 ++ c.modAddr "dollar/portal/manager"

end Spec

/-- A token delivery is accepted exactly when it is admitted, made for this chain and this token, the
recipient may receive coins, and the index it quotes, if larger, does not put the value of the total
principal below the supply. -/
theorem C64_token_accepted_iff {c : Cfg} (hc : c.WF) {s : State} (hr : Reachable c s) (env : Env)
    (vaa : Bytes) (v : VAA) (hv : env.verify vaa = some v) (amount : Nat) (i : Int) (r : Bytes)
    (chain : Nat) (token : Bytes) (hq : content env vaa = some (.token amount i r chain token)) :
    (∃ s', exec c env (.deliver vaa) s = .ok () s') ↔
      Admitted c s v ∧ chain = c.chain ∧ token = c.rawToken ∧ c.blocked r = false ∧
      ¬ (s.index < i ∧ (s.totalPrincipal * i).tdiv (10 ^ 12) < s.supply) := by
  have hpan : ∀ d : Bytes, updateIndex c env i { s with archive := s.archive ++ [d] } = .panic ↔
      s.index < i ∧ (s.totalPrincipal * i).tdiv (10 ^ 12) < s.supply := fun d =>
    updateIndex_panic_iff (s := { s with archive := s.archive ++ [d] }) (hr.led hc).good.index
  constructor
  · rintro ⟨s', h⟩
    obtain ⟨hp, w, peer, t, mm, n, h1, h2, h3, h4, h5, h6, h7, h8, h9, rfl⟩ :=
      (deliver_ok (show deliver c env vaa s = .ok () s' from h)).run
    rw [hv] at h1
    cases h1
    have hcon : content env vaa = contentOf mm.payload := by
      unfold content innerPayload
      simp only [hv, h5, h8]
    rw [hcon] at hq
    cases h9 with
    | ignored hpt e =>
      exfalso
      unfold contentOf at hq; rw [hpt] at hq; cases hq
    | index i hpt hd _ =>
      exfalso
      unfold contentOf at hq; rw [hpt] at hq; simp only [hd] at hq; cases hq
    | token p m1 hpt hd e1 e2 hmint e =>
      unfold contentOf at hq; rw [hpt] at hq; simp only [hd] at hq
      cases hq
      refine ⟨⟨hp, h2, peer, t, h3, h4, h5, h6.symm, h7.symm⟩, e1.symm, e2.symm, ?_, ?_⟩
      · obtain ⟨s1, hi, hu, hmk⟩ := mint_ok hc (hr.led hc).good.congr hmint
        exact hmk.allowed
      · intro hx
        unfold mint at hmint
        rw [bind_apply, ignore_apply, (hpan _).2 hx] at hmint
        cases hmint
  · rintro ⟨⟨hp, hn, peer, t, h3, h4, h5, h6, h7⟩, rfl, rfl, hb, hx⟩
    exact C13_token_delivery_succeeds hc hr env vaa hp v hv hn peer h3 h4 t h5 h6.symm h7.symm amount i r
      hq hb (fun e => hx ((hpan _).1 e))

/-- An admitted message whose inner payload is of no known kind is accepted and ignored: only its
digest is archived and its bytes are logged. -/
theorem C64_unknown_ignored {c : Cfg} {s : State} (env : Env)
    (vaa : Bytes) (v : VAA) (hv : env.verify vaa = some v) (ha : Admitted c s v) (p : Sl)
    (hi : innerPayload v = some p)
    (h1 : p.bytes.take 4 ≠ [0x99, 0x4e, 0x54, 0x54]) (h2 : p.bytes.take 4 ≠ [0x4d, 0x30, 0x49, 0x54]) :
    exec c env (.deliver vaa) s =
      .ok () { s with archive := s.archive ++ [v.digest], events := s.events ++ [.delivered vaa] } := by
  obtain ⟨hp, hn, peer, t, h3, h4, h5, h6, h7⟩ := ha
  unfold innerPayload at hi
  simp only [h5] at hi
  cases hmm : parseManager t.managerPayload with
  | err => rw [hmm] at hi; cases hi
  | panic => rw [hmm] at hi; cases hi
  | ok mm =>
    rw [hmm] at hi
    cases hi
    have hw := (parseManager_wf (parseTransceiver_wf h5).2.2.1 hmm).2.2
    have hty : payloadType mm.payload = .ok .unknown := by
      unfold payloadType
      split
      · rfl
      next hlen =>
        have hl : 4 ≤ mm.payload.arr.length := by unfold Sl.WF at hw; omega
        rw [Sl.slice_eq (by omega) hl]
        simp only [PRes.ofSlice_some, PRes.ok_bind]
        have eb : (⟨mm.payload.arr.drop 0, 4 - 0⟩ : Sl).bytes = mm.payload.bytes.take 4 := by
          unfold Sl.bytes
          rw [List.take_take, Nat.min_eq_left (by omega)]
          rfl
        have h1 : mm.payload.bytes.take 4 ≠ nttPrefix := h1
        have h2 : mm.payload.bytes.take 4 ≠ indexPrefix := h2
        rw [eb, if_neg h1, if_neg h2]
    have h7 : c.paddedManager = t.recipientManager.bytes := h7.symm
    show deliver c env vaa s = _
    unfold deliver deliverInner verifyVAA
    simp only [bind_apply, get_apply, hp, Bool.false_eq_true, if_false, hv, if_neg hn, modify_apply, pure_apply, h3,
      h4, ne_eq, not_true_eq_false]
    unfold deliverPayload
    simp only [bind_apply, parse, h5, hmm, pure_apply, h6, h7, ne_eq, not_true_eq_false, if_false]
    unfold handlePayload
    simp only [bind_apply, parse, hty, pure_apply]
    rfl

theorem payloadType_of_parseNtt {bz : Sl} {n : NativeTokenTransfer Sl} (h : parseNtt bz = .ok n) :
    payloadType bz = .ok .token := by
  unfold parseNtt at h
  split at h
  · cases h
  next hl =>
  simp only [PRes.bind_ok, PRes.ofSlice_ok] at h
  obtain ⟨p, hp, h⟩ := h
  split at h
  · cases h
  next hpre =>
  have hpre : p.bytes = nttPrefix := by simpa using hpre
  unfold payloadType
  rw [if_neg (by omega), hp]
  simp only [PRes.ofSlice_some, PRes.ok_bind, hpre, if_true]

/-- What a transfer posts on chain `a` for chain `b` is accepted on chain `b`, when each chain knows
the other as its peer: the recipient gets exactly what left the sender, the two supplies together only
change by the yield that the delivery accrues, and the two chains' events carry the same identifier. -/
theorem C64_bridge_end_to_end {a b : Cfg} (ha : a.WF) (hb : b.WF)
    (hda : a.denom.toByteArray.data.toList.length ≤ 32) (hch : b.chain < 2 ^ 16) (hk : a.keccak = b.keccak)
    {sa sa' sb : State} (hra : Reachable a sa) (hsz : Sized sa) (hrb : Reachable b sb) (enva envb : Env)
    (signer : String) (amount : Int) (recipient : Bytes)
    (h : exec a enva (.transfer signer (some amount) b.chain b.rawToken recipient) sa = .ok () sa')
    (pa pb : Peer) (hpa : sa.peers.get? b.chain = some pa) (hpb : sb.peers.get? a.chain = some pb)
    (hma : pa.manager = b.paddedManager) (hmb : pb.manager = a.paddedManager)
    (vaa raw digest tail : Bytes) (hpost : sa'.posted = sa.posted ++ [(raw, sa.nonce)])
    (hv : envb.verify vaa = some ⟨a.chain, pb.transceiver, Sl.ofBytes raw tail, digest⟩)
    (hopen : sb.portalPaused = false) (hnew : digest ∉ sb.archive)
    (hu : b.IsUser (recipient.drop 12)) (hbl : b.blocked (recipient.drop 12) = false)
    (hcol : recipient.drop 12 ≠ sb.collector)
    (hix : ¬ (sb.index < sa.index ∧ (sb.totalPrincipal * sa.index).tdiv (10 ^ 12) < sb.supply)) :
    ∃ sender sb' id, a.decode signer = some sender ∧ exec b envb (.deliver vaa) sb = .ok () sb' ∧
      sa'.balance sender = sa.balance sender - amount ∧
      sb'.balance (recipient.drop 12) = sb.balance (recipient.drop 12) + amount ∧
      sa'.supply + sb'.supply = sa.supply + sb.supply + (sb'.totalYield - sb.totalYield) ∧
      .usdnTokenSent b.chain b.rawToken signer recipient amount sa.index id ∈ sa'.events.drop sa.events.length ∧
      .mTokenReceived a.chain b.rawToken (word sender) (recipient.drop 12) amount sa.index id ∈
        sb'.events.drop sb.events.length := by
  obtain ⟨amt, sender, peer, raw1, em, h0, hdec, hpe, hbal, hsup, hidx, hp1, hno, hsay⟩ :=
    C14_transfer ha hda hsz enva signer (some amount) b.chain hch b.rawToken recipient h
  cases em
  rw [hpa] at hpe
  cases hpe
  have hraw : raw1 = raw := by
    rw [hp1] at hpost
    have := List.append_cancel_left hpost
    simpa using this
  subst hraw
  obtain ⟨_, _, peer2, raw2, mgr, id, em, hdec2, hpe2, hp2, hraw2, hid, hev⟩ :=
    C52_transfer_events ha hra enva signer (some amount) b.chain b.rawToken recipient h
  cases em
  rw [hdec] at hdec2; cases hdec2
  rw [hpa] at hpe2; cases hpe2
  have hraw : raw2 = raw1 := by
    rw [hp2] at hpost
    have := List.append_cancel_left hpost
    simpa using this
  subst hraw
  obtain ⟨_, _, peer3, raw3, em, hdec3, hpe3, hp3, _, hlen⟩ :=
    C57_transfer_bytes ha hda hra hsz enva signer (some amount) b.chain b.rawToken recipient h
  have hraw : raw3 = raw2 := by
    rw [hp3] at hpost
    have := List.append_cancel_left hpost
    simpa using this
  subst hraw
  have hpl : pa.manager.length = 32 := hsz.peers _ _ hpa
  have hal : a.paddedManager.length = 32 := by
    unfold Cfg.paddedManager; rw [List.length_append, List.length_replicate, ha.mod_len]
  have hml : mgr.length < 65536 := by
    rw [hraw2] at hlen
    simp only [List.length_append, List.length_cons, List.length_nil, hpl, hal, toBE_length] at hlen
    omega
  obtain ⟨t, mm, n, p1, p2, p3, p4, p5, p6, p7, p8, p9, p10, p11, p12, p13⟩ := hsay.reads tail
  -- the manager message that is parsed is the one whose digest was logged
  have htm : t.managerPayload.bytes = mgr := by
    obtain ⟨t', q1, q2⟩ := C17_round_trip ⟨a.paddedManager, pa.manager, mgr, []⟩ ⟨hal, hpl, hml, Nat.zero_lt_succ _⟩ tail
    rw [encodeTransceiver_empty, ← hraw2, p1] at q1
    cases q1
    exact congrArg TransceiverMessage.managerPayload q2
  have hwf := parseTransceiver_wf p1
  have henc : mgr = encodeManager mm.bytes := by
    rw [← htm]; exact (C16_accepts_only_encodings _ hwf.2.2.1 _ p5).1
  -- its content
  have hrn := (parseNtt_wf (parseManager_wf hwf.2.2.1 p5).2.2 p8)
  have hrl : recipient.length = 32 := by
    have := ((C52_transfer_iff ha hra enva signer (some amount) b.chain b.rawToken recipient).1 ⟨sa', h⟩).2.2.2.1
    exact this
  have hdt : decodeToken mm.payload =
      .ok ⟨amount.toNat, sa.index, recipient.drop 12, b.chain, b.rawToken⟩ := by
    unfold decodeToken nttOrZero
    rw [p8]
    simp only [PRes.ok_bind]
    unfold additionalOrZero
    rw [p13]
    simp only [PRes.ok_bind]
    have hs : n.recipient.sliceFrom 12 = some ⟨n.recipient.arr.drop 12, n.recipient.len - 12⟩ := by
      unfold Sl.sliceFrom; rw [if_pos (by omega)]
    rw [hs]
    simp only [PRes.ofSlice_some, PRes.ok_bind]
    have hrb2 : (⟨n.recipient.arr.drop 12, n.recipient.len - 12⟩ : Sl).bytes = recipient.drop 12 := by
      rw [← p11]
      unfold Sl.bytes
      rw [List.drop_take]
    rw [hrb2, p9, p12]
  have hcon : content envb vaa = some (.token amount.toNat sa.index (recipient.drop 12) b.chain b.rawToken) := by
    unfold content innerPayload
    simp only [hv, p1, p5]
    unfold contentOf
    rw [payloadType_of_parseNtt p8]
    simp only [hdt]
  have hadm : Admitted b sb ⟨a.chain, pb.transceiver, Sl.ofBytes raw3 tail, digest⟩ :=
    ⟨hopen, hnew, pb, t, hpb, rfl, p1, by rw [p2, hmb], by rw [p3, hma]; rfl⟩
  obtain ⟨sb', hd⟩ := (C64_token_accepted_iff hb hrb envb vaa _ hv _ _ _ _ _ hcon).2
    ⟨hadm, rfl, rfl, hbl, hix⟩
  have hc13 := C13_token_delivery hb hrb envb vaa hd _ _ _ _ _ hcon hu.ne_yield hu.ne_staked hu.ne_flexible
    (hu.1 _ (.inl rfl)) hcol hu.2
  obtain ⟨v, t', m', w1, w2, w3, w4⟩ := C63_deliver_events hb hrb envb vaa hd
  rw [hv] at w1; cases w1
  rw [p1] at w2; cases w2
  rw [p5] at w3; cases w3
  rw [hcon] at w4
  obtain ⟨upd, _, w4⟩ := w4
  have hnat : ((amount.toNat : Nat) : Int) = amount := Int.toNat_of_nonneg h0
  refine ⟨sender, sb', id, hdec, hd, ?_, ?_, ?_, ?_, ?_⟩
  · rw [hbal, if_pos rfl]
  · rw [hc13.1, hnat]
  · rw [hsup, hc13.2.2.1, hnat]; omega
  · rw [hev, List.drop_left]; exact List.mem_cons_self
  · rw [w4, List.append_assoc, List.drop_left]
    refine List.mem_append_right _ ?_
    rw [p7, hnat, hid, hk, henc]
    exact List.mem_cons_self

/-! ## Non-vacuity: two demo chains -/

namespace Demo

/-- A second chain running the same code. -/
def cfgB : Cfg := { cfg with chain := 2 }

theorem cfgB_wf : cfgB.WF :=
  ⟨cfg_wf.mod_inj, cfg_wf.escrow_inj, cfg_wf.mod_ne_escrow, cfg_wf.mod_len, cfg_wf.decode_lower,
    cfg_wf.encode_inj, cfg_wf.module_blocked⟩

/-- It knows the first chain as its peer. -/
def startB : State := { start with peers := [(4009, ⟨List.replicate 32 5, cfg.paddedManager⟩)] }

theorem startB_initial : Initial cfgB startB := by
  constructor <;> first | rfl | decide | (unfold KV.Sorted; decide)

theorem reachB : Reachable cfgB startB := .fresh startB_initial

/-- The first chain: coins arrive for alice, the owner makes the second chain a peer. -/
def histA : History :=
  [(env 1, .deliver [1]), (env 2, .setPeer "owner" 2 (List.replicate 32 5) cfg.paddedManager),
   (env 3, .setBridgingPath "owner" 2 cfg.rawToken true)]

theorem histA_signed : History.Signed cfg histA := by
  intro e he
  simp only [histA, List.mem_cons, List.not_mem_nil, or_false] at he
  rcases he with rfl | rfl | rfl <;> trivial

def stateA : State := run cfg histA start

/-- Alice sends 1000000 to bob on the second chain. -/
def sendA : Msg := .transfer aliceS (some 1000000) 2 cfg.rawToken (List.replicate 12 0 ++ bob)

/-- The message that carries it. -/
def vaaB : VAA where
  emitterChain := 4009
  emitterAddress := List.replicate 32 5
  payload := Sl.ofBytes (((step cfg (env 4) sendA stateA).posted.map Prod.fst).getLastD []) []
  digest := [7]

/-- Wormhole of the second chain. -/
def verifyB (bz : Bytes) : Option VAA := if bz = [7] then some vaaB else none

def envB : Env := { env 5 with verify := verifyB }

end Demo

example : ∃ sb', exec Demo.cfgB Demo.envB (.deliver [7]) Demo.startB = .ok () sb' ∧
    sb'.balance Demo.bob = 1000000 ∧
    (step Demo.cfg (Demo.env 4) Demo.sendA Demo.stateA).balance Demo.alice = 9000000 := by
  have hra : Reachable Demo.cfg Demo.stateA := .of_run Demo.start_initial Demo.histA_signed
  have hsz : Sized Demo.stateA := C14_sizes_reachable Demo.cfg_wf Demo.start_initial demo_sized _ Demo.histA_signed
  have h := exec_of_isOk (c := Demo.cfg) (env := Demo.env 4) (m := Demo.sendA) (s := Demo.stateA)
    (by decide +kernel)
  obtain ⟨sender, sb', id, h1, h2, h3, h4, _⟩ := C64_bridge_end_to_end Demo.cfg_wf Demo.cfgB_wf (by decide) (by decide) rfl
    hra hsz Demo.reachB (Demo.env 4) Demo.envB Demo.aliceS 1000000 (List.replicate 12 0 ++ Demo.bob) h
    ⟨List.replicate 32 5, Demo.cfg.paddedManager⟩ ⟨List.replicate 32 5, Demo.cfg.paddedManager⟩
    (by decide +kernel) (by decide +kernel) rfl rfl [7]
    (((step Demo.cfg (Demo.env 4) Demo.sendA Demo.stateA).posted.map Prod.fst).getLastD []) [7] []
    (by decide +kernel)
    rfl (by decide +kernel) (by decide +kernel) (Demo.user _) (by decide +kernel) (by decide +kernel) (by decide +kernel)
  exact ⟨sb', h2, h4, by decide +kernel⟩

/-- Non-vacuity: an admitted message with an unknown payload. -/
example : Admitted Demo.cfg Demo.start (Demo.vaa 9 [1, 2, 3]) ∧
    (innerPayload (Demo.vaa 9 [1, 2, 3])).map Sl.bytes = some [1, 2, 3] := by
  refine ⟨?_, by decide +kernel⟩
  have h := exec_of_isOk (c := Demo.cfg) (s := Demo.start) (m := .deliver [9])
    (env := { Demo.env 1 with verify := fun _ => some (Demo.vaa 9 [1, 2, 3]) }) (by decide +kernel)
  obtain ⟨hp, v, peer, t, mm, n, h1, h2, h3, h4, h5, h6, h7, _⟩ :=
    (deliver_ok (show deliver _ _ _ _ = .ok () _ from h)).run
  cases h1
  exact ⟨hp, h2, peer, t, h3, h4, h5, h6.symm, h7.symm⟩

end Dollar
