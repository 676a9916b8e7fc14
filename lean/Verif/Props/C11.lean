import Verif.Props.C17
import Verif.Lemmas.Settings
import Verif.Lemmas.Deliver
import Verif.Spec.Views
import Verif.Spec.Arith
import Verif.Spec.Demo

/-
C11: Deliver acts only on authenticated, correctly addressed messages.
C13: a delivered token transfer credits exactly the transferred amount.
-/
set_option maxRecDepth 100000
namespace Dollar
open Spec MM

/-- If Deliver succeeds: the portal was not paused; Wormhole verified the VAA and had not seen it
before; its emitter is the transceiver configured for the emitter chain; and its payload starts
with the transceiver prefix, the manager configured for that chain and this module's manager.
(The payload is read up to its capacity, as the code does.) -/
theorem C11_deliver_authenticated (c : Cfg) (env : Env) (vaa : Bytes) (s s' : State)
    (h : exec c env (.deliver vaa) s = .ok () s') :
    s.portalPaused = false ∧ ∃ v peer rest, env.verify vaa = some v ∧ v.digest ∉ s.archive ∧
      s.peers.get? v.emitterChain = some peer ∧ v.emitterAddress = peer.transceiver ∧
      v.payload.arr = [0x99, 0x45, 0xff, 0x10] ++ peer.manager ++ c.paddedManager ++ rest ∧
      peer.manager.length = 32 ∧ c.paddedManager.length = 32 := by
  obtain ⟨hp, v, peer, t, mm, m, h1, h2, h3, h4, h5, h6, h7, _⟩ :=
    (deliver_ok (show deliver c env vaa s = .ok () s' from h)).run
  obtain ⟨hs, rest, ha⟩ := C17_accepts_only_prefix _ _ h5
  refine ⟨hp, v, peer, toBE 2 t.managerPayload.bytes.length ++ t.managerPayload.bytes ++
      toBE 2 t.transceiverPayload.bytes.length ++ t.transceiverPayload.bytes ++ rest,
    h1, h2, h3, h4.symm, ?_, ?_, ?_⟩
  · rw [ha, h6, h7]
    unfold encodeTransceiver
    simp only [List.append_assoc]
    rfl
  · rw [h6]; exact hs.source
  · rw [h7]; exact hs.recipient

/-- If a successful Deliver changed anything but the archive and the log of events, then the VAA
carried a token transfer for this chain and this token, or an index for this chain. -/
theorem C11_deliver_addressed (c : Cfg) (env : Env) (vaa : Bytes) (s s' : State)
    (h : exec c env (.deliver vaa) s = .ok () s') :
    s' = { s with archive := s'.archive, events := s'.events } ∨
    (∃ amount i recipient, content env vaa = some (.token amount i recipient c.chain c.rawToken)) ∨
    ∃ i, content env vaa = some (.index i c.chain) := by
  obtain ⟨hp, v, peer, t, mm, m, h1, h2, h3, h4, h5, h6, h7, h8, h9, rfl⟩ :=
    (deliver_ok (show deliver c env vaa s = .ok () s' from h)).run
  have hin : content env vaa = contentOf mm.payload := by
    unfold content innerPayload
    simp only [h1, h5, h8]
  rw [hin]
  unfold contentOf
  cases h9 with
  | ignored _ e => exact .inl (by rw [e])
  | token p q ht hd hch htk _ _ =>
    refine .inr (.inl ⟨p.amount, p.index, p.recipient, ?_⟩)
    simp only [ht, hd]
    rw [hch, htk]
  | index i ht hd _ =>
    refine .inr (.inr ⟨i, ?_⟩)
    simp only [ht, hd]

/-- C13: a successful token delivery to an account other than the yield account, the vault, bridge
and escrow accounts and the collector credits exactly the amount, whatever happened to the index
carried by the message; the recipient's principal grows by the amount's value at the index after
the delivery, rounded down; supply grows by the amount plus the yield accrued. -/
theorem C13_token_delivery {c : Cfg} (hc : c.WF) {s s' : State} (hr : Reachable c s) (env : Env)
    (vaa : Bytes) (h : exec c env (.deliver vaa) s = .ok () s') (amount : Nat) (i : Int) (r : Bytes)
    (chain : Nat) (token : Bytes) (hq : content env vaa = some (.token amount i r chain token))
    (hy : r ≠ c.yieldAddr) (h1 : r ≠ c.modAddr "dollar/vaults/staked")
    (h2 : r ≠ c.modAddr "dollar/vaults/flexible") (h3 : r ≠ c.modAddr "warp")
    (h4 : r ≠ s.collector) (h5 : ∀ ch, r ≠ c.escrow "transfer" ch) :
    s'.balance r = s.balance r + amount ∧
    (∃ p, IsFloor (amount * 10 ^ 12) s'.index p ∧ s'.principalOf r = s.principalOf r + p) ∧
    s'.supply = s.supply + amount + (s'.totalYield - s.totalYield) ∧
    s.totalYield ≤ s'.totalYield := by
  obtain ⟨v, sA, _, _, rfl, _, _, hd⟩ := deliver_did hc (hr.led hc) (show deliver c env vaa s = .ok () s' from h)
  rw [hq] at hd
  have nd : ¬ Dist c s r := by
    rintro (e | e | e | e | ⟨ch, e⟩)
    · exact h1 e
    · exact h2 e
    · exact h3 e
    · exact h4 e
    · exact h5 ch e
  cases hd with
  | ignored _ e => cases e
  | token _ _ _ s1 _ hu hmint =>
    have hv := hmint.moved
    have hs := hu.same r hy nd
    have hbal : s'.balance r = s1.balance r + (if r = r then (amount : Int) else 0) := hmint.bal r
    have hi : s'.index = s1.index := hv.index
    have hpos : 0 < s1.index := hu.good.index
    have hrm := hmint.ne_module hc
    refine ⟨by rw [hbal, if_pos rfl, hs.1]; rfl, ?_, ?_, ?_⟩
    · refine ⟨roundedDown amount s1.index, ?_, ?_⟩
      · rw [hi]
        obtain ⟨b1, b2⟩ := down_bounds (Int.natCast_nonneg amount) hpos
        exact ⟨b1, fun x hx => le_of_mul_le_lt hpos hx b2⟩
      · have e1 : s1.principalOf r = s.principalOf r := hs.2
        rw [← e1]
        show State.principalOf { s' with events := s1.events } r = _
        by_cases h0 : (amount : Int) = 0
        · rw [hv.zero h0, h0, down_zero]; exact (add_zero _).symm
        rw [hv.prin h0 hc.yield_ne_module.symm hy, if_neg (by simp), if_pos ⟨rfl, hrm⟩, if_pos rfl]
        show s1.principalOf r - 0 + roundedDown _ s1.index = _
        omega
    · have e1 : s'.supply = s1.supply + amount := hmint.supply
      have e2 : s'.totalYield = s1.totalYield := hv.totalYield
      have e3 : s1.supply - s.supply = s1.totalYield - s.totalYield := hu.yield
      rw [e1, e2]; omega
    · have e2 : s'.totalYield = s1.totalYield := hv.totalYield
      have e3 : s1.supply - s.supply = s1.totalYield - s.totalYield := hu.yield
      have e4 : s.supply ≤ s1.supply := hu.supply_mono
      rw [e2]; omega

/-- C13: an authenticated token delivery for this chain and token to a recipient that may receive
coins goes through unless the index update inside panics; an index update that merely fails does
not matter. -/
theorem C13_token_delivery_succeeds {c : Cfg} (hc : c.WF) {s : State} (hr : Reachable c s) (env : Env)
    (vaa : Bytes) (hp : s.portalPaused = false) (v : VAA) (hv : env.verify vaa = some v)
    (hn : v.digest ∉ s.archive) (peer : Peer) (hpe : s.peers.get? v.emitterChain = some peer)
    (ht : peer.transceiver = v.emitterAddress) (t : TransceiverMessage Sl)
    (hpt : parseTransceiver v.payload = .ok t) (hms : peer.manager = t.sourceManager.bytes)
    (hmr : c.paddedManager = t.recipientManager.bytes) (amount : Nat) (i : Int) (r : Bytes)
    (hq : content env vaa = some (.token amount i r c.chain c.rawToken)) (hb : c.blocked r = false)
    (hu : updateIndex c env i { s with archive := s.archive ++ [v.digest] } ≠ .panic) :
    ∃ s', exec c env (.deliver vaa) s = .ok () s' := by
  have hl := hr.led hc
  have hm : ∃ mm, parseManager t.managerPayload = .ok mm ∧ payloadType mm.payload = .ok .token ∧
      decodeToken mm.payload = .ok ⟨amount, i, r, c.chain, c.rawToken⟩ := by
    unfold content innerPayload at hq
    simp only [hv, hpt] at hq
    cases hmm : parseManager t.managerPayload with
    | err => simp [hmm] at hq
    | panic => simp [hmm] at hq
    | ok mm =>
      simp only [hmm] at hq
      unfold contentOf at hq
      refine ⟨mm, rfl, ?_⟩
      cases hty : payloadType mm.payload with
      | err => simp [hty] at hq
      | panic => simp [hty] at hq
      | ok ty =>
        cases ty with
        | unknown => simp [hty] at hq
        | token =>
          simp only [hty] at hq
          cases hd : decodeToken mm.payload with
          | err => simp [hd] at hq
          | panic => simp [hd] at hq
          | ok p =>
            simp only [hd, Option.some.injEq, Content.token.injEq] at hq
            obtain ⟨rfl, rfl, rfl, e1, e2⟩ := hq
            rw [← e1, ← e2]
            exact ⟨rfl, rfl⟩
        | index =>
          simp only [hty] at hq
          cases hd : decodeIndex mm.payload with
          | err => simp [hd] at hq
          | panic => simp [hd] at hq
          | ok p => simp [hd] at hq
  obtain ⟨mm, hmm, hty, hdt⟩ := hm
  set sA : State := { s with archive := s.archive ++ [v.digest] } with hsA
  have hgA : Good c sA := (hl.congr (s' := sA)).good
  have hmint : ∃ s2, mint c env r amount i sA = .ok () s2 := by
    have hig : ∃ s1, ignore (updateIndex c env i) sA = .ok () s1 := by
      cases hx : updateIndex c env i sA with
      | panic => exact absurd hx hu
      | ok u s1 => exact ⟨s1, ignore_ok.2 (.inl hx)⟩
      | err e s1 => exact ⟨s1, ignore_ok.2 (.inr ⟨e, hx⟩)⟩
    obtain ⟨s1, h1⟩ := hig
    have hui := ignore_updateIndex hc hgA h1
    have hnn : (0 : Int) ≤ amount := Int.natCast_nonneg amount
    have hbal : (amount : Int) ≤ (minted s1 c.moduleAddr amount).balance c.moduleAddr := by
      rw [minted_balance, if_pos rfl]
      have := hui.good.bal c.moduleAddr
      omega
    obtain ⟨s2, h2, _⟩ := sendCoins_progress (c := c) (b := r) hbal
      (show (minted s1 c.moduleAddr (amount : Int)).index ≠ 0 from by
        have := hui.good.index; show s1.index ≠ 0; omega) (.inr (.inr rfl))
    refine ⟨s2, ?_⟩
    unfold mint
    rw [bind_apply, h1]
    simp only
    rw [bind_apply]
    unfold newCoin
    rw [if_neg (by omega)]
    simp only [pure_apply]
    rw [bind_apply, mintCoins_eq]
    simp only
    unfold sendModuleToAccount
    rw [hb]
    exact h2
  obtain ⟨s2, h2⟩ := hmint
  show ∃ s', deliver c env vaa s = .ok () s'
  rw [hsA] at h2
  simp only [hp] at h2
  unfold deliver deliverInner verifyVAA
  simp only [bind_apply, get_apply, hp, Bool.false_eq_true, if_false, hv, if_neg hn, modify_apply, pure_apply, hpe,
    ht, ne_eq, not_true_eq_false]
  unfold deliverPayload
  simp only [bind_apply, parse, hpt, hmm, pure_apply, hms, hmr, ne_eq, not_true_eq_false, if_false]
  unfold handlePayload
  simp only [bind_apply, parse, hty, pure_apply]
  unfold handleToken
  simp only [bind_apply, parse, hdt, pure_apply, ne_eq, not_true_eq_false, if_false, h2]
  exact ⟨_, rfl⟩

/-- C13: in particular a delivery whose index is not larger than the current one goes through. -/
theorem C13_stale_index_succeeds {c : Cfg} (hc : c.WF) {s : State} (hr : Reachable c s) (env : Env)
    (vaa : Bytes) (hp : s.portalPaused = false) (v : VAA) (hv : env.verify vaa = some v)
    (hn : v.digest ∉ s.archive) (peer : Peer) (hpe : s.peers.get? v.emitterChain = some peer)
    (ht : peer.transceiver = v.emitterAddress) (t : TransceiverMessage Sl)
    (hpt : parseTransceiver v.payload = .ok t) (hms : peer.manager = t.sourceManager.bytes)
    (hmr : c.paddedManager = t.recipientManager.bytes) (amount : Nat) (i : Int) (r : Bytes)
    (hq : content env vaa = some (.token amount i r c.chain c.rawToken)) (hb : c.blocked r = false)
    (hi : i ≤ s.index) : ∃ s', exec c env (.deliver vaa) s = .ok () s' ∧ s'.index = s.index := by
  have hx : updateIndex c env i { s with archive := s.archive ++ [v.digest] } =
      .err .decreasingIndex { s with archive := s.archive ++ [v.digest] } := by
    unfold updateIndex
    rw [bind_apply, get_apply]
    simp only
    rw [if_pos hi]
    rfl
  obtain ⟨s', h⟩ := C13_token_delivery_succeeds hc hr env vaa hp v hv hn peer hpe ht t hpt hms hmr
    amount i r hq hb (by rw [hx]; exact fun e => by cases e)
  refine ⟨s', h, ?_⟩
  obtain ⟨w, sA, _, _, rfl, _, _, hd⟩ := deliver_did hc (hr.led hc) (show deliver c env vaa s = .ok () s' from h)
  rw [hq] at hd
  cases hd with
  | ignored _ e => cases e
  | token _ _ _ s1 _ hu hmint =>
    have hv : s'.index = s1.index := hmint.moved.index
    rw [hv]
    rcases hu.index with e | ⟨_, e⟩
    · exact e
    · have e : s.index < i := e
      omega

-- The fourth delivery of the demo chain: 1000000 to alice with a larger index (1.2); the first
-- one carries the current index and is a stale update.
example : Reachable Demo.cfg (run Demo.cfg (Demo.hist2.take 8) Demo.start) ∧
    content (Demo.env 9) [4] = some (.token 1000000 1200000000000 Demo.alice 4009 Demo.cfg.rawToken) ∧
    (exec Demo.cfg (Demo.env 9) (.deliver [4]) (run Demo.cfg (Demo.hist2.take 8) Demo.start)).isOk ∧
    content (Demo.env 1) [1] = some (.token 10000000 1000000000000 Demo.alice 4009 Demo.cfg.rawToken) ∧
    (1000000000000 : Int) ≤ Demo.start.index ∧
    (exec Demo.cfg (Demo.env 1) (.deliver [1]) Demo.start).isOk :=
  ⟨Demo.reach2_take 8, by decide +kernel, by decide +kernel, by decide +kernel, by decide +kernel,
    by decide +kernel⟩

end Dollar
