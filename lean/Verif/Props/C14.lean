import Verif.Lemmas.Codec2
import Verif.Lemmas.Settings
import Verif.Props.C01
import Verif.Props.C02
import Verif.Props.C16
import Verif.Props.C17
import Verif.Props.C18
import Verif.Spec.Arith

/-
C14: a portal transfer burns exactly what the outgoing message says.
C15: outgoing message identifiers are unique.
-/
set_option maxRecDepth 100000
namespace Dollar
open Spec MM

namespace Spec

/-- Sizes that Go's types and the module's own checks give: configured managers and tokens have
32 bytes, the index is an int64. -/
structure Sized (s : State) : Prop where
  peers : ∀ ch p, s.peers.get? ch = some p → p.manager.length = 32
  paths : ∀ k, s.paths.has k = true → k.2.length = 32
  index_low : -2 ^ 63 ≤ s.index
  index_high : s.index < 2 ^ 63

/-- What the bytes of an outgoing message say, read with the module's own parsers: managers,
message id, sender, amount, source token, recipient, chain, index, destination token. -/
structure Says (raw sourceManager recipientManager id sender : Bytes) (amount : Nat)
    (sourceToken recipient : Bytes) (chain : Nat) (index : Int) (token : Bytes) : Prop where
  reads : ∀ tail, ∃ t m n, parseTransceiver (Sl.ofBytes raw tail) = .ok t ∧
    t.sourceManager.bytes = sourceManager ∧ t.recipientManager.bytes = recipientManager ∧
    t.transceiverPayload.bytes = [] ∧
    parseManager t.managerPayload = .ok m ∧ m.id.bytes = id ∧ m.sender.bytes = sender ∧
    parseNtt m.payload = .ok n ∧ n.amount = amount ∧ n.sourceToken.bytes = sourceToken ∧
    n.recipient.bytes = recipient ∧ n.toChain = chain ∧
    decodeAdditional n.additional = .ok (index, token)

/-- `b` in the last bytes of a 32-byte word. -/
def word (b : Bytes) : Bytes := List.replicate (32 - b.length) 0 ++ b

end Spec

theorem content_announced_range {env : Env} {vaa : Bytes} {q : Content} (h : content env vaa = some q) :
    -2 ^ 63 ≤ q.announced ∧ q.announced < 2 ^ 63 := by
  have hb : ∀ r : Sl, r.bytes.length ≤ 8 → -2 ^ 63 ≤ toInt64 (beNat r.bytes) ∧ toInt64 (beNat r.bytes) < 2 ^ 63 := by
    intro r hr
    apply toInt64_range
    refine lt_of_lt_of_le (beNat_lt r.bytes) ?_
    calc 256 ^ r.bytes.length ≤ 256 ^ 8 := Nat.pow_le_pow_right (by decide) hr
      _ = 2 ^ 64 := by decide
  have hl : ∀ {r x : Sl} {a b : Nat}, x.slice a b = some r → r.bytes.length ≤ b - a := by
    intro r x a b hx
    obtain ⟨_, _, rfl⟩ := Sl.slice_some hx
    unfold Sl.bytes
    rw [List.length_take]
    exact Nat.min_le_left _ _
  unfold content at h
  split at h
  · split at h
    · rename_i p hp
      unfold contentOf at h
      split at h
      · split at h
        · rename_i tp htp
          cases h
          show -2 ^ 63 ≤ tp.index ∧ tp.index < 2 ^ 63
          unfold decodeToken at htp
          simp only [PRes.bind_ok] at htp
          obtain ⟨t, ht, a, ha, r, hr, e⟩ := htp
          cases e
          show -2 ^ 63 ≤ a.1 ∧ a.1 < 2 ^ 63
          unfold additionalOrZero at ha
          split at ha
          · next hd =>
            cases ha
            unfold decodeAdditional at hd
            split at hd
            · cases hd
            · simp only [PRes.bind_ok, PRes.ofSlice_ok] at hd
              obtain ⟨i, hi, _, _, e⟩ := hd
              cases e
              exact hb _ (hl hi)
          · cases ha; decide
          · cases ha
        · cases h
      · split at h
        · rename_i ip hip
          cases h
          show -2 ^ 63 ≤ ip.1 ∧ ip.1 < 2 ^ 63
          unfold decodeIndex at hip
          simp only [PRes.bind_ok, PRes.ofSlice_ok] at hip
          obtain ⟨i, hi, _, _, e⟩ := hip
          cases e
          exact hb _ (hl hi)
        · cases h
      · cases h
    · cases h
  · cases h

/-- The sizes assumed below are kept by every transaction. -/
theorem C14_sizes_kept {c : Cfg} (hc : c.WF) {s : State} (hr : Reachable c s) (hs : Sized s) (env : Env)
    (m : Msg) (hm : m.SignedByUser c) : Sized (step c env m s) := by
  have hi : -2 ^ 63 ≤ (step c env m s).index ∧ (step c env m s).index < 2 ^ 63 := by
    rcases C02_index_step hc hr env m hm with e | ⟨vaa, q, _, _, hq, e, _⟩
    · rw [e]; exact ⟨hs.index_low, hs.index_high⟩
    · rw [e]; exact content_announced_range hq
  refine ⟨?_, ?_, hi.1, hi.2⟩
  · rcases step_cases c env m s with h | h
    · rw [h]; exact hs.peers
    generalize step c env m s = s' at h
    intro ch p hp
    cases settings_step h with
    | same _ e => exact hs.peers ch p (by rw [← show s'.peers = s.peers from congrArg Settings.peers e]; exact hp)
    | paused _ e => exact hs.peers ch p (by rw [← show s'.peers = s.peers from congrArg Settings.peers e]; exact hp)
    | recipients _ _ _ e => exact hs.peers ch p (by rw [← show s'.peers = s.peers from congrArg Settings.peers e]; exact hp)
    | vPaused _ _ _ e => exact hs.peers ch p (by rw [← show s'.peers = s.peers from congrArg Settings.peers e]; exact hp)
    | owner _ _ e => exact hs.peers ch p (by rw [← show s'.peers = s.peers from congrArg Settings.peers e]; exact hp)
    | portalPaused _ _ e => exact hs.peers ch p (by rw [← show s'.peers = s.peers from congrArg Settings.peers e]; exact hp)
    | paths _ _ _ _ _ e => exact hs.peers ch p (by rw [← show s'.peers = s.peers from congrArg Settings.peers e]; exact hp)
    | peers ch' t m' _ h1 h2 e =>
      rw [show s'.peers = s.peers.set ch' ⟨t, m'⟩ from (congrArg Settings.peers e :), KV.get?_set] at hp
      split at hp
      · cases hp; exact h2
      · exact hs.peers ch p hp
  · rcases step_cases c env m s with h | h
    · rw [h]; exact hs.paths
    generalize step c env m s = s' at h
    intro k hk
    cases settings_step h with
    | same _ e => exact hs.paths k (by rw [← show s'.paths = s.paths from congrArg Settings.paths e]; exact hk)
    | paused _ e => exact hs.paths k (by rw [← show s'.paths = s.paths from congrArg Settings.paths e]; exact hk)
    | recipients _ _ _ e => exact hs.paths k (by rw [← show s'.paths = s.paths from congrArg Settings.paths e]; exact hk)
    | vPaused _ _ _ e => exact hs.paths k (by rw [← show s'.paths = s.paths from congrArg Settings.paths e]; exact hk)
    | owner _ _ e => exact hs.paths k (by rw [← show s'.paths = s.paths from congrArg Settings.paths e]; exact hk)
    | portalPaused _ _ e => exact hs.paths k (by rw [← show s'.paths = s.paths from congrArg Settings.paths e]; exact hk)
    | peers _ _ _ _ _ _ e => exact hs.paths k (by rw [← show s'.paths = s.paths from congrArg Settings.paths e]; exact hk)
    | paths ch t b _ h1 e =>
      rw [show s'.paths = s.paths.set (ch, t) b from (congrArg Settings.paths e :)] at hk
      unfold KV.has at hk
      rw [KV.get?_set] at hk
      split at hk
      · next he => rw [he]; exact h1
      · exact hs.paths k hk

theorem transferMessage_says {c : Cfg} (hc : c.WF) {peer : Peer} {index : Int} {amount chain : Nat}
    {token rcp sender : Bytes} {nonce : Nat} (hd : c.denom.toByteArray.data.toList.length ≤ 32)
    (hp : peer.manager.length = 32) (hi1 : -2 ^ 63 ≤ index) (hi2 : index < 2 ^ 63) (ha : amount < 2 ^ 64)
    (hch : chain < 2 ^ 16) (ht : token.length = 32) (hr : rcp.length = 32) (hs : sender.length = 32) :
    Says (transferMessage c peer index amount chain token rcp sender nonce).2 c.paddedManager peer.manager
      (List.replicate 28 0 ++ toBE 4 nonce) sender amount c.rawToken rcp chain index token := by
  refine ⟨fun tail => ?_⟩
  have hadd : (encodeAdditional index token).length = 40 := by
    unfold encodeAdditional; rw [List.length_append, toBE_length, ht]
  have hrt : c.rawToken.length = 32 := by
    unfold Cfg.rawToken; rw [List.length_append, List.length_replicate]; omega
  have hntt : NativeTokenTransfer.Sized ⟨amount, c.rawToken, rcp, chain, encodeAdditional index token⟩ :=
    ⟨ha, hrt, hr, hch, by rw [show (NativeTokenTransfer.additional _) = encodeAdditional index token from rfl, hadd]; decide⟩
  have hnl : (encodeNtt ⟨amount, c.rawToken, rcp, chain, encodeAdditional index token⟩).length = 121 := by
    have := nttHead_length hntt
    unfold encodeNtt
    unfold nttHead at this
    rw [List.length_append, this]
    simp only [hadd]
    rw [if_pos (by decide), List.length_append, toBE_length, hadd]
  have hpm : c.paddedManager.length = 32 := by
    unfold Cfg.paddedManager; rw [List.length_append, List.length_replicate, hc.mod_len]
  let mm : ManagerMessage Bytes := ⟨List.replicate 28 0 ++ toBE 4 nonce, sender,
    encodeNtt ⟨amount, c.rawToken, rcp, chain, encodeAdditional index token⟩⟩
  have hmid : mm.id.length = 32 := by
    show (List.replicate 28 (0 : UInt8) ++ toBE 4 nonce).length = 32
    rw [List.length_append, toBE_length, List.length_replicate]
  have hml : (encodeManager mm).length = 187 := by
    unfold encodeManager
    simp only [List.length_append, toBE_length, hmid, show mm.sender.length = 32 from hs,
      show mm.payload.length = 121 from hnl]
  obtain ⟨t, ht1, ht2⟩ := C17_round_trip ⟨c.paddedManager, peer.manager, encodeManager mm, []⟩
    ⟨hpm, hp, by rw [show (TransceiverMessage.managerPayload _) = encodeManager mm from rfl, hml]; decide,
      (by decide : ([] : Bytes).length < 65536)⟩ tail
  have hw1 := (parseTransceiver_wf ht1).2.2.1
  obtain ⟨m, hm1, hm2⟩ := C16_round_trip mm (t.managerPayload.arr.drop t.managerPayload.len) hmid hs
    (by rw [show mm.payload.length = 121 from hnl]; decide)
  have hmp : t.managerPayload.bytes = encodeManager mm := congrArg TransceiverMessage.managerPayload ht2
  rw [← hmp, ← Sl.eq_ofBytes hw1] at hm1
  have hw2 := (parseManager_wf hw1 hm1).2.2
  obtain ⟨n, hn1, hn2⟩ := C18_ntt_round_trip _ hntt (m.payload.arr.drop m.payload.len)
  have hpp : m.payload.bytes = mm.payload := congrArg ManagerMessage.payload hm2
  have hpp2 : m.payload.bytes = encodeNtt ⟨amount, c.rawToken, rcp, chain, encodeAdditional index token⟩ := hpp
  rw [← hpp2, ← Sl.eq_ofBytes hw2] at hn1
  have hw3 := (parseNtt_wf hw2 hn1).2.2
  have hna : n.additional.bytes = encodeAdditional index token := congrArg NativeTokenTransfer.additional hn2
  have had := C18_additional_round_trip index token (n.additional.arr.drop n.additional.len) hi1 hi2 ht
  rw [← hna, ← Sl.eq_ofBytes hw3] at had
  exact ⟨t, m, n, ht1, congrArg TransceiverMessage.sourceManager ht2,
    congrArg TransceiverMessage.recipientManager ht2, congrArg TransceiverMessage.transceiverPayload ht2,
    hm1, congrArg ManagerMessage.id hm2, congrArg ManagerMessage.sender hm2, hn1,
    congrArg NativeTokenTransfer.amount hn2, congrArg NativeTokenTransfer.sourceToken hn2,
    congrArg NativeTokenTransfer.recipient hn2, congrArg NativeTokenTransfer.toChain hn2, had⟩

/-- If Transfer succeeds: the sender's balance and the supply shrink by exactly the amount and no
other balance changes; exactly one message is posted, under the current nonce; parsing its bytes
with the module's own parsers gives exactly the transfer; the nonce advances by one (uint32). -/
theorem C14_transfer {c : Cfg} (hc : c.WF) (hd : c.denom.toByteArray.data.toList.length ≤ 32)
    {s s' : State} (hs : Sized s) (env : Env) (signer : String)
    (amount : Option Int) (chain : Nat) (hch : chain < 2 ^ 16) (token recipient : Bytes)
    (h : exec c env (.transfer signer amount chain token recipient) s = .ok () s') :
    ∃ amt a peer raw, amount = some amt ∧ 0 ≤ amt ∧ c.decode signer = some a ∧
      s.peers.get? chain = some peer ∧
      (∀ x, s'.balance x = if x = a then s.balance x - amt else s.balance x) ∧
      s'.supply = s.supply - amt ∧ s'.index = s.index ∧
      s'.posted = s.posted ++ [(raw, s.nonce)] ∧ s'.nonce = (s.nonce + 1) % 2 ^ 32 ∧
      Says raw c.paddedManager peer.manager (word (toBE 4 s.nonce)) (word a) amt.toNat
        c.rawToken recipient chain s.index token := by
  obtain ⟨amt, rfl, ht⟩ := transfer_ok (show transfer c env _ _ _ _ _ s = .ok () s' from h)
  obtain ⟨peer, a, q, hpe, ha, hl, _, hb, e⟩ := ht.run
  have hdid := ht.did ha
  rcases posted_step h with ⟨h1, h2⟩ | ⟨sg, amt', ch', tk', rc', peer', a', em, hp', ha', hl', hpo, hno⟩
  · exfalso
    have h3 := hdid.nonce
    rw [h2] at h3
    omega
  cases em
  rw [hpe] at hp'; cases hp'
  rw [ha] at ha'; cases ha'
  refine ⟨amt, a, peer, _, rfl, ht.nonneg, ha, hpe, ?_, hdid.supply, hdid.index, hpo, hno, ?_⟩
  · intro x
    rw [hdid.bal x]
    split
    · rfl
    · omega
  · have hw : word (toBE 4 s.nonce) = List.replicate 28 0 ++ toBE 4 s.nonce := by
      unfold word; rw [toBE_length]
    rw [hw]
    have hlt := ht.lt
    exact transferMessage_says hc hd (hs.peers _ _ hpe) hs.index_low hs.index_high
      (by have := ht.nonneg; omega) hch (hs.paths _ ht.path) ht.rcpLen
      (by rw [List.length_append, List.length_replicate]; omega)

/-- A transfer also removes the sender's principal for the amount, rounded up, from the sender and
from the total-principal statistic, and touches no other principal. -/
theorem C14_principal {c : Cfg} (hc : c.WF) {s s' : State} (hi : 0 < s.index) (env : Env)
    (signer : String) (amt : Int) (h0 : amt ≠ 0) (chain : Nat) (token recipient : Bytes) (a : Addr)
    (ha : c.decode signer = some a) (hu : c.IsUser a)
    (h : exec c env (.transfer signer (some amt) chain token recipient) s = .ok () s') :
    ∃ p, IsCeil (amt * 10 ^ 12) s.index p ∧ s'.principalOf a = s.principalOf a - p ∧
      s'.totalPrincipal = s.totalPrincipal - p ∧
      ∀ x, x ≠ a → s'.principalOf x = s.principalOf x := by
  obtain ⟨_, e, ht⟩ := transfer_ok
    (show transfer c env signer (some amt) chain token recipient s = .ok () s' from h)
  cases e
  obtain ⟨peer, a', q, hpe, ha', hl, _, hb, e⟩ := ht.run
  rw [ha] at ha'; cases ha'
  obtain ⟨m, hm, _, rfl⟩ := hb.mid
  have hmy : c.moduleAddr ≠ c.yieldAddr := fun hh => by
    have := hc.mod_inj _ _ hh
    exact absurd this (by decide)
  have hp := hm.prin h0 hu.ne_yield hmy
  have htot := hm.total h0 hu.ne_yield hmy
  refine ⟨roundedUp amt s.index, C01_up_exact amt s.index ht.nonneg hi, ?_, ?_, ?_⟩
  · rw [show s'.principalOf a = m.principalOf a by rw [e]; rfl, hp a]
    rw [if_pos ⟨rfl, hu.ne_module⟩, if_neg (by simp), Int.add_zero]
    rfl
  · rw [show s'.totalPrincipal = m.totalPrincipal by rw [e]; rfl, htot]
    rw [if_neg hu.ne_module, if_pos rfl]
    show s.totalPrincipal + 0 - roundedUp amt s.index = _
    omega
  · intro x hx
    rw [show s'.principalOf x = m.principalOf x by rw [e]; rfl, hp x]
    rw [if_neg (fun hh => hx hh.1), if_neg (by simp), Int.add_zero, Int.sub_zero]
    rfl


/-! ### Unique identifiers -/

namespace Spec

/-- The id field of a posted message: bytes 70 to 102 (after prefix, two managers and a length). -/
def messageId (raw : Bytes) : Bytes := (raw.drop 70).take 32

end Spec

theorem messageId_transfer {c : Cfg} (hc : c.WF) {peer : Peer} (hp : peer.manager.length = 32) {index : Int}
    {amount chain : Nat} {token rcp sender : Bytes} {nonce : Nat} :
    messageId (transferMessage c peer index amount chain token rcp sender nonce).2 =
      List.replicate 28 0 ++ toBE 4 nonce := by
  have hpm : c.paddedManager.length = 32 := by
    unfold Cfg.paddedManager; rw [List.length_append, List.length_replicate, hc.mod_len]
  unfold transferMessage messageId encodeTransceiver
  simp only
  generalize hx : transceiverPrefix ++ c.paddedManager ++ peer.manager = x
  have hxl : x.length = 68 := by
    rw [← hx, List.length_append, List.length_append, hpm, hp]; rfl
  unfold encodeManager
  simp only [List.append_assoc]
  rw [← List.append_assoc x]
  rw [List.drop_left' (by rw [List.length_append, hxl, toBE_length])]
  rw [← List.append_assoc (List.replicate 28 0)]
  rw [List.take_left' (by rw [List.length_append, List.length_replicate, toBE_length])]

/-- Invariant: the messages posted since nonce `n0` carry consecutive nonces and matching ids. -/
structure PostedInv (n0 : Nat) (s : State) : Prop where
  nonce : s.nonce = (n0 + s.posted.length) % 2 ^ 32
  nonces : ∀ i (h : i < s.posted.length), (s.posted[i]).2 = (n0 + i) % 2 ^ 32
  ids : ∀ e ∈ s.posted, messageId e.1 = List.replicate 28 0 ++ toBE 4 e.2

theorem PostedInv.step {c : Cfg} (hc : c.WF) {n0 : Nat} {s : State} (h : PostedInv n0 s) (hs : Sized s)
    (env : Env) (m : Msg) : PostedInv n0 (step c env m s) := by
  rcases step_cases c env m s with e | e
  · rw [e]; exact h
  generalize Dollar.step c env m s = s' at e
  rcases posted_step e with ⟨h1, h2⟩ | ⟨sg, amt, ch, tk, rc, peer, a, em, hp, ha, hl, hpo, hno⟩
  · exact ⟨by rw [h1, h2]; exact h.nonce, by rw [h1]; exact h.nonces, by rw [h1]; exact h.ids⟩
  · have hlen : s'.posted.length = s.posted.length + 1 := by rw [hpo]; simp
    refine ⟨?_, ?_, ?_⟩
    · rw [hlen, hno, h.nonce]; omega
    · intro i hi
      by_cases hlt : i < s.posted.length
      · have := h.nonces i hlt
        simp only [hpo, List.getElem_append_left hlt]
        exact this
      · have he : i = s.posted.length := by omega
        subst he
        simp only [hpo, List.getElem_concat_length]
        exact h.nonce
    · intro e he
      rw [hpo, List.mem_append, List.mem_singleton] at he
      rcases he with he | rfl
      · exact h.ids e he
      · exact messageId_transfer hc (hs.peers _ _ hp)

theorem run_sized_posted {c : Cfg} (hc : c.WF) {n0 : Nat} {s : State} (hr : Reachable c s) (hs : Sized s)
    (hp : PostedInv n0 s) (h : History) (hsig : h.Signed c) :
    Sized (run c h s) ∧ PostedInv n0 (run c h s) := by
  induction h generalizing s with
  | nil => exact ⟨hs, hp⟩
  | cons e t ih =>
    have he := hsig e List.mem_cons_self
    exact ih (hr.step he) (C14_sizes_kept hc hr hs e.1 e.2 he) (hp.step hc hs e.1 e.2)
      (fun e' h' => hsig e' (List.mem_cons_of_mem _ h'))

/-- The sizes hold along every history from a fresh chain that has them. -/
theorem C14_sizes_reachable {c : Cfg} (hc : c.WF) {s0 : State} (hi : Initial c s0) (hs : Sized s0)
    (h : History) (hsig : h.Signed c) : Sized (run c h s0) := by
  have hr : Reachable c s0 := .fresh hi
  refine (run_sized_posted hc (n0 := s0.nonce) hr hs ⟨?_, ?_, ?_⟩ h hsig).1
  · rw [hi.posted, Nat.mod_eq_of_lt]
    · rfl
    · have := hi.nonce
      simpa using this
  · intro i h; rw [hi.posted] at h; exact absurd h (Nat.not_lt_zero _)
  · intro e h; rw [hi.posted] at h; exact absurd h List.not_mem_nil

/-- The posted messages of any history carry consecutive nonces (modulo 2^32), starting at the
nonce of the fresh chain, and the id of each is its nonce. -/
theorem C15_consecutive {c : Cfg} (hc : c.WF) {s0 : State} (hi : Initial c s0) (hs : Sized s0)
    (h : History) (hsig : h.Signed c) :
    (∀ i (hl : i < (run c h s0).posted.length), ((run c h s0).posted[i]).2 = (s0.nonce + i) % 2 ^ 32) ∧
      ∀ e ∈ (run c h s0).posted, messageId e.1 = List.replicate 28 0 ++ toBE 4 e.2 := by
  have hr : Reachable c s0 := .fresh hi
  have hp : PostedInv s0.nonce s0 := by
    refine ⟨?_, ?_, ?_⟩
    · rw [hi.posted, Nat.mod_eq_of_lt]
      · rfl
      · have := hi.nonce
        simpa using this
    · intro i h; rw [hi.posted] at h; exact absurd h (Nat.not_lt_zero _)
    · intro e h; rw [hi.posted] at h; exact absurd h List.not_mem_nil
  have := (run_sized_posted hc hr hs hp h hsig).2
  exact ⟨this.nonces, this.ids⟩

/-- With at most 2^32 posted messages, no two share a nonce and no two share an id. -/
theorem C15_unique {c : Cfg} (hc : c.WF) {s0 : State} (hi : Initial c s0) (hs : Sized s0)
    (h : History) (hsig : h.Signed c) (hlen : (run c h s0).posted.length ≤ 2 ^ 32) :
    ((run c h s0).posted.map (·.2)).Nodup ∧
      ((run c h s0).posted.map (fun e => messageId e.1)).Nodup := by
  obtain ⟨h1, h2⟩ := C15_consecutive hc hi hs h hsig
  generalize (run c h s0).posted = l at *
  have hn : (l.map (·.2)).Nodup := by
    rw [List.nodup_iff_injective_getElem]
    intro i j hij
    have hi' : i.1 < l.length := by have := i.2; simpa using this
    have hj' : j.1 < l.length := by have := j.2; simpa using this
    simp only [List.getElem_map] at hij
    rw [h1 i.1 hi', h1 j.1 hj'] at hij
    apply Fin.ext
    omega
  refine ⟨hn, ?_⟩
  have he : l.map (fun e => messageId e.1) = (l.map (·.2)).map (fun n => List.replicate 28 0 ++ toBE 4 n) := by
    rw [List.map_map]
    exact List.map_congr_left h2
  rw [he]
  refine List.Nodup.map_on ?_ hn
  intro x hx y hy hxy
  have hlt : ∀ z ∈ l.map (·.2), z < 256 ^ 4 := by
    intro z hz
    obtain ⟨i, hil, rfl⟩ := List.getElem_of_mem hz
    rw [List.length_map] at hil
    simp only [List.getElem_map]
    rw [h1 i hil]
    exact lt_of_lt_of_le (Nat.mod_lt _ (by decide)) (by decide)
  exact toBE_inj (hlt x hx) (hlt y hy) (List.append_cancel_left hxy)

-- The demo chain has the sizes; its last transaction is a successful transfer of 1000000.
theorem demo_sized : Sized Demo.start := by
  refine ⟨?_, ?_, by decide, by decide⟩
  · intro ch p h
    have := KV.mem_of_get? h
    simp only [Demo.start, List.mem_singleton] at this
    cases this; rfl
  · intro k h
    unfold KV.has at h
    obtain ⟨v, hv⟩ := Option.isSome_iff_exists.1 h
    have := KV.mem_of_get? hv
    simp only [Demo.start, List.mem_singleton] at this
    cases this; rfl

example : Sized (run Demo.cfg Demo.hist2 Demo.start) ∧
    Demo.cfg.denom.toByteArray.data.toList.length ≤ 32 ∧
    (exec Demo.cfg (Demo.env 13) (.transfer Demo.bobS (some 500000) 2 (List.replicate 32 8) (List.replicate 32 1))
      (run Demo.cfg Demo.hist2 Demo.start)).isOk = true ∧
    (run Demo.cfg Demo.hist2 Demo.start).posted.length = 1 :=
  ⟨C14_sizes_reachable Demo.cfg_wf Demo.start_initial demo_sized _ Demo.hist2_signed, by decide,
    by decide +kernel, by decide +kernel⟩

end Dollar
