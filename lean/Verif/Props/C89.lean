import Verif.Lemmas.Relog
import Verif.Props.C12
import Verif.Props.C16
import Verif.Props.C17
import Verif.Props.C18
import Verif.Props.C33
import Verif.Props.C34
import Verif.Props.C35
import Verif.Props.C50
import Verif.Props.C70
import Verif.Props.C43
import Verif.Props.C86

/-
C89: a transfer that quotes a newer index is an announcement of that index followed by the transfer.
-/
set_option maxRecDepth 100000
namespace Dollar
open MM Spec

/-- The states differ at most in the archive of delivered messages and the event log. -/
def Spec.SameButLog (s t : State) : Prop := t = { s with archive := t.archive, events := t.events }

theorem logged_iff {s t : State} : Relogged s t ↔ SameButLog s t := by
  unfold SameButLog
  constructor
  · rintro ⟨a, e, rfl⟩; rfl
  · intro h; exact ⟨_, _, h⟩

theorem ResRel.ok_inv {R : State → State → Prop} {α : Type} {a : Res State α} {y : α} {t : State}
    (h : ResRel R a (.ok y t)) : ∃ s, a = .ok y s ∧ R s t := by
  cases a with
  | ok x s => obtain ⟨rfl, h⟩ := h; exact ⟨s, rfl, h⟩
  | err => exact (h : False).elim
  | panic => exact (h : False).elim

/-- What an accepted announcement ran. -/
theorem deliver_index_run {c : Cfg} {env : Env} {w : Bytes} {s m : State} {i : Int} {ch : Nat}
    (hw : content env w = some (.index i ch)) (h : exec c env (.deliver w) s = .ok () m) :
    ∃ v m1, env.verify w = some v ∧ v.digest ∉ s.archive ∧
      updateIndex c env i { s with archive := s.archive ++ [v.digest] } = .ok () m1 ∧
      m = { m1 with events := m1.events ++ [.delivered w] } := by
  obtain ⟨hp, v, peer, t, mm, n, h1, h2, h3, h4, h5, h6, h7, h8, h9, rfl⟩ :=
    (deliver_ok (show deliver c env w s = .ok () m from h)).run
  have hcon : content env w = contentOf mm.payload := by
    unfold content innerPayload
    simp only [h1, h5, h8]
  rw [hcon] at hw
  cases h9 with
  | ignored hpt e => exfalso; unfold contentOf at hw; rw [hpt] at hw; cases hw
  | token p m1 hpt hd => exfalso; unfold contentOf at hw; rw [hpt] at hw; simp only [hd] at hw; cases hw
  | index j hpt hd hu =>
    unfold contentOf at hw; rw [hpt] at hw; simp only [hd] at hw; cases hw
    exact ⟨v, n, h1, h2, hu, rfl⟩

/-- What an accepted transfer ran. -/
theorem deliver_token_run {c : Cfg} {env : Env} {vaa : Bytes} {s s' : State} {amount : Nat} {i : Int} {r : Bytes}
    {ch : Nat} {tk : Bytes} (hq : content env vaa = some (.token amount i r ch tk))
    (h : exec c env (.deliver vaa) s = .ok () s') :
    ∃ v m1, env.verify vaa = some v ∧ Admitted c s v ∧
      mint c env r amount i { s with archive := s.archive ++ [v.digest] } = .ok () m1 ∧
      Relogged m1 s' := by
  obtain ⟨hp, v, peer, t, mm, n, h1, h2, h3, h4, h5, h6, h7, h8, h9, rfl⟩ :=
    (deliver_ok (show deliver c env vaa s = .ok () s' from h)).run
  have hcon : content env vaa = contentOf mm.payload := by
    unfold content innerPayload
    simp only [h1, h5, h8]
  rw [hcon] at hq
  cases h9 with
  | ignored hpt e => exfalso; unfold contentOf at hq; rw [hpt] at hq; cases hq
  | index j hpt hd hu => exfalso; unfold contentOf at hq; rw [hpt] at hq; simp only [hd] at hq; cases hq
  | token p m1 hpt hd e1 e2 hm e =>
    unfold contentOf at hq; rw [hpt] at hq; simp only [hd] at hq; cases hq
    refine ⟨v, m1, h1, ⟨hp, h2, peer, t, h3, h4, h5, h6.symm, h7.symm⟩, hm, ?_⟩
    rw [e]
    exact ⟨_, _, rfl⟩

/-- After an announcement, minting at the index it announced is minting alone. -/
theorem mint_after {c : Cfg} {env : Env} {r : Addr} {x i : Int} {s t m : State} (hst : Relogged s t)
    (hu : updateIndex c env i t = .ok () m) (hi : m.index = i) (f : State) (hf : Relogged m f) :
    ResRel Relogged (mint c env r x i s) (mint c env r x i f) := by
  have h := (Log.updateIndex c env i).rel s t hst
  rw [hu] at h
  obtain ⟨m2, e2, h2⟩ := h.ok_inv
  have hif : i ≤ f.index := by obtain ⟨_, _, rfl⟩ := hf; exact hi.ge
  unfold mint
  have e3 : ignore (updateIndex c env i) s = .ok () m2 := by unfold ignore; rw [e2]
  have e4 := (updateIndex_stale (c := c) (env := env) hif).1
  simp only [bind_apply, e3, e4]
  refine Same.rel (x := do newCoin x; mintCoins c x; sendModuleToAccount c c.moduleAddr r x) ?_ m2 f
    (h2.trans hf)
  exact .bind (.newCoin _) fun _ => .bind (Log.mintCoins _ _) fun _ => Log.sendModuleToAccount _ _ _ _

theorem verify_digest {env : Env} {a b : Bytes} {v w : VAA} (hv : env.verify a = some v) (hw : env.verify b = some w)
    (hd : (env.verify a).map VAA.digest ≠ (env.verify b).map VAA.digest) : v.digest ≠ w.digest := by
  intro e
  rw [hv, hw] at hd
  exact hd (congrArg some e)

/-- C89: an index announcement `w` was accepted, and a transfer `vaa` (another message) quotes the same index.
Whether the transfer comes after the announcement or instead of it, it is accepted or not alike, and in the end
everything is the same (balances, principals, positions, amounts owed, packets sent, statistics, settings)
except the archive of delivered messages and the log. -/
theorem C89_announce_first {c : Cfg} (hc : c.WF) {s m : State} (hr : Reachable c s) (env : Env) (vaa w : Bytes)
    (amount : Nat) (i : Int) (r : Bytes) (ch ch' : Nat) (tk : Bytes)
    (hq : content env vaa = some (.token amount i r ch tk)) (hw : content env w = some (.index i ch'))
    (hd : (env.verify vaa).map VAA.digest ≠ (env.verify w).map VAA.digest)
    (h : exec c env (.deliver w) s = .ok () m) :
    ((∃ s', exec c env (.deliver vaa) s = .ok () s') ↔ ∃ t', exec c env (.deliver vaa) m = .ok () t') ∧
    ∀ s' t', exec c env (.deliver vaa) s = .ok () s' → exec c env (.deliver vaa) m = .ok () t' →
      SameButLog s' t' := by
  obtain ⟨vw, m1, hvw, hnw, hu, hm⟩ := deliver_index_run hw h
  have hg : Good c { s with archive := s.archive ++ [vw.digest] } := (hr.led hc).good.congr
  obtain ⟨_, hup⟩ := (updateIndex_wp hc env i hg).of_ok hu
  have hst := (Still.updateIndex c env i).ok hu
  have hpp : m.portalPaused = s.portalPaused := by
    rw [hm]; exact congrArg (fun x => x.1.portalPaused) hst
  have hpe : m.peers = s.peers := by rw [hm]; exact congrArg (fun x => x.1.peers) hst
  have har : m.archive = s.archive ++ [vw.digest] := by rw [hm]; exact congrArg (fun x => x.2.1) hst
  have hmi : m.index = i := by rw [hm]; exact hup.index
  have hrm : Reachable c m := by
    rw [← step_of_ok h]
    exact hr.step trivial
  constructor
  · cases hv : env.verify vaa with
    | none => unfold content at hq; rw [hv] at hq; cases hq
    | some v =>
    have hne := verify_digest hv hvw hd
    have hadm : Admitted c s v ↔ Admitted c m v := by
      unfold Admitted
      rw [hpp, hpe, har]
      simp only [List.mem_append, List.mem_singleton, hne, or_false]
    rw [C64_token_accepted_iff hc hr env vaa v hv amount i r ch tk hq,
      C64_token_accepted_iff hc hrm env vaa v hv amount i r ch tk hq, hadm]
    have h1 : ¬ (s.index < i ∧ (s.totalPrincipal * i).tdiv (10 ^ 12) < s.supply) := fun h => by
      have := hup.covered
      unfold present at this
      exact absurd h.2 (by exact not_lt.2 this)
    have h2 : ¬ (m.index < i ∧ (m.totalPrincipal * i).tdiv (10 ^ 12) < m.supply) := fun h => by omega
    tauto
  · intro s' t' h1 h2
    obtain ⟨v, n1, hv, _, hm1, ha1⟩ := deliver_token_run hq h1
    obtain ⟨v', n2, hv', _, hm2, ha2⟩ := deliver_token_run hq h2
    rw [hv] at hv'
    cases hv'
    have := mint_after (c := c) (env := env) (r := r) (x := amount) (i := i)
      (s := { s with archive := s.archive ++ [v.digest] }) (t := { s with archive := s.archive ++ [vw.digest] })
      ⟨_, _, rfl⟩ hu hup.index
      { m with archive := m.archive ++ [v.digest] } (by rw [hm]; exact ⟨_, _, rfl⟩)
    rw [hm1, hm2] at this
    have this : Relogged n1 n2 := this.2
    exact logged_iff.1 ((ha1.symm.trans this).trans ha2)

/-! ### Such an announcement exists -/

/-- The announcement of index `i` for chain `ch` in a message between the same managers as `t`. -/
def announcement (t : TransceiverMessage Sl) (i : Int) (ch : Nat) : Sl :=
  Sl.ofBytes (encodeTransceiver ⟨t.sourceManager.bytes, t.recipientManager.bytes,
    encodeManager ⟨List.replicate 32 0, List.replicate 32 0, encodeIndex i ch⟩, []⟩) []

theorem announcement_parses {p : Sl} {t : TransceiverMessage Sl} (hp : parseTransceiver p = .ok t) (i : Int) (ch : Nat)
    (h0 : 0 ≤ i) (h1 : i < 2 ^ 63) (hch : ch < 2 ^ 16) :
    ∃ t' mm, parseTransceiver (announcement t i ch) = .ok t' ∧ t'.sourceManager.bytes = t.sourceManager.bytes ∧
      t'.recipientManager.bytes = t.recipientManager.bytes ∧ parseManager t'.managerPayload = .ok mm ∧
      contentOf mm.payload = some (.index i ch) := by
  obtain ⟨hs, _⟩ := C17_accepts_only_prefix p t hp
  have hlen : (encodeManager ⟨List.replicate 32 0, List.replicate 32 0, encodeIndex i ch⟩).length = 80 := by
    simp [encodeManager, encodeIndex, indexPrefix]
  obtain ⟨t', h2, h3⟩ := C17_round_trip ⟨t.sourceManager.bytes, t.recipientManager.bytes,
    encodeManager ⟨List.replicate 32 0, List.replicate 32 0, encodeIndex i ch⟩, []⟩
    ⟨hs.source, hs.recipient, by rw [hlen]; decide, by show (0 : Nat) < 65536; decide⟩ []
  have e1 : t'.managerPayload.bytes = encodeManager ⟨List.replicate 32 0, List.replicate 32 0, encodeIndex i ch⟩ :=
    (congrArg TransceiverMessage.managerPayload h3 :)
  have hw := (parseTransceiver_wf h2).2.2.1
  obtain ⟨mm, h4, h5⟩ := C16_round_trip ⟨List.replicate 32 0, List.replicate 32 0, encodeIndex i ch⟩
    (t'.managerPayload.arr.drop t'.managerPayload.len) (by simp) (by simp) (by
      simp [encodeIndex, indexPrefix])
  rw [← e1, ← Sl.eq_ofBytes hw] at h4
  have e2 : mm.payload.bytes = encodeIndex i ch := (congrArg ManagerMessage.payload h5 :)
  have hw2 := (parseManager_wf hw h4).2.2
  refine ⟨t', mm, h2, (congrArg TransceiverMessage.sourceManager h3 :),
    (congrArg TransceiverMessage.recipientManager h3 :), h4, ?_⟩
  rw [Sl.eq_ofBytes hw2, e2]
  unfold contentOf
  rw [(C18_payload_type ⟨0, [], [], 0, []⟩ i ch _).2, C18_index_round_trip i ch _ (by omega) h1 hch]

theorem decodeToken_chain {bz : Sl} {p : TokenPayload} (h : decodeToken bz = .ok p) : p.chain < 2 ^ 16 := by
  unfold decodeToken at h
  simp only [PRes.bind_ok, PRes.ofSlice_ok] at h
  obtain ⟨t, ht, a, ha, _, _, h⟩ := h
  cases h
  unfold nttOrZero at ht
  split at ht
  · next h1 =>
    cases ht
    unfold parseNtt at h1
    split at h1
    · cases h1
    simp only [PRes.bind_ok, PRes.ofSlice_ok] at h1
    obtain ⟨p, _, h1⟩ := h1
    split at h1
    · cases h1
    simp only [PRes.bind_ok, PRes.ofSlice_ok] at h1
    obtain ⟨a, _, _, _, _, _, x, hx, _, _, h1⟩ := h1
    cases h1
    obtain ⟨_, _, rfl⟩ := Sl.slice_some hx
    have h1 := beNat_lt (⟨bz.arr.drop 77, 2⟩ : Sl).bytes
    have h2 : (⟨bz.arr.drop 77, 2⟩ : Sl).bytes.length ≤ 2 := List.length_take_le _ _
    have h3 : 256 ^ (⟨bz.arr.drop 77, 2⟩ : Sl).bytes.length ≤ 256 ^ 2 := Nat.pow_le_pow_right (by decide) h2
    exact lt_of_lt_of_le h1 h3
  · cases ht; exact Nat.two_pow_pos 16
  · cases ht

/-- An announcement whose update succeeds is accepted. -/
theorem deliver_index_succeeds {c : Cfg} {s : State} (env : Env) (w : Bytes) {v : VAA} {peer : Peer}
    {t : TransceiverMessage Sl} {mm : ManagerMessage Sl} {i : Int} (hp : s.portalPaused = false)
    (hv : env.verify w = some v) (hn : v.digest ∉ s.archive) (h3 : s.peers.get? v.emitterChain = some peer)
    (h4 : peer.transceiver = v.emitterAddress) (h5 : parseTransceiver v.payload = .ok t)
    (h6 : t.sourceManager.bytes = peer.manager) (h7 : t.recipientManager.bytes = c.paddedManager)
    (hmm : parseManager t.managerPayload = .ok mm) (hty : payloadType mm.payload = .ok .index)
    (hdt : decodeIndex mm.payload = .ok (i, c.chain))
    (hu : ∃ m, updateIndex c env i { s with archive := s.archive ++ [v.digest] } = .ok () m) :
    ∃ m, exec c env (.deliver w) s = .ok () m := by
  obtain ⟨s1, h1⟩ := hu
  show ∃ s', deliver c env w s = .ok () s'
  simp only [hp] at h1
  unfold deliver deliverInner verifyVAA
  simp only [bind_apply, get_apply, hp, Bool.false_eq_true, if_false, hv, if_neg hn, modify_apply, pure_apply, h3,
    h4, ne_eq, not_true_eq_false]
  unfold deliverPayload
  simp only [bind_apply, parse, h5, hmm, pure_apply, h6, h7, ne_eq, not_true_eq_false, if_false]
  unfold handlePayload
  simp only [bind_apply, parse, hty, pure_apply]
  unfold handleIndex
  simp only [bind_apply, parse, hdt, pure_apply, ne_eq, not_true_eq_false, if_false, h1]
  exact ⟨_, rfl⟩

/-- There is always a byte string outside a list. -/
theorem exists_fresh (l : List Bytes) : ∃ b : Bytes, b ∉ l := by
  have key : ∀ l : List Bytes, ∃ n, ∀ b ∈ l, b.length < n := by
    intro l
    induction l with
    | nil => exact ⟨0, fun _ h => by cases h⟩
    | cons a t ih =>
      obtain ⟨n, hn⟩ := ih
      refine ⟨max n (a.length + 1), fun b hb => ?_⟩
      rcases List.mem_cons.1 hb with rfl | hb
      · omega
      · have := hn b hb; omega
  obtain ⟨n, hn⟩ := key l
  refine ⟨List.replicate n 0, fun h => ?_⟩
  have := hn _ h
  simp at this

section
variable (c : Cfg) (env : Env) (f : Bytes → Option VAA)

theorem ibcLoop_verify (rs : KV String String) (l : List String) :
    ibcLoop c { env with verify := f } rs l = ibcLoop c env rs l := by
  induction l with
  | nil => rfl
  | cons a t ih =>
    unfold ibcLoop
    rw [ih]
    rfl

theorem hypLoop_verify (rs : KV String String) (x y : Int) (l : List Route) :
    hypLoop c { env with verify := f } rs x y l = hypLoop c env rs x y l := by
  induction l with
  | nil => rfl
  | cons a t ih =>
    unfold hypLoop
    rw [ih]
    rfl

theorem updateIndex_verify (i : Int) : updateIndex c { env with verify := f } i = updateIndex c env i := by
  unfold updateIndex claimExternalIBC claimExternalHyperlane
  simp only [ibcLoop_verify, hypLoop_verify]
  rfl

end

/-- The handling of a payload does not verify messages. -/
theorem handlePayload_verify (c : Cfg) (env : Env) (f : Bytes → Option VAA) (p : Sl) (ev : EventsPayload) :
    handlePayload c { env with verify := f } p ev = handlePayload c env p ev := by
  unfold handlePayload handleToken handleIndex mint
  simp only [updateIndex_verify]

theorem deliver_verify (c : Cfg) (env : Env) (f : Bytes → Option VAA) (bz : Bytes) (h : f bz = env.verify bz) :
    deliver c { env with verify := f } bz = deliver c env bz := by
  unfold deliver deliverInner verifyVAA deliverPayload
  simp only [handlePayload_verify, h]

/-- C89: conversely, whenever a transfer quotes a newer index and the update is reported, it could have been
preceded by an announcement of that index from the same peer (in an environment where Wormhole verifies such a
message `w`, and which is the same otherwise): the
announcement is accepted, the transfer after it too, and the outcome is the one of the transfer alone.  So what
is proved about announcements tells what the index update within a transfer does. -/
theorem C89_split {c : Cfg} (hc : c.WF) {s s' : State} (hr : Reachable c s) (env : Env)
    (vaa : Bytes) (amount : Nat) (i : Int) (r : Bytes) (ch : Nat) (tk : Bytes)
    (hq : content env vaa = some (.token amount i r ch tk)) (h : exec c env (.deliver vaa) s = .ok () s')
    (hup : ∃ a b p y, .indexUpdated a b p y ∈ s'.events.drop s.events.length) :
    ∃ (w : Bytes) (vw : VAA) (m t' : State), w ≠ vaa ∧
      let env' := { env with verify := fun bz => if bz = w then some vw else env.verify bz }
      content env' w = some (.index i c.chain) ∧ exec c env' (.deliver w) s = .ok () m ∧
      content env' vaa = some (.token amount i r ch tk) ∧ exec c env' (.deliver vaa) m = .ok () t' ∧
      SameButLog s' t' := by
  obtain ⟨hp, v, peer, t, mm, n, h1, h2, h3, h4, h5, h6, h7, h8, h9, hs'⟩ :=
    (deliver_ok (show deliver c env vaa s = .ok () s' from h)).run
  have hcon : content env vaa = contentOf mm.payload := by
    unfold content innerPayload
    simp only [h1, h5, h8]
  have hq' := hq
  rw [hcon] at hq'
  have hg : Good c { s with archive := s.archive ++ [v.digest] } := (hr.led hc).good.congr
  -- the update within the transfer succeeded
  obtain ⟨n1, hu, hch⟩ : ∃ n1, updateIndex c env i { s with archive := s.archive ++ [v.digest] } = .ok () n1 ∧
      c.chain < 2 ^ 16 := by
    cases h9 with
    | ignored hpt e => exfalso; unfold contentOf at hq'; rw [hpt] at hq'; cases hq'
    | index j hpt hd hu => exfalso; unfold contentOf at hq'; rw [hpt] at hq'; simp only [hd] at hq'; cases hq'
    | token p m1 hpt hd e1 e2 hm e =>
      unfold contentOf at hq'; rw [hpt] at hq'; simp only [hd] at hq'; cases hq'
      obtain ⟨s1, hi, _, hmk⟩ := mint_ok hc hg hm
      have hev : m1.events = s1.events := hmk.moved.events
      rw [ignore_ok] at hi
      rcases hi with hi | ⟨er, hi⟩
      · exact ⟨s1, hi, by rw [e1]; exact decodeToken_chain hd⟩
      · exfalso
        obtain ⟨a, b, q, y, hmem⟩ := hup
        rw [hs', e] at hmem
        have hmem : Event.indexUpdated a b q y ∈ List.drop s.events.length (m1.events ++ _ ++ _ ++ _) := hmem
        rw [hev, (EvF.updateIndex_err c env hi).1] at hmem
        simp only [List.append_assoc] at hmem
        rw [List.drop_left] at hmem
        simp at hmem
  obtain ⟨_, hU⟩ := (updateIndex_wp hc env i hg).of_ok hu
  have hi0 : 0 < i := (hr.led hc).good.index.trans hU.greater
  obtain ⟨d, hd⟩ := exists_fresh (v.digest :: s.archive)
  obtain ⟨w, hw⟩ := exists_fresh [vaa]
  have hwv : w ≠ vaa := by simpa using hw
  obtain ⟨t', mm', p1, p2, p3, p4, p5⟩ := announcement_parses h5 i c.chain hi0.le (content_bounds hq).2 hch
  let vw : VAA := ⟨v.emitterChain, v.emitterAddress, announcement t i c.chain, d⟩
  let f : Bytes → Option VAA := fun bz => if bz = w then some vw else env.verify bz
  have hfw : f w = some vw := if_pos rfl
  have hfv : f vaa = env.verify vaa := if_neg (Ne.symm hwv)
  have hcw : content { env with verify := f } w = some (.index i c.chain) := by
    unfold content innerPayload
    simp only [hfw, vw, p1, p4, p5]
  have hcv : content { env with verify := f } vaa = some (.token amount i r ch tk) := by
    rw [← hq]
    unfold content
    simp only [hfv]
  -- the announcement is accepted
  have hsame := (Log.updateIndex c env i).rel { s with archive := s.archive ++ [d] }
    { s with archive := s.archive ++ [v.digest] } ⟨_, _, rfl⟩
  rw [hu] at hsame
  obtain ⟨m1, hm1, _⟩ := hsame.ok_inv
  have hm : ∃ m, exec c { env with verify := f } (.deliver w) s = .ok () m := by
    rw [← updateIndex_verify c env f] at hm1
    obtain ⟨mm2, g1, g2, g3⟩ := content_index (env := { env with verify := f }) hfw p1 hcw
    exact deliver_index_succeeds { env with verify := f } w hp hfw (fun h => hd (.tail _ h)) h3 h4 p1
      (p2.trans h6.symm) (p3.trans h7.symm) g1 g2 g3 ⟨_, hm1⟩
  obtain ⟨m, hm⟩ := hm
  have hx : exec c { env with verify := f } (.deliver vaa) s = .ok () s' := by
    rw [← h]
    show deliver c { env with verify := f } vaa s = deliver c env vaa s
    rw [deliver_verify c env f vaa hfv]
  obtain ⟨k1, k2⟩ := C89_announce_first hc hr { env with verify := f } vaa w amount i r ch c.chain tk hcv hcw (by
    show (f vaa).map VAA.digest ≠ (f w).map VAA.digest
    rw [hfv, hfw, h1]
    intro e
    have e : v.digest = d := Option.some.inj e
    exact hd (by rw [← e]; exact .head _)) hm
  obtain ⟨t2, ht2⟩ := k1.1 ⟨_, hx⟩
  exact ⟨w, vw, m, t2, hwv, hcw, hm, hcv, ht2, k2 _ _ hx ht2⟩

/-! ### What the update within a transfer does -/

/-- The state without the accounts, the totals and the log. -/
def Spec.besidesAccounts (s : State) : State :=
  { s with
    bal := [], principal := [], holders := 0, totalPrincipal := 0, supply := 0, archive := [], events := [] }

/-- A transfer that quotes an index which is not newer pays the recipient, and that is all. -/
theorem C89_plain_transfer {c : Cfg} (hc : c.WF) {s s' : State} (hr : Reachable c s) (env : Env) (vaa : Bytes)
    (amount : Nat) (i : Int) (r : Bytes) (ch : Nat) (tk : Bytes)
    (hq : content env vaa = some (.token amount i r ch tk)) (hi : i ≤ s.index)
    (h : exec c env (.deliver vaa) s = .ok () s') :
    (∀ x, s'.balance x = s.balance x + (if x = r then (amount : Int) else 0)) ∧ s'.supply = s.supply + amount ∧
    (∀ x, x ≠ r → s'.principalOf x = s.principalOf x) ∧ besidesAccounts s' = besidesAccounts s := by
  obtain ⟨v, m1, hv, _, hm, hl⟩ := deliver_token_run hq h
  have hg : Good c { s with archive := s.archive ++ [v.digest] } := (hr.led hc).good.congr
  obtain ⟨s1, h1, _, h2⟩ := mint_ok hc hg hm
  have hst := (updateIndex_stale (c := c) (env := env) (i := i) (s := { s with archive := s.archive ++ [v.digest] })
    hi).1
  rw [hst] at h1
  cases h1
  obtain ⟨a, e, rfl⟩ := hl
  have hf := h2.moved.frame
  refine ⟨fun x => h2.bal x, h2.supply, fun x hx => ?_, ?_⟩
  · show m1.principalOf x = s.principalOf x
    by_cases h0 : (amount : Int) = 0
    · rw [h2.moved.zero h0]; rfl
    · by_cases hy : r = c.yieldAddr
      · have := (h2.moved.skip (.inr hy)).1
        unfold State.principalOf
        rw [this]; rfl
      · rw [h2.moved.prin h0 hc.yield_ne_module.symm hy x, if_neg (fun h => h.2 rfl), if_neg (fun h => hx h.1)]
        show s.principalOf x - 0 + 0 = _
        omega
  · have : ∀ m : State, besidesAccounts m = { bankCore m with supply := 0, archive := [], events := [] } := fun _ => rfl
    show besidesAccounts m1 = _
    rw [this m1, hf]
    rfl

/-- The update within a transfer, taken apart: `m` is the state after an announcement of the index alone
(accepted in an environment that differs only in what Wormhole verifies), and the transfer's own part pays the
recipient, and that is all. -/
theorem C89_update_within {c : Cfg} (hc : c.WF) {s s' : State} (hr : Reachable c s) (env : Env)
    (vaa : Bytes) (amount : Nat) (i : Int) (r : Bytes) (ch : Nat) (tk : Bytes)
    (hq : content env vaa = some (.token amount i r ch tk)) (h : exec c env (.deliver vaa) s = .ok () s')
    (hup : ∃ a b p y, .indexUpdated a b p y ∈ s'.events.drop s.events.length) :
    ∃ (f : Bytes → Option VAA) (w : Bytes) (m : State), content { env with verify := f } w = some (.index i c.chain) ∧
      exec c { env with verify := f } (.deliver w) s = .ok () m ∧
      (∀ x, s'.balance x = m.balance x + (if x = r then (amount : Int) else 0)) ∧ s'.supply = m.supply + amount ∧
      (∀ x, x ≠ r → s'.principalOf x = m.principalOf x) ∧ besidesAccounts s' = besidesAccounts m := by
  obtain ⟨w, vw, m, t', _, h1, h2, h3, h4, h5⟩ := C89_split hc hr env vaa amount i r ch tk hq h hup
  refine ⟨_, w, m, h1, h2, ?_⟩
  have hrm : Reachable c m := by
    rw [← step_of_ok h2]
    exact hr.step trivial
  have hmi := (C03_delivered_index hc hr _ w i c.chain h1 h2).2.1
  obtain ⟨k1, k2, k3, k4⟩ := C89_plain_transfer hc hrm _ vaa amount i r ch tk h3 (by omega) h4
  rw [h5] at k1 k2 k3 k4
  exact ⟨k1, k2, k3, k4⟩

/-- IBC channels are paid by the update within a transfer as by an announcement (C34). -/
theorem C89_channels {c : Cfg} (hc : c.WF) {s s' : State} (hr : Reachable c s) (env : Env)
    (vaa : Bytes) (amount : Nat) (i : Int) (r : Bytes) (ch : Nat) (tk : Bytes)
    (hq : content env vaa = some (.token amount i r ch tk)) (h : exec c env (.deliver vaa) s = .ok () s')
    (hup : ∃ a b p y, .indexUpdated a b p y ∈ s'.events.drop s.events.length) (channel recipient : String)
    (hrec : s.recipients.get? (0, channel) = some recipient) (hne : r ≠ c.escrow "transfer" channel)
    (hcol : s.seasonOneEnded = true → s.collector ≠ c.escrow "transfer" channel) :
    let escrow := c.escrow "transfer" channel
    let y := yieldAt s escrow i
    let due := y + s.retryOf 0 channel
    s'.balance escrow = s.balance escrow + y ∧
    s'.extYieldOf 0 channel = s.extYieldOf 0 channel + y ∧
    (env.ibc channel = .success ∧ 0 < due →
      sentOn s s' channel = [⟨channel, escrow, recipient, due⟩] ∧ s'.retryOf 0 channel = 0) ∧
    (¬ (env.ibc channel = .success ∧ 0 < due) →
      sentOn s s' channel = [] ∧ s'.retryOf 0 channel = due) := by
  obtain ⟨f, w, m, h1, h2, k1, _, _, k4⟩ := C89_update_within hc hr env vaa amount i r ch tk hq h hup
  have := C34_index_update hc _ w i c.chain s m hr h1 h2 channel recipient hrec hcol
  have e1 : s'.extYield = m.extYield := (congrArg State.extYield k4 :)
  have e2 : s'.retry = m.retry := (congrArg State.retry k4 :)
  have e3 : s'.ibcOut = m.ibcOut := (congrArg State.ibcOut k4 :)
  have e4 : s'.balance (c.escrow "transfer" channel) = m.balance (c.escrow "transfer" channel) := by
    rw [k1, if_neg (Ne.symm hne)]; omega
  have e5 : sentOn s s' channel = sentOn s m channel := by unfold sentOn; rw [e3]
  have e6 : s'.extYieldOf 0 channel = m.extYieldOf 0 channel := by unfold State.extYieldOf; rw [e1]
  have e7 : s'.retryOf 0 channel = m.retryOf 0 channel := by unfold State.retryOf; rw [e2]
  intro escrow y due
  rw [e4, e5, e6, e7]
  exact this

/-- Hyperlane routes are paid by the update within a transfer as by an announcement (C35). -/
theorem C89_warp_routes {c : Cfg} (hc : c.WF) {s s' : State} (hr : Reachable c s) (env : Env)
    (vaa : Bytes) (amount : Nat) (i : Int) (r : Bytes) (ch : Nat) (tk : Bytes)
    (hq : content env vaa = some (.token amount i r ch tk)) (h : exec c env (.deliver vaa) s = .ok () s')
    (hup : ∃ a b p y, .indexUpdated a b p y ∈ s'.events.drop s.events.length) (hne : r ≠ c.modAddr "warp")
    (hcol : s.seasonOneEnded = true → s.collector ≠ c.modAddr "warp") :
    let y := yieldAt s (c.modAddr "warp") i
    s'.balance (c.modAddr "warp") = s.balance (c.modAddr "warp") + y ∧
    (0 < y ∧ 0 < hypTotal c s →
      (∀ id r, s.recipients.get? (1, id) = some r →
        s'.extYieldOf 1 id = s.extYieldOf 1 id + share (collateralOf c s id) (hypTotal c s) y ∧
        (hypSends c env s y id → s'.retryOf 1 id = 0) ∧
        (¬ hypSends c env s y id → s'.retryOf 1 id =
          share (collateralOf c s id) (hypTotal c s) y + s.retryOf 1 id)) ∧
      List.Forall₂ (IsHypMessage c env s y)
        ((hypIds s).filter fun id => decide (hypSends c env s y id)) (dispatched s s')) ∧
    (y = 0 ∨ hypTotal c s = 0 → dispatched s s' = [] ∧
      ∀ id, s'.retryOf 1 id = s.retryOf 1 id ∧ s'.extYieldOf 1 id = s.extYieldOf 1 id) ∧
    (∀ id, s.recipients.get? (1, id) = none → s'.retryOf 1 id = s.retryOf 1 id ∧
      s'.extYieldOf 1 id = s.extYieldOf 1 id) ∧
    s.warpOut <+: s'.warpOut := by
  obtain ⟨f, w, m, h1, h2, k1, _, _, k4⟩ := C89_update_within hc hr env vaa amount i r ch tk hq h hup
  have := C35_index_update hc _ w i c.chain s m hr h1 h2 hcol
  have e1 : s'.extYield = m.extYield := (congrArg State.extYield k4 :)
  have e2 : s'.retry = m.retry := (congrArg State.retry k4 :)
  have e3 : s'.warpOut = m.warpOut := (congrArg State.warpOut k4 :)
  have e4 : s'.balance (c.modAddr "warp") = m.balance (c.modAddr "warp") := by
    rw [k1, if_neg (Ne.symm hne)]; omega
  have e5 : dispatched s s' = dispatched s m := by unfold dispatched; rw [e3]
  have e6 : ∀ id, s'.extYieldOf 1 id = m.extYieldOf 1 id := fun id => by unfold State.extYieldOf; rw [e1]
  have e7 : ∀ id, s'.retryOf 1 id = m.retryOf 1 id := fun id => by unfold State.retryOf; rw [e2]
  intro y
  simp only [e3, e4, e5, e6, e7]
  exact this

/-- The vaults in season one are paid by the update within a transfer as by an announcement (C50). -/
theorem C89_season_one {c : Cfg} (hc : c.WF) {s s' : State} (hr : Reachable c s) (env : Env)
    (vaa : Bytes) (amount : Nat) (i : Int) (r : Bytes) (ch : Nat) (tk : Bytes)
    (hq : content env vaa = some (.token amount i r ch tk)) (h : exec c env (.deliver vaa) s = .ok () s')
    (hup : ∃ a b p y, .indexUpdated a b p y ∈ s'.events.drop s.events.length)
    (hn1 : r ≠ c.modAddr "dollar/vaults/staked") (hn2 : r ≠ c.modAddr "dollar/vaults/flexible")
    (hs : s.seasonOneEnded = false) :
    let yF := yieldAt s (c.modAddr "dollar/vaults/flexible") i
    let yS := yieldAt s (c.modAddr "dollar/vaults/staked") i
    s'.balance (c.modAddr "dollar/vaults/staked") = s.balance (c.modAddr "dollar/vaults/staked") ∧
    s'.balance (c.modAddr "dollar/vaults/flexible") = s.balance (c.modAddr "dollar/vaults/flexible") + yS + yF ∧
    s'.rewards.get? i = some ⟨i, s.totalFlexible, yS + yF⟩ ∧
    (∀ j, j ≠ i → s'.rewards.get? j = s.rewards.get? j) ∧
    s'.positions = s.positions ∧ s'.totalFlexible = s.totalFlexible := by
  obtain ⟨f, w, m, h1, h2, k1, _, _, k4⟩ := C89_update_within hc hr env vaa amount i r ch tk hq h hup
  obtain ⟨_, g1, g2, g3, g4, g5, g6⟩ := C50_season_one hc _ w i c.chain s m hr hs h1 h2
  have e1 : s'.rewards = m.rewards := (congrArg State.rewards k4 :)
  have e2 : s'.positions = m.positions := (congrArg State.positions k4 :)
  have e3 : s'.totalFlexible = m.totalFlexible := (congrArg State.totalFlexible k4 :)
  intro yF yS
  rw [k1, k1, if_neg (Ne.symm hn1), if_neg (Ne.symm hn2), e1, e2, e3]
  exact ⟨by rw [add_zero]; exact g1, by rw [add_zero]; exact g2, g3, g4, g5, g6⟩

/-- After season one the collector gets the staked vault's yield also from the update within a transfer (C33). -/
theorem C89_collector {c : Cfg} (hc : c.WF) {s s' : State} (hr : Reachable c s) (env : Env)
    (vaa : Bytes) (amount : Nat) (i : Int) (r : Bytes) (ch : Nat) (tk : Bytes)
    (hq : content env vaa = some (.token amount i r ch tk)) (h : exec c env (.deliver vaa) s = .ok () s')
    (hup : ∃ a b p y, .indexUpdated a b p y ∈ s'.events.drop s.events.length)
    (hn1 : r ≠ c.modAddr "dollar/vaults/staked") (hs : s.seasonOneEnded = true) (hu : c.IsUser s.collector) :
    s'.balance (c.modAddr "dollar/vaults/staked") = s.balance (c.modAddr "dollar/vaults/staked") ∧
    s'.balance s.collector = s.balance s.collector + yieldAt s (c.modAddr "dollar/vaults/staked") i +
      (if s.collector = r then (amount : Int) else 0) ∧
    s'.rewards = s.rewards ∧ s'.positions = s.positions := by
  obtain ⟨f, w, m, h1, h2, k1, _, _, k4⟩ := C89_update_within hc hr env vaa amount i r ch tk hq h hup
  obtain ⟨g1, g2, g3, g4⟩ := C33_collector_gets_staked_yield hc _ w i c.chain s m hr hs hu h1 h2
  have e1 : s'.rewards = m.rewards := (congrArg State.rewards k4 :)
  have e2 : s'.positions = m.positions := (congrArg State.positions k4 :)
  rw [k1, k1, if_neg (Ne.symm hn1), e1, e2]
  exact ⟨by rw [add_zero]; exact g1, by rw [g2]; rfl, g3, g4⟩

/-- Non-vacuity: announcement [3] and transfer [4] of the demo chain, the transfer made to quote the index of
the announcement; with two Hyperlane routes and an IBC channel. -/
def Demo.envBoth : Env :=
  { Demo.env 8 with
    verify := fun bz => if bz = [3] then some (Demo.vaaIndex 3 1100000000000)
      else if bz = [4] then some (Demo.vaaToken 4 Demo.alice 1000000 1100000000000) else none }

example :
    let s := run Demo.cfg Demo.histExt Demo.start
    content Demo.envBoth [4] = some (.token 1000000 1100000000000 Demo.alice 4009 Demo.cfg.rawToken) ∧
    content Demo.envBoth [3] = some (.index 1100000000000 4009) ∧
    (exec Demo.cfg Demo.envBoth (.deliver [3]) s).isOk ∧ (exec Demo.cfg Demo.envBoth (.deliver [4]) s).isOk ∧
    (exec Demo.cfg Demo.envBoth (.deliver [4]) (step Demo.cfg Demo.envBoth (.deliver [3]) s)).isOk ∧
    (step Demo.cfg Demo.envBoth (.deliver [4]) s).bal =
      (step Demo.cfg Demo.envBoth (.deliver [4]) (step Demo.cfg Demo.envBoth (.deliver [3]) s)).bal ∧
    (step Demo.cfg Demo.envBoth (.deliver [4]) s).bal ≠ s.bal ∧
    ((step Demo.cfg Demo.envBoth (.deliver [4]) s).events.drop s.events.length).length = 4 ∧
    s.recipients.length = 3 ∧ s.seasonOneEnded = false :=
  ⟨by decide +kernel, by decide +kernel, by decide +kernel, by decide +kernel, by decide +kernel, by decide +kernel,
    by decide +kernel, by decide +kernel, by decide +kernel, by decide +kernel⟩

/-- Non-vacuity in season two: the same transfer, and the collector gets the yield of the staked vault. -/
example : let s := Demo.stateS2
    s.seasonOneEnded = true ∧ (exec Demo.cfg Demo.envBoth (.deliver [4]) s).isOk = true ∧
    ((step Demo.cfg Demo.envBoth (.deliver [4]) s).events.drop s.events.length).length = 4 ∧
    yieldAt s Demo.cfg.stakedAddr 1100000000000 = 300000 ∧ s.balance s.collector = 0 ∧
    (step Demo.cfg Demo.envBoth (.deliver [4]) s).balance s.collector = 300000 := by
  decide +kernel

end Dollar
