import Verif.Props.C122
import Verif.Props.C114
import Verif.Props.C63
import Verif.Props.C78
import Verif.Props.C113
import Verif.Lemmas.Codec2

/-
C123: an explorer that reads the JSON log of a node knows every typed event of the chain, exactly, and with them the
settings, the index, the vault statistics and the bridged supply, over any history of up to 2^39 messages.
-/
set_option linter.unusedSimpArgs false
set_option linter.unusedVariables false
set_option maxRecDepth 100000

namespace Dollar
open MM Spec Json

namespace Spec

/-- The address codec writes every account of 20 bytes, and every account it can read, so that it can be read again. -/
structure Rereads (c : Cfg) : Prop where
  twenty : ∀ a : Addr, a.length = 20 → c.decode (c.encode a) = some a
  known : ∀ x a, c.decode x = some a → c.decode (c.encode a) = some a

/-- Messages whose numbers fit the types of the fields: 16-bit chains, 32-bit providers. -/
def InWidth : Msg → Prop
  | .setYieldRecipient _ provider _ _ => -2 ^ 31 ≤ provider ∧ provider < 2 ^ 31
  | .setPeer _ chain _ _ => chain < 2 ^ 16
  | .setBridgingPath _ chain _ _ => chain < 2 ^ 16
  | _ => True

instance (m : Msg) : Decidable (InWidth m) := by cases m <;> unfold InWidth <;> infer_instance

/-- Peers and paths of 16-bit chains; every peer has a transceiver or a manager. -/
structure Tidy (s : State) : Prop where
  peers : ∀ e ∈ s.peers, e.1 < 2 ^ 16 ∧ e.2 ≠ ⟨[], []⟩
  paths : ∀ e ∈ s.paths, e.1.1 < 2 ^ 16

/-- What an explorer makes of one event that a node shows: the event, if it is a typed one. -/
def readShown (c : Cfg) (x : String × List (String × List Char)) : Option Event := (understood x).bind (readTyped c)

/-- The sequence number in a `transfer_sent` event that a node shows. -/
def sequence (x : String × List (String × List Char)) : Option Nat :=
  if x.1 = "transfer_sent" then
    (x.2.lookup "msg_sequence").bind fun v => (unquote v).bind fun t => (readLit 0 (2 ^ 32) t).map Int.toNat
  else none

/-- How an explorer that sees nothing but the JSON log follows the chain: it follows every typed event, counts on with the
sequence number of a `transfer_sent`, and ignores what has neither. -/
def observe (c : Cfg) (v : Indexer) (x : String × List (String × List Char)) : Option Indexer :=
  match readShown c x with
  | some e => v.follow e
  | none =>
    match sequence x with
    | some n => if n = v.nonce then some { v with nonce := (n + 1) % 2 ^ 32 } else none
    | none => some v

instance (e : Event) : Decidable (Typed e) := by cases e <;> unfold Typed <;> infer_instance

end Spec

theorem Tidy.exec {c : Cfg} {env : Env} {m : Msg} {s s' : State} (h : Tidy s) (hm : InWidth m)
    (hx : exec c env m s = .ok () s') : Tidy s' := by
  have go : ∀ {p : KV Nat Peer} {q : KV (Nat × Bytes) Bool}, s'.peers = p → s'.paths = q →
      (∀ e ∈ p, e.1 < 2 ^ 16 ∧ e.2 ≠ ⟨[], []⟩) → (∀ e ∈ q, e.1.1 < 2 ^ 16) → Tidy s' := by
    rintro _ _ rfl rfl a b
    exact ⟨a, b⟩
  have un : ∀ {x : Settings}, settings s' = x → s'.peers = x.peers ∧ s'.paths = x.paths := by
    rintro x rfl; exact ⟨rfl, rfl⟩
  cases settings_step hx with
  | same _ e | paused _ e | portalPaused _ _ e | recipients _ _ _ e | vPaused _ _ _ e | owner _ _ e =>
    exact go (un e).1 (un e).2 h.peers h.paths
  | peers ch t m _ h1 h2 e =>
    refine go (un e).1 (un e).2 (fun x hx => (KV.mem_set hx).elim (fun e => e ▸ ⟨hm, ?_⟩) (h.peers x)) h.paths
    intro e
    cases e
    cases h1
  | paths ch t b' _ _ e =>
    exact go (un e).1 (un e).2 h.peers (fun x hx => (KV.mem_set hx).elim (fun e => e ▸ hm) (h.paths x))

theorem Tidy.run {c : Cfg} {s0 : State} (h0 : Tidy s0) {h : History} (hn : ∀ e ∈ h, InWidth e.2) : Tidy (run c h s0) := by
  induction h generalizing s0 with
  | nil => exact h0
  | cons e t ih =>
    obtain ⟨env, m⟩ := e
    refine ih (s0 := step c env m s0) ?_ fun e he => hn e (List.mem_cons_of_mem _ he)
    rcases step_cases c env m s0 with e | e
    · rw [e]; exact h0
    · exact Tidy.exec h0 (hn (env, m) List.mem_cons_self) e

/-- The recipient of a token payload is an account of 20 bytes. -/
theorem decodeToken_recipient {bz : Sl} (hw : bz.WF) {p : TokenPayload} (h : decodeToken bz = .ok p) :
    p.recipient.length = 20 := by
  unfold decodeToken at h
  simp only [PRes.bind_ok, PRes.ofSlice_ok] at h
  obtain ⟨t, ht, a, ha, r, hr, h⟩ := h
  cases h
  unfold nttOrZero at ht
  split at ht
  · next h1 =>
    cases ht
    obtain ⟨w, l, _⟩ := parseNtt_wf hw h1
    have w2 := Sl.sliceFrom_wf w hr
    unfold Sl.sliceFrom at hr
    split at hr
    · cases hr
      unfold Sl.WF at w2
      show (List.take _ _).length = 20
      rw [List.length_take]
      simp only at w2 ⊢
      omega
    · cases hr
  · cases ht; cases hr
  · cases ht

theorem content_recipient {env : Env} {vaa : Bytes} {a : Nat} {i : Int} {r tok : Bytes} {ch : Nat}
    (h : content env vaa = some (.token a i r ch tok)) : r.length = 20 := by
  unfold content at h
  split at h
  · next v _ =>
    split at h
    · next p hp =>
      have hw : p.WF := by
        unfold innerPayload at hp
        split at hp
        · next t ht =>
          split at hp
          · next m hm => cases hp; exact (parseManager_wf (parseTransceiver_wf ht).2.2.1 hm).2.2
          · cases hp
        · cases hp
      unfold contentOf at h
      split at h
      · split at h
        · next q hq => cases h; exact decodeToken_recipient hw hq
        · cases h
      · split at h <;> cases h
      · cases h
    · cases h
  · cases h

theorem amount_of {x : Int} (h0 : 0 ≤ x) (h1 : x ≤ 2 ^ 255) : Amount x := by
  unfold Amount
  omega

theorem amount_floor {x i q : Int} (h : IsFloor (x * 10 ^ 12) i q) (h0 : 0 ≤ x) (h1 : x ≤ 2 ^ 127) (hi : SCALE ≤ i) :
    Amount q := by
  obtain ⟨a, b⟩ := h
  have hi : 1 ≤ i := le_trans (by decide) hi
  have hq : 0 ≤ q := b 0 (by omega)
  refine amount_of hq ?_
  nlinarith

/-- The sum of what the events of an unlock report is at least each of them. -/
theorem le_paidOut {s : State} {signer : String} {user : Addr} {v : Int} (l : List Event)
    (hl : ∀ e ∈ l, UnlockEvent s signer user v e) : 0 ≤ paidOut l ∧
    ∀ e ∈ l, (∀ a b d x p, e = .positionUnlocked a b d x p → x ≤ paidOut l) ∧ ∀ a x, e = .rewardClaimed a x → x ≤ paidOut l := by
  induction l with
  | nil => exact ⟨le_refl _, by simp⟩
  | cons e t ih =>
    obtain ⟨h0, h1⟩ := ih fun e he => hl e (List.mem_cons_of_mem _ he)
    rcases hl e List.mem_cons_self with ⟨_, _, _, x, _, _, _, _, hx, _, _, rfl⟩ | ⟨x, _, hx, rfl⟩
    · refine ⟨by show 0 ≤ x + paidOut t; omega, fun e he => ?_⟩
      rcases List.mem_cons.1 he with rfl | he
      · refine ⟨fun _ _ _ _ _ e => ?_, fun _ _ e => (by cases e)⟩
        cases e
        show x ≤ x + paidOut t
        omega
      · refine ⟨fun a b d y p e => ?_, fun a y e => ?_⟩
        · have := (h1 _ he).1 a b d y p e; show y ≤ x + paidOut t; omega
        · have := (h1 _ he).2 a y e; show y ≤ x + paidOut t; omega
    · refine ⟨by show 0 ≤ x + paidOut t; omega, fun e he => ?_⟩
      rcases List.mem_cons.1 he with rfl | he
      · refine ⟨fun _ _ _ _ _ e => (by cases e), fun _ _ e => ?_⟩
        cases e
        show x ≤ x + paidOut t
        omega
      · refine ⟨fun a b d y p e => ?_, fun a y e => ?_⟩
        · have := (h1 _ he).1 a b d y p e; show y ≤ x + paidOut t; omega
        · have := (h1 _ he).2 a y e; show y ≤ x + paidOut t; omega

theorem Small.supply0 {c : Cfg} {s : State} (h : Small c s) : 0 ≤ s.supply := by
  have h0 := h.led.good.bal
  have h1 := balance_le_sum h.shape.bal h0 c.yieldAddr
  have h2 := h.led.sum
  have h3 := h0 c.yieldAddr
  omega

/-- The events of one message. -/
theorem exec_readable {c : Cfg} (hc : c.WF) (hk : Rereads c) {env : Env} {m : Msg} {s s' : State} (hr : Reachable c s)
    (hs : Small c s) (hs' : Small c s') (hi : SCALE ≤ s.index ∧ s.index < 2 ^ 63) (ht : s.totalPrincipal.natAbs < 2 ^ 256)
    (htd : Tidy s) (hn : InWidth m) (hm : m.SignedByUser c) (h : exec c env m s = .ok () s') :
    ∃ new, s'.events = s.events ++ new ∧ ∀ e ∈ new, FieldsFit c e ∧ RealPeers e := by
  have one : ∀ {s' : State} {e : Event}, s'.events = s.events ++ [e] → FieldsFit c e → RealPeers e →
      ∃ new, s'.events = s.events ++ new ∧ ∀ e ∈ new, FieldsFit c e ∧ RealPeers e := by
    intro s' e h1 h2 h3
    exact ⟨[e], h1, fun x hx => by rw [List.mem_singleton.1 hx]; exact ⟨h2, h3⟩⟩
  have silent : ∀ {s' : State}, s'.events = s.events →
      ∃ new, s'.events = s.events ++ new ∧ ∀ e ∈ new, FieldsFit c e ∧ RealPeers e := by
    intro s' h1
    exact ⟨[], by rw [h1, List.append_nil], by simp⟩
  have failed : ∀ p b, packetFailed c p b s = .ok () s' →
      ∃ new, s'.events = s.events ++ new ∧ ∀ e ∈ new, FieldsFit c e ∧ RealPeers e := by
    intro p b hp
    obtain ⟨_, _, n, hmv, rfl⟩ := packetFailed_ok hp
    refine silent ?_
    show n.events = _
    rw [hmv.events]; split <;> rfl
  have i64 : ∀ {x : Int}, 0 ≤ x → x < 2 ^ 63 → In64 x := fun h0 h1 => by unfold In64; omega
  have hI : In64 s.index := by have := hi.1; unfold SCALE at this; exact i64 (by omega) hi.2
  cases m with
  | claimYield signer =>
    obtain ⟨_, a, n, hd, hb, hmv, rfl⟩ := claimYield_ok h
    refine one (e := .yieldClaimed signer (claimable s a)) (by show n.events ++ _ = _; rw [hmv.events]) ?_ trivial
    refine amount_of (claimable_nonneg s a) ?_
    have := (hs.bal c.yieldAddr).2
    rcases hmv.enough with e | e <;> omega
  | setPaused signer p =>
    obtain ⟨_, rfl⟩ := setPaused_ok h
    exact one rfl trivial trivial
  | setYieldRecipient signer p i r =>
    obtain ⟨_, _, rfl⟩ := setYieldRecipient_ok h
    exact one rfl hn trivial
  | deliver vaa =>
    obtain ⟨v, t, mm, h1, h2, h3, hev⟩ := C63_deliver_events hc hr env vaa h
    have hch : v.emitterChain < 2 ^ 32 := by
      obtain ⟨_, v', peer, _, _, _, h1', _, h4, _⟩ := (deliver_ok (show deliver c env vaa s = .ok () s' from h)).run
      cases h1.symm.trans h1'
      exact lt_trans (htd.peers _ (KV.mem_of_get? h4)).1 (by decide)
    have b := hs.led.good
    have s0 : 0 ≤ s.supply ∧ s.supply ≤ 2 ^ 127 := ⟨hs.supply0, hs.sup⟩
    have s1 : 0 ≤ s'.supply ∧ s'.supply ≤ 2 ^ 127 := ⟨hs'.supply0, hs'.sup⟩
    cases hq : content env vaa with
    | none => rw [hq] at hev; exact one hev trivial trivial
    | some q =>
      rw [hq] at hev
      have hr1 := content_announced_range hq
      have hr2 := (content_bounds hq).1
      cases q with
      | index i ch =>
        refine ⟨_, hev, fun e he => ?_⟩
        rcases List.mem_cons.1 he with rfl | he
        · refine ⟨⟨hI, hr1, ht, ?_⟩, trivial⟩
          unfold Amount; omega
        · rw [List.mem_singleton.1 he]; exact ⟨trivial, trivial⟩
      | token x i r ch tok =>
        obtain ⟨upd, hu, hev⟩ := hev
        have hx : (0 : Int) ≤ x ∧ (x : Int) < 2 ^ 64 := ⟨Int.natCast_nonneg x, hr2⟩
        refine ⟨_, by rw [hev, List.append_assoc], fun e he => ?_⟩
        rcases List.mem_append.1 he with he | he
        · rcases hu with rfl | rfl
          · cases he
          · rw [List.mem_singleton.1 he]
            refine ⟨⟨hI, hr1, ht, ?_⟩, trivial⟩
            unfold Amount; omega
        · rcases List.mem_cons.1 he with rfl | he
          · refine ⟨⟨hch, hk.twenty r (content_recipient hq), amount_of hx.1 (by omega), hr1⟩, trivial⟩
          · rcases List.mem_cons.1 he with rfl | he
            · exact ⟨trivial, trivial⟩
            · rw [List.mem_singleton.1 he]; exact ⟨trivial, trivial⟩
  | transfer signer amt? ch tok r =>
    obtain ⟨amt, _, ht⟩ := transfer_ok h
    obtain ⟨d, hev⟩ := ht.log
    obtain ⟨peer, a, n, hp, _⟩ := ht.run
    refine ⟨_, hev, fun e he => ?_⟩
    rcases List.mem_cons.1 he with rfl | he
    · exact ⟨⟨(htd.peers _ (KV.mem_of_get? hp)).1, amount_of ht.nonneg (by have := ht.lt; omega), hI⟩, trivial⟩
    · rcases List.mem_cons.1 he with rfl | he
      · exact ⟨trivial, trivial⟩
      · rw [List.mem_singleton.1 he]; exact ⟨trivial, trivial⟩
  | portalSetPaused signer p =>
    obtain ⟨_, _, rfl⟩ := portalSetPaused_ok h
    exact one rfl trivial trivial
  | setPeer signer ch t mg =>
    obtain ⟨_, _, _, _, _, _, _, _, rfl⟩ := setPeer_ok h
    refine one rfl hn ?_
    intro e
    exact (htd.peers _ (KV.mem_of_get? e)).2 rfl
  | setBridgingPath signer ch t b =>
    obtain ⟨_, _, _, _, _, rfl⟩ := setBridgingPath_ok h
    exact one rfl hn trivial
  | transferOwnership signer o =>
    obtain ⟨_, h1, h2, _, rfl⟩ := transferOwnership_ok h
    exact one rfl trivial trivial
  | lock signer v amt? =>
    obtain ⟨amt, a, rfl, hl⟩ := lock_ok h
    obtain ⟨user, p, _, hp, _, hev⟩ := C63_lock_event hc hr env signer v amt h
    have hb := (hs.bal a).2
    have hf := hl.funds
    refine one hev ⟨hl.vault, hI, amount_of hl.nonneg (by omega), ?_⟩ trivial
    exact amount_floor hp hl.nonneg (by omega) hi.1
  | unlock signer v amt? =>
    obtain ⟨_, _, amt, a, rfl, hl⟩ := unlock_ok h
    have hu : c.IsUser a := hm a hl.dec
    obtain ⟨new, h1, h2, h3, h4⟩ := C63_unlock_events hc hr env signer v amt a hl.dec hu h
    obtain ⟨_, h5⟩ := le_paidOut new h4
    have b1 := (hs.bal a).1
    have b2 := (hs'.bal a).2
    refine ⟨new, h1, fun e he => ?_⟩
    rcases h4 e he with ⟨tm, pos, x, y, p, hg, x0, x1, hy, _, hfl, rfl⟩ | ⟨x, _, hx, rfl⟩
    · have hle := (h5 _ he).1 _ _ _ _ _ rfl
      have hmem := KV.mem_of_get? hg
      obtain ⟨_, e2, e3, _, _⟩ := hs.entry hmem
      have e4 := (hs.v0.entry _ hmem).le
      have e5 := (hs.v0.entry _ hmem).idx
      simp only at e2 e3 e4 e5
      refine ⟨⟨hl.vault, i64 (by omega) (by omega), amount_of hy (by omega), amount_floor hfl x0 (by omega) e3⟩, trivial⟩
    · have hle := (h5 _ he).2 _ _ rfl
      exact ⟨⟨hk.known _ _ hl.dec, amount_of hx (by omega)⟩, trivial⟩
  | vaultsSetPaused signer p =>
    obtain ⟨_, h1, h2, rfl⟩ := vaultsSetPaused_ok h
    exact one rfl ⟨h1, h2⟩ trivial
  | bankSend a b amt =>
    obtain ⟨_, _, hmv⟩ := bankSend_ok h
    exact silent hmv.events
  | keeperSend a b amt =>
    obtain ⟨_, hmv⟩ := keeperSend_ok h
    exact silent hmv.events
  | bankMultiSend a outs =>
    have hu : c.IsUser a := hm
    have hmm := bankMultiSend_ok hc hu.ne_yield hu.ne_module (hr.led hc).good.index.ne' h
    exact silent (congrArg State.events hmm.frame :)
  | ibcTransfer a ch r amt =>
    obtain ⟨_, _, n, hmv, rfl⟩ := userIbcTransfer_ok h
    exact silent hmv.events
  | ibcReceive ch r amt =>
    obtain ⟨_, _, _, n, hmv, rfl⟩ := ibcReceive_ok h
    exact silent hmv.events
  | ibcTimeout p => exact failed p true h
  | ibcAckError p => exact failed p false h
  | ibcAckSuccess p =>
    obtain ⟨_, rfl⟩ := packetAcked_ok h
    exact silent rfl
  | warpCreate t =>
    have h : warpCreate t s = .ok () s' := h
    unfold warpCreate at h
    have h := modify_ok.1 h
    subst h
    split
    · exact silent rfl
    · exact silent rfl
  | warpTransfer a t d r amt =>
    obtain ⟨_, col, n, _, hmv, rfl⟩ := warpSend_ok h
    exact silent hmv.events
  | warpReceive t a amt =>
    obtain ⟨_, _, col, _, _, hmv⟩ := warpReceive_ok h
    exact silent hmv.events

/-- Every event since the start can be read. -/
theorem run_readable {c : Cfg} (hc : c.WF) (hk : Rereads c) {s0 : State} (h0 : Initial c s0) (hlo : 10 ^ 12 ≤ s0.index)
    (hhi : s0.index < 2 ^ 63) (htd : Tidy s0) {h : History} (hsig : History.Signed c h)
    (hn : ∀ e ∈ h, InWidth e.2) (hlen : h.length ≤ 2 ^ 39) :
    ∃ new, (run c h s0).events = s0.events ++ new ∧ ∀ e ∈ new, FieldsFit c e ∧ RealPeers e := by
  induction h using List.reverseRecOn with
  | nil => exact ⟨[], (List.append_nil _).symm, by simp⟩
  | append_singleton t e ih =>
    obtain ⟨env, m⟩ := e
    have hsm : m.SignedByUser c := hsig (env, m) (List.mem_append_right _ List.mem_cons_self)
    have ht : History.Signed c t := fun e he => hsig e (List.mem_append_left _ he)
    have hnt : ∀ e ∈ t, InWidth e.2 := fun e he => hn e (List.mem_append_left _ he)
    have hl : t.length ≤ 2 ^ 39 := by rw [List.length_append] at hlen; omega
    obtain ⟨new, e1, e2⟩ := ih ht hnt hl
    have hr : Reachable c (run c t s0) := .of_run h0 ht
    have hs := (Small.of_run hc h0 hlo hhi ht hl).1
    have hs' := (Small.of_run hc h0 hlo hhi hsig hlen).1
    obtain ⟨hi, -⟩ := C70_absolute hc h0 hlo hhi ht
    have hi' := hlo.trans (C02_index_monotone hc (.fresh h0) t ht)
    obtain ⟨-, hT⟩ := C71_principal_bounded hc h0 hlo hhi ht
    have htot : (run c t s0).totalPrincipal.natAbs < 2 ^ 256 := by
      have hd := deliveries_le c t s0
      have : deliveries c t s0 * t.length ≤ 2 ^ 39 * 2 ^ 39 := Nat.mul_le_mul (by omega) hl
      have : ((deliveries c t s0 * t.length : Nat) : Int) ≤ 2 ^ 39 * 2 ^ 39 := by exact_mod_cast this
      have := abs_le.1 hT
      omega
    have htd' : Tidy (run c t s0) := Tidy.run htd hnt
    rw [run_append] at hs' ⊢
    change Small c (step c env m (run c t s0)) at hs'
    show ∃ new, (step c env m (run c t s0)).events = _ ∧ _
    rcases step_cases c env m (run c t s0) with e | e
    · rw [e]; exact ⟨new, e1, e2⟩
    · obtain ⟨new', f1, f2⟩ := exec_readable hc hk hr hs hs' ⟨hi', hi⟩ htot htd'
        (hn (env, m) (List.mem_append_right _ List.mem_cons_self)) hsm e
      refine ⟨new ++ new', by rw [f1, e1, List.append_assoc], fun x hx => ?_⟩
      rcases List.mem_append.1 hx with hx | hx
      · exact e2 x hx
      · exact f2 x hx

/-- The two untyped events are no typed ones to the explorer. -/
theorem readShown_plain (c : Cfg) {e : Event} (h : ¬ Typed e) : readShown c (shown (abci c e)) = none := by
  have hk : (shown (abci c e)).1 = "transfer_sent" := kind_plain c h
  unfold readShown understood
  rw [hk]
  cases (shown (abci c e)).2.mapM (fun f => (unquote f.2).map fun s => (f.1, utf8 s)) with
  | none => rfl
  | some l => rfl

theorem readShown_typed (c : Cfg) {e : Event} (h : Typed e) (hf : FieldsFit c e) (hp : RealPeers e) :
    readShown c (shown (abci c e)) = some e := C114_recovers c h hf hp

theorem observe_shown {c : Cfg} {e : Event} (hf : FieldsFit c e) (hp : RealPeers e) {v w : Indexer} (hv : v.nonce < 2 ^ 32)
    (hw : v.follow e = some w) : observe c v (shown (abci c e)) = some w ∧ w.nonce < 2 ^ 32 := by
  have hn : w.nonce < 2 ^ 32 := by
    cases e <;> simp only [Indexer.follow, Option.ite_none_right_eq_some, Option.some.injEq] at hw
    case positionLocked =>
      split at hw
      · cases hw; exact hv
      · split at hw
        · cases hw; exact hv
        · cases hw
    case positionUnlocked =>
      split at hw
      · cases hw; exact hv
      · split at hw
        · cases hw; exact hv
        · cases hw
    case transferSent => rw [← hw.2]; exact Nat.mod_lt _ (by decide)
    all_goals first | (rw [← hw]; exact hv) | (rw [← hw.2]; exact hv)
  refine ⟨?_, hn⟩
  unfold observe
  by_cases ht : Typed e
  · rw [readShown_typed c ht hf hp]
    exact hw
  · rw [readShown_plain c ht]
    cases e <;> first | exact absurd trivial ht | skip
    case transferSent r x ch n =>
      simp only [Indexer.follow, Option.ite_none_right_eq_some, Option.some.injEq] at hw
      obtain ⟨rfl, hw⟩ := hw
      have hs : sequence (shown (abci c (.transferSent r x ch v.nonce))) = some v.nonce := by
        unfold sequence
        have e1 : ((shown (abci c (.transferSent r x ch v.nonce))).2.lookup "msg_sequence") =
            some (quote (runes (utf8 (toString v.nonce).toList))) := rfl
        have hq := string_quote (toString v.nonce).toList []
        rw [List.append_nil] at hq
        rw [if_pos (show (shown (abci c (.transferSent r x ch v.nonce))).1 = "transfer_sent" from rfl), e1, runes_utf8]
        simp only [Option.bind_some]
        unfold unquote
        rw [hq]
        simp only [Option.bind_some]
        exact uint32_ofNum hv
      rw [hs]
      exact (if_pos rfl).trans (congrArg some hw)
    case transferSentDigest d =>
      have hs : sequence (shown (abci c (.transferSentDigest d))) = none := rfl
      rw [hs]
      exact hw

theorem observe_all {c : Cfg} (l : List Event) (hl : ∀ e ∈ l, FieldsFit c e ∧ RealPeers e) {v w : Indexer}
    (hv : v.nonce < 2 ^ 32) (hw : v.replay l = some w) :
    (l.map fun e => shown (abci c e)).foldlM (observe c) v = some w := by
  induction l generalizing v with
  | nil => exact hw
  | cons e t ih =>
    rw [replay_cons] at hw
    obtain ⟨u, hu, hw⟩ := Option.bind_eq_some_iff.1 hw
    obtain ⟨h1, h2⟩ := observe_shown (hl e List.mem_cons_self).1 (hl e List.mem_cons_self).2 hv hu
    rw [List.map_cons, List.foldlM_cons, h1]
    exact ih (fun e he => hl e (List.mem_cons_of_mem _ he)) h2 hw

/-- C123: what an explorer reads in the JSON log of a node are exactly the typed events of the chain, in their order. -/
theorem C123_reads {c : Cfg} (hc : c.WF) (hk : Rereads c) {s0 : State} (h0 : Initial c s0) (he : s0.events = [])
    (hlo : 10 ^ 12 ≤ s0.index) (hhi : s0.index < 2 ^ 63) (htd : Tidy s0) {h : History} (hsig : History.Signed c h)
    (hn : ∀ e ∈ h, InWidth e.2) (hlen : h.length ≤ 2 ^ 39) :
    (seen c (run c h s0)).filterMap (readShown c) = (run c h s0).events.filter fun e => decide (Typed e) := by
  obtain ⟨new, e1, e2⟩ := run_readable hc hk h0 hlo hhi htd hsig hn hlen
  rw [he, List.nil_append] at e1
  unfold seen
  rw [e1]
  clear e1
  induction new with
  | nil => rfl
  | cons e t ih =>
    have ih := ih fun e he => e2 e (List.mem_cons_of_mem _ he)
    obtain ⟨f1, f2⟩ := e2 e List.mem_cons_self
    rw [List.map_cons, List.filterMap_cons, List.filter_cons]
    by_cases ht : Typed e
    · rw [readShown_typed c ht f1 f2, decide_eq_true ht]
      simp only [if_true]
      rw [ih]
    · rw [readShown_plain c ht, decide_eq_false ht]
      exact ih

/-- C123: an explorer that knows the state at the start and follows the JSON log never gives up, and knows at the end what
the chain has: settings, index, sequence number, vault statistics and bridged supply. -/
theorem C123_explorer {c : Cfg} (hc : c.WF) (hk : Rereads c) {s0 : State} (h0 : Initial c s0) (he : s0.events = [])
    (hlo : 10 ^ 12 ≤ s0.index) (hhi : s0.index < 2 ^ 63) (htd : Tidy s0) {h : History} (hsig : History.Signed c h)
    (hn : ∀ e ∈ h, InWidth e.2) (hlen : h.length ≤ 2 ^ 39) :
    (seen c (run c h s0)).foldlM (observe c) (onChain s0) = some (onChain (run c h s0)) := by
  obtain ⟨new, e1, e2⟩ := run_readable hc hk h0 hlo hhi htd hsig hn hlen
  obtain ⟨new', e3, e4⟩ := C61_log_complete hc (.fresh h0) h hsig
  rw [e1] at e3
  have := List.append_cancel_left e3
  subst this
  rw [he, List.nil_append] at e1
  unfold seen
  rw [e1]
  exact observe_all new e2 h0.nonce e4

/-- C123: the address codec of the chain (bech32) is one of those the theorems speak of. -/
theorem C123_codec {pre : String} {c : Cfg} (h : ChainCodec pre c) : Rereads c where
  twenty := fun a ha => by
    rw [h.decode, h.encode]
    exact C113_roundtrip pre h.ok a (by omega) (by omega)
  known := fun x a hx => by
    rw [h.decode] at hx ⊢
    rw [h.encode]
    have := ((C113_spellings pre h.ok x a).1 hx).2
    exact C113_roundtrip pre h.ok a this.1 this.2

theorem Demo.rereads : Rereads Demo.cfg :=
  ⟨fun a ha => Demo.decode_encode_of_short a (by omega), Demo.decode_encode⟩

/-- Non-vacuity: a chain with deliveries, transfers, locks, claims and settings. -/
example : Rereads Demo.cfg ∧ Initial Demo.cfg Demo.start ∧ Demo.start.events = [] ∧ 10 ^ 12 ≤ Demo.start.index ∧
    Demo.start.index < 2 ^ 63 ∧ Tidy Demo.start ∧ History.Signed Demo.cfg Demo.hist2 ∧ (∀ e ∈ Demo.hist2, InWidth e.2) ∧
    Demo.hist2.length ≤ 2 ^ 39 ∧
    ((seen Demo.cfg (run Demo.cfg Demo.hist2 Demo.start)).filterMap (readShown Demo.cfg)).length = 20 ∧
    (onChain (run Demo.cfg Demo.hist2 Demo.start)).nonce = 1 :=
  ⟨Demo.rereads, Demo.start_initial, rfl, by decide, by decide, ⟨by decide, by decide⟩, Demo.hist2_signed, by decide,
    by decide, by decide +kernel, by decide +kernel⟩

/-- The explorer of that chain. -/
example : (seen Demo.cfg (run Demo.cfg Demo.hist2 Demo.start)).foldlM (observe Demo.cfg) (onChain Demo.start) =
    some (onChain (run Demo.cfg Demo.hist2 Demo.start)) :=
  C123_explorer Demo.cfg_wf Demo.rereads Demo.start_initial rfl (by decide) (by decide) ⟨by decide, by decide⟩
    Demo.hist2_signed (by decide) (by decide)

/-- What is asked of the messages is needed: the update of a peer whose chain number is no 16-bit number would not be read back;
no such message can be written on the wire.  A provider that the enumeration does not name is read back. -/
example :
    let peer : Msg := .setPeer Demo.start.owner (2 ^ 16) (List.replicate 32 1) (List.replicate 32 2)
    let recipient : Msg := .setYieldRecipient Demo.cfg.authority 7 "x" (Demo.encode Demo.alice)
    ((seen Demo.cfg (step Demo.cfg (Demo.env 1) peer Demo.start)).map fun x => (readShown Demo.cfg x).isSome) = [false] ∧
    (seen Demo.cfg (step Demo.cfg (Demo.env 1) recipient Demo.start)).filterMap (readShown Demo.cfg) =
      [.yieldRecipientSet 7 "x" (Demo.encode Demo.alice)] ∧
    ¬ InWidth peer ∧ InWidth recipient := by decide +kernel

/-- An explorer that takes a sequence number it does not expect for an error would have noticed a lost event. -/
example :
    let log := seen Demo.cfg (run Demo.cfg Demo.hist2 Demo.start)
    ((log.dropLast.map sequence).filterMap id) = [0] ∧
    ((log ++ log).foldlM (observe Demo.cfg) (onChain Demo.start)).isNone := by decide +kernel

end Dollar
