import Verif.Lemmas.Events
import Verif.Spec.Logs
import Verif.Spec.Demo
import Verif.Props.C61

/-
C114: the events that leave the chain say what happened.  Whoever follows the chain through its events (an explorer, an
accountant, a relayer) reads ABCI events, and usually their JSON.  Every typed event can be read back from it, two
different events never look the same, and the log that a node shows determines the state as far as the events speak of
it.  The two events that imitate other Wormhole bridges put raw bytes into attributes, and these cannot be read back.
-/
namespace Dollar

open Json Spec

theorem typed_some (c : Cfg) {e : Event} (h : Typed e) : ∃ k fs, typedFields c e = some (k, fs) := by
  cases e <;> first | exact ⟨_, _, rfl⟩ | exact h.elim

theorem typed_none (c : Cfg) {e : Event} (h : ¬ Typed e) : typedFields c e = none := by
  cases e <;> first | rfl | exact absurd trivial h

/-- The attributes of a typed event are the fields of its message, in the strict order of their names, each with the JSON of its
value. -/
theorem C114_attributes (c : Cfg) {e : Event} {k : String} {fs : List (String × J)} (h : typedFields c e = some (k, fs)) :
    (abci c e).kind = k ∧ KV.Sorted (abci c e).attrs ∧
      ∀ n v, (n, v) ∈ (abci c e).attrs ↔ ∃ j, (n, j) ∈ fs ∧ v = utf8 j.text := by
  obtain ⟨-, hn⟩ := typed_ok c h
  have hp := goMap_perm (fs.map fun f => (f.1, utf8 f.2.text)) (by rw [List.map_map]; exact hn)
  have e1 : abci c e = ⟨k, goMap (fs.map fun f => (f.1, utf8 f.2.text))⟩ := by
    unfold abci
    rw [h]
  rw [e1]
  refine ⟨rfl, goMap_sorted _, fun n v => ?_⟩
  rw [hp.mem_iff, List.mem_map]
  constructor
  · rintro ⟨⟨m, j⟩, hm, he⟩
    cases he
    exact ⟨j, hm, rfl⟩
  · rintro ⟨j, hm, rfl⟩
    exact ⟨(n, j), hm, rfl⟩

/-- A client that decodes the JSON strings it is shown has the ABCI event. -/
theorem understood_shown (c : Cfg) {e : Event} (h : Typed e) : understood (shown (abci c e)) = some (abci c e) := by
  obtain ⟨k, fs, hf⟩ := typed_some c h
  have hm : ((abci c e).attrs.map fun f => (f.1, quote (runes f.2))).mapM
      (fun f => (unquote f.2).map fun s => (f.1, utf8 s)) = some (abci c e).attrs := by
    rw [List.mapM_map]
    have := mapM_some (f := (fun f => (unquote f.2).map fun s => (f.1, utf8 s)) ∘
      fun f : String × Bytes => (f.1, quote (runes f.2))) (g := id) (l := (abci c e).attrs) (by
        intro f hm
        show (unquote (quote (runes f.2))).map _ = _
        have hq := string_quote (runes f.2) []
        rw [List.append_nil] at hq
        unfold unquote
        rw [hq]
        show some (f.1, utf8 (runes f.2)) = some f
        rw [typed_runes hf hm])
    rw [List.map_id] at this
    exact this
  unfold understood shown
  rw [hm]
  rfl

theorem enum_vault {v : Int} (h : v = 1 ∨ v = 2) : enumOf vaultNames (.ofString (enumText vaultNames v)) = some v := by
  unfold enumOf
  rw [toStr_ofString]
  rcases h with rfl | rfl <;> decide

theorem enum_paused {p : Int} (h : 0 ≤ p ∧ p ≤ 3) : enumOf pausedNames (.ofString (enumText pausedNames p)) = some p := by
  unfold enumOf
  rw [toStr_ofString]
  obtain rfl | rfl | rfl | rfl : p = 0 ∨ p = 1 ∨ p = 2 ∨ p = 3 := by omega
  all_goals decide

theorem enum_provider {p : Int} (h : -2 ^ 31 ≤ p ∧ p < 2 ^ 31) :
    (J.ofEnum providerNames p).toEnum providerNames = some p := by
  by_cases h0 : p = 0
  · subst h0; decide
  by_cases h1 : p = 1
  · subst h1; decide
  have e : providerNames.lookup p = none := by
    unfold providerNames
    rw [List.lookup_cons, beq_eq_false_iff_ne.2 h0]
    dsimp only
    rw [List.lookup_cons, beq_eq_false_iff_ne.2 h1]
    rfl
  unfold J.ofEnum
  rw [e]
  exact readLit_toString h.1 h.2

theorem int64_ofBig {x : Int} (h : In64 x) : int64 (.ofBig x) = some x := toNum_ofBig h.1 h.2

theorem uint32_ofNum {n : Nat} (h : n < 2 ^ 32) : uint32 (.ofNum n) = some n := by
  unfold uint32
  rw [toNum_ofNum (by omega) (by omega)]
  rfl

theorem account_ofString {c : Cfg} {r : Addr} (h : c.decode (c.encode r) = some r) :
    accountOf c (.ofString (c.encode r)) = some r := by
  unfold accountOf
  rw [toStr_ofString, Option.bind_some, h]

theorem toBytes_ofOld (b : Bytes) : (J.ofOld b).toBytes = some b := by
  unfold J.ofOld
  split
  · next h => rw [h]; rfl
  · exact toBytes_ofBytes b

/-- A field is found by its name. -/
theorem attr_lookup {α : Type} (c : Cfg) {e : Event} {k : String} {fs : List (String × J)}
    (h : typedFields c e = some (k, fs)) (name : String) (read : J → Option α) {j : J} {x : α}
    (hl : fs.lookup name = some j) (hx : read j = some x) : attr (abci c e) name read = some x := by
  rw [attr_typed c h (j := j) ?_ read, hx]
  clear h hx
  induction fs with
  | nil => cases hl
  | cons f t ih =>
    rw [List.lookup_cons] at hl
    by_cases he : name = f.1
    · subst he
      rw [beq_self_eq_true] at hl
      cases hl
      exact List.mem_cons_self
    · rw [beq_eq_false_iff_ne.2 he] at hl
      exact List.mem_cons_of_mem _ (ih hl)

theorem readTyped_abci (c : Cfg) {e : Event} (ht : Typed e) (hf : FieldsFit c e) (hp : RealPeers e) :
    readTyped c (abci c e) = some e := by
  cases e
  case transferSent => exact ht.elim
  case transferSentDigest => exact ht.elim
  all_goals unfold readTyped
  case pausedSet b => cases b <;> (rw [kind_typed c rfl]; rfl)
  case portalPausedSet b => cases b <;> (rw [kind_typed c rfl]; rfl)
  all_goals
    rw [kind_typed c rfl]
    repeat rw [if_neg (by decide)]
    rw [if_pos rfl]
  case yieldClaimed a x =>
    rw [attr_lookup c rfl "account" _ rfl (toStr_ofString _),
      attr_lookup c rfl "amount" _ rfl (toBig_ofBig hf)]
    rfl
  case indexUpdated o n p y =>
    rw [attr_lookup c rfl "old_index" _ rfl (int64_ofBig hf.1),
      attr_lookup c rfl "new_index" _ rfl (int64_ofBig hf.2.1),
      attr_lookup c rfl "total_principal" _ rfl (toBig_ofBig hf.2.2.1),
      attr_lookup c rfl "yield_accrued" _ rfl (toBig_ofBig hf.2.2.2)]
    rfl
  case mTokenReceived ch t f r x i m =>
    rw [attr_lookup c rfl "source_chain_id" _ rfl (uint32_ofNum hf.1),
      attr_lookup c rfl "destination_token" _ rfl (toBytes_ofBytes _),
      attr_lookup c rfl "sender" _ rfl (toBytes_ofBytes _),
      attr_lookup c rfl "recipient" _ rfl (account_ofString hf.2.1),
      attr_lookup c rfl "amount" _ rfl (toBig_ofBig hf.2.2.1),
      attr_lookup c rfl "index" _ rfl (int64_ofBig hf.2.2.2),
      attr_lookup c rfl "message_id" _ rfl (toBytes_ofBytes _)]
    rfl
  case transferRedeemed d =>
    rw [attr_lookup c rfl "digest" _ rfl (toBytes_ofBytes _)]
    rfl
  case delivered d =>
    rw [attr_lookup c rfl "vaa" _ rfl (toBytes_ofBytes _)]
    rfl
  case usdnTokenSent ch t f r x i m =>
    rw [attr_lookup c rfl "destination_chain_id" _ rfl (toUint16_ofNum hf.1),
      attr_lookup c rfl "destination_token" _ rfl (toBytes_ofBytes _),
      attr_lookup c rfl "sender" _ rfl (toStr_ofString _),
      attr_lookup c rfl "recipient" _ rfl (toBytes_ofBytes _),
      attr_lookup c rfl "amount" _ rfl (toBig_ofBig hf.2.1),
      attr_lookup c rfl "index" _ rfl (int64_ofBig hf.2.2),
      attr_lookup c rfl "message_id" _ rfl (toBytes_ofBytes _)]
    rfl
  case peerUpdated ch o n =>
    rw [attr_lookup c rfl "chain" _ rfl (toUint16_ofNum hf),
      attr_lookup c rfl "old_transceiver" _ rfl (toBytes_ofOld _),
      attr_lookup c rfl "old_manager" _ rfl (toBytes_ofOld _),
      attr_lookup c rfl "new_transceiver" _ rfl (toBytes_ofBytes _),
      attr_lookup c rfl "new_manager" _ rfl (toBytes_ofBytes _)]
    show some (Event.peerUpdated ch (oldPeer _ _) n) = _
    rw [old_fields hp]
  case bridgingPathSet ch t b =>
    rw [attr_lookup c rfl "destination_chain_id" _ rfl (toUint16_ofNum hf),
      attr_lookup c rfl "destination_token" _ rfl (toBytes_ofBytes _),
      attr_lookup c rfl "supported" _ rfl (show J.toBool (.bool b) = some b from rfl)]
    rfl
  case ownershipTransferred o n =>
    rw [attr_lookup c rfl "previous_owner" _ rfl (toStr_ofString _),
      attr_lookup c rfl "new_owner" _ rfl (toStr_ofString _)]
    rfl
  case yieldRecipientSet p i r =>
    rw [attr_lookup c rfl "provider" _ rfl (enum_provider hf),
      attr_lookup c rfl "identifier" _ rfl (toStr_ofString _),
      attr_lookup c rfl "recipient" _ rfl (toStr_ofString _)]
    rfl
  case positionLocked a v i x p =>
    rw [attr_lookup c rfl "account" _ rfl (toStr_ofString _),
      attr_lookup c rfl "vault_type" _ rfl (enum_vault hf.1),
      attr_lookup c rfl "index" _ rfl (int64_ofBig hf.2.1),
      attr_lookup c rfl "amount" _ rfl (toBig_ofBig hf.2.2.1),
      attr_lookup c rfl "principal" _ rfl (toBig_ofBig hf.2.2.2)]
    rfl
  case positionUnlocked a v i x p =>
    rw [attr_lookup c rfl "account" _ rfl (toStr_ofString _),
      attr_lookup c rfl "vault_type" _ rfl (enum_vault hf.1),
      attr_lookup c rfl "index" _ rfl (int64_ofBig hf.2.1),
      attr_lookup c rfl "amount" _ rfl (toBig_ofBig hf.2.2.1),
      attr_lookup c rfl "principal" _ rfl (toBig_ofBig hf.2.2.2)]
    rfl
  case rewardClaimed r x =>
    rw [attr_lookup c rfl "account" _ rfl (account_ofString hf.1),
      attr_lookup c rfl "amount" _ rfl (toBig_ofBig hf.2)]
    rfl
  case vaultsPausedSet p =>
    rw [attr_lookup c rfl "paused" _ rfl (enum_paused hf)]
    rfl

/-- C114: whoever is shown a typed event can read back exactly the event. -/
theorem C114_recovers (c : Cfg) {e : Event} (ht : Typed e) (hf : FieldsFit c e) (hp : RealPeers e) :
    (understood (shown (abci c e))).bind (readTyped c) = some e := by
  rw [understood_shown c ht, Option.bind_some, readTyped_abci c ht hf hp]

theorem decimal_inj {x y : Int} (h : utf8 (toString x).toList = utf8 (toString y).toList) : x = y :=
  toStringInt_inj (String.toList_inj.1 (utf8_inj h))

/-- C114: two different events are never the same ABCI event, whatever their numbers. -/
theorem C114_injective {c : Cfg} (hc : c.WF) {e e' : Event} (hp : RealPeers e) (hp' : RealPeers e')
    (h : abci c e = abci c e') : e = e' := by
  by_cases ht : Typed e <;> by_cases ht' : Typed e'
  · obtain ⟨k, fs, hf⟩ := typed_some c ht
    obtain ⟨k', fs', hf'⟩ := typed_some c ht'
    rcases abci_alike hc.encode_inj hf hf' h with rfl | ⟨ch, o, o', n, rfl, rfl, h1, h2⟩
    · rfl
    · have : o = o' := by rw [← old_fields hp, ← old_fields hp', h1, h2]
      rw [this]
  · obtain ⟨k, fs, hf⟩ := typed_some c ht
    have hk := congrArg Abci.kind h
    rw [kind_typed c hf] at hk
    unfold abci at hk
    rw [typed_none c ht'] at hk
    cases hk
    exact absurd hf kind_ne
  · obtain ⟨k, fs, hf⟩ := typed_some c ht'
    have hk := congrArg Abci.kind h
    rw [kind_typed c hf] at hk
    unfold abci at hk
    rw [typed_none c ht] at hk
    cases hk
    exact absurd hf kind_ne
  · have ha := congrArg Abci.attrs h
    unfold abci at ha
    rw [typed_none c ht, typed_none c ht'] at ha
    cases e <;> first | exact absurd trivial ht | skip
    all_goals cases e' <;> first | exact absurd trivial ht' | skip
    all_goals simp only [plainFields, List.cons.injEq, Prod.mk.injEq, true_and, and_true, reduceCtorEq] at ha
    · obtain ⟨rfl, h2, h3, h4⟩ := ha
      rw [decimal_inj h2, Int.ofNat.inj (decimal_inj h3), Int.ofNat.inj (decimal_inj h4)]
    · exact absurd ha.1.1 (by decide)
    · exact absurd ha.1.1 (by decide)
    · rw [ha]

theorem kind_plain (c : Cfg) {e : Event} (h : ¬ Typed e) : (abci c e).kind = "transfer_sent" := by
  unfold abci
  rw [typed_none c h]

/-- An indexer that is shown the same learns the same. -/
theorem follow_shown {c : Cfg} (hc : c.WF) {e e' : Event} (h : shown (abci c e) = shown (abci c e')) {v w w' : Indexer}
    (hw : v.follow e = some w) (hw' : v.follow e' = some w') : w = w' := by
  have hk : (abci c e).kind = (abci c e').kind := congrArg Prod.fst h
  by_cases ht : Typed e <;> by_cases ht' : Typed e'
  · obtain ⟨k, fs, hf⟩ := typed_some c ht
    obtain ⟨k', fs', hf'⟩ := typed_some c ht'
    rcases abci_alike hc.encode_inj hf hf' (shown_inj hf hf' h) with rfl | ⟨ch, o, o', n, rfl, rfl, -, -⟩
    · exact Option.some.inj (hw.symm.trans hw')
    · unfold Indexer.follow at hw hw'
      simp only [Option.ite_none_right_eq_some] at hw hw'
      exact Option.some.inj (hw.2.symm.trans hw'.2)
  · obtain ⟨k, fs, hf⟩ := typed_some c ht
    rw [kind_typed c hf, kind_plain c ht'] at hk
    subst hk
    exact absurd hf kind_ne
  · obtain ⟨k, fs, hf⟩ := typed_some c ht'
    rw [kind_typed c hf, kind_plain c ht] at hk
    subst hk
    exact absurd hf kind_ne
  · have ha : (plainFields e).map (fun f => (f.1, quote (runes f.2))) =
        (plainFields e').map fun f => (f.1, quote (runes f.2)) := by
      have := congrArg Prod.snd h
      unfold abci shown at this
      rw [typed_none c ht, typed_none c ht'] at this
      exact this
    cases e <;> first | exact absurd trivial ht | skip
    all_goals cases e' <;> first | exact absurd trivial ht' | skip
    all_goals simp only [plainFields, List.map_cons, List.map_nil, List.cons.injEq, Prod.mk.injEq, true_and, and_true,
      reduceCtorEq] at ha
    · obtain ⟨-, -, -, h4⟩ := ha
      have h5 := quote_inj h4
      rw [runes_utf8, runes_utf8] at h5
      have h6 := Int.ofNat.inj (toStringInt_inj (String.toList_inj.1 h5))
      unfold Indexer.follow at hw hw'
      simp only [Option.ite_none_right_eq_some] at hw hw'
      subst h6
      exact Option.some.inj (hw.2.symm.trans hw'.2)
    · exact absurd ha.1.1 (by decide)
    · exact absurd ha.1.1 (by decide)
    · exact Option.some.inj (hw.symm.trans hw')

theorem replay_shown {c : Cfg} (hc : c.WF) (l l' : List Event)
    (h : l.map (fun e => shown (abci c e)) = l'.map fun e => shown (abci c e)) {v w w' : Indexer}
    (hw : v.replay l = some w) (hw' : v.replay l' = some w') : w = w' := by
  induction l generalizing l' v with
  | nil =>
    cases l' with
    | nil => exact Option.some.inj (hw.symm.trans hw')
    | cons => cases h
  | cons e t ih =>
    cases l' with
    | nil => cases h
    | cons e' t' =>
      obtain ⟨h1, h2⟩ := List.cons.inj h
      rw [replay_cons] at hw hw'
      obtain ⟨u, hu, hw⟩ := Option.bind_eq_some_iff.1 hw
      obtain ⟨u', hu', hw'⟩ := Option.bind_eq_some_iff.1 hw'
      cases follow_shown hc h1 hu hu'
      exact ih t' h2 hw hw'

/-- C114: the log that a node shows determines the settings, the index, the sequence number of transfers, the vault statistics
and the bridged part of the supply: two histories with the same log cannot differ in them. -/
theorem C114_log {c : Cfg} (hc : c.WF) {s : State} (hr : Reachable c s) (h h' : History)
    (hsig : History.Signed c h) (hsig' : History.Signed c h') (hs : seen c (run c h s) = seen c (run c h' s)) :
    onChain (run c h s) = onChain (run c h' s) := by
  obtain ⟨n, e, r⟩ := C61_log_complete hc hr h hsig
  obtain ⟨n', e', r'⟩ := C61_log_complete hc hr h' hsig'
  unfold seen at hs
  rw [e, e', List.map_append, List.map_append] at hs
  exact replay_shown hc n n' (List.append_cancel_left hs) r r'

theorem runesN_cont (n : Nat) (d : Bytes) (hd : ∀ b ∈ d, 0x80 ≤ b ∧ b < 0xc0) :
    runesN n d = List.replicate (min n d.length) (Char.ofNat 0xfffd) := by
  induction n generalizing d with
  | zero => simp [runesN]
  | succ n ih =>
    cases d with
    | nil => simp [runesN]
    | cons b t =>
      have hb := hd b List.mem_cons_self
      have e : decodeRune b t = (Char.ofNat 0xfffd, t) := by
        unfold decodeRune
        have h1 : 0x80 ≤ b.toNat := hb.1
        have h2 : b.toNat < 0xc0 := hb.2
        simp only
        rw [if_neg (by omega), if_pos (by omega)]
      rw [runesN]
      simp only [e]
      rw [ih t fun x hx => hd x (List.mem_cons_of_mem _ hx), List.length_cons, Nat.succ_min_succ, List.replicate_succ]

/-- C114: the digest in `transfer_sent` cannot be relied on: digests whose bytes are no text are shown alike (here those of
bytes between 0x80 and 0xbf, of which there are 64 to the 32). -/
theorem C114_digest_lost (c : Cfg) {d d' : Bytes} (hl : d.length = d'.length) (hd : ∀ b ∈ d, 0x80 ≤ b ∧ b < 0xc0)
    (hd' : ∀ b ∈ d', 0x80 ≤ b ∧ b < 0xc0) :
    shown (abci c (.transferSentDigest d)) = shown (abci c (.transferSentDigest d')) := by
  have e : runes d = runes d' := by
    unfold runes
    rw [runesN_cont _ d hd, runesN_cont _ d' hd', Nat.min_self, Nat.min_self, hl]
  unfold abci shown typedFields plainFields
  simp only [List.map_cons, List.map_nil, e]

/-- C114: the same holds for its recipient. -/
theorem C114_recipient_lost (c : Cfg) {d d' : Bytes} (hl : d.length = d'.length) (hd : ∀ b ∈ d, 0x80 ≤ b ∧ b < 0xc0)
    (hd' : ∀ b ∈ d', 0x80 ≤ b ∧ b < 0xc0) (x : Int) (ch n : Nat) :
    shown (abci c (.transferSent d x ch n)) = shown (abci c (.transferSent d' x ch n)) := by
  have e : runes d = runes d' := by
    unfold runes
    rw [runesN_cont _ d hd, runesN_cont _ d' hd', Nat.min_self, Nat.min_self, hl]
  unfold abci shown typedFields plainFields
  simp only [List.map_cons, List.map_nil, e]

/-- C114: how bytes are shown.  A character is shown as it is; a byte with which no character begins is shown as U+FFFD. -/
theorem C114_bytes_shown :
    runes [] = [] ∧ (∀ ch t, runes (utf8 [ch] ++ t) = ch :: runes t) ∧
    ∀ b t, (∀ ch r, b :: t ≠ utf8 [ch] ++ r) → runes (b :: t) = Char.ofNat 0xfffd :: runes t := by
  have hu : ∀ ch, utf8 [ch] = encodeRune ch := fun ch => by simp [utf8]
  refine ⟨rfl, fun ch t => ?_, fun b t h => ?_⟩
  · obtain ⟨b, r, e1, e2⟩ := decode_encode ch t
    rw [hu, e1, List.cons_append, runes_cons, e2]
  · rcases decode_cases b t with h1 | ⟨ch, r, _, h2⟩
    · rw [runes_cons, h1]
    · exact absurd (h2.trans (by rw [hu])) (h ch r)

/-- C114: bytes that are a text, and only those, are shown as they are. -/
theorem C114_text_shown (b : Bytes) : utf8 (runes b) = b ↔ ∃ l, b = utf8 l :=
  ⟨fun h => ⟨_, h.symm⟩, fun ⟨l, h⟩ => by rw [h, runes_utf8]⟩

/-- The text of what is shown. -/
def Spec.shownText (c : Cfg) (e : Event) : String × List (String × String) :=
  ((shown (abci c e)).1, (shown (abci c e)).2.map fun f => (f.1, String.ofList f.2))

/-- Non-vacuity: events of every kind, as they are shown; all but the last two are read back. -/
example :
    shownText Demo.cfg (.yieldClaimed "alice" 5) =
      ("noble.dollar.v1.YieldClaimed", [("account", "\"\\\"alice\\\"\""), ("amount", "\"\\\"5\\\"\"")]) ∧
    shownText Demo.cfg (.indexUpdated 1 2 (-3) 4) =
      ("noble.dollar.v1.IndexUpdated", [("new_index", "\"\\\"2\\\"\""), ("old_index", "\"\\\"1\\\"\""),
        ("total_principal", "\"\\\"-3\\\"\""), ("yield_accrued", "\"\\\"4\\\"\"")]) ∧
    shownText Demo.cfg (.pausedSet true) = ("noble.dollar.v1.Paused", []) ∧
    shownText Demo.cfg (.pausedSet false) = ("noble.dollar.v1.Unpaused", []) ∧
    shownText Demo.cfg (.portalPausedSet true) = ("noble.dollar.portal.v1.Paused", []) ∧
    shownText Demo.cfg (.portalPausedSet false) = ("noble.dollar.portal.v1.Unpaused", []) ∧
    shownText Demo.cfg (.mTokenReceived 2 [1, 2] [3] [2, 1] 1000 1100000000000 [9, 9, 9]) =
      ("noble.dollar.portal.v1.MTokenReceived",
        [("amount", "\"\\\"1000\\\"\""), ("destination_token", "\"\\\"AQI=\\\"\""),
         ("index", "\"\\\"1100000000000\\\"\""), ("message_id", "\"\\\"CQkJ\\\"\""),
         ("recipient", "\"\\\"Ăā\\\"\""), ("sender", "\"\\\"Aw==\\\"\""), ("source_chain_id", "\"2\"")]) ∧
    shownText Demo.cfg (.transferRedeemed [65, 255]) =
      ("noble.dollar.portal.v1.TransferRedeemed", [("digest", "\"\\\"Qf8=\\\"\"")]) ∧
    shownText Demo.cfg (.delivered [65, 255]) =
      ("noble.dollar.portal.v1.Delivered", [("vaa", "\"\\\"Qf8=\\\"\"")]) ∧
    shownText Demo.cfg (.usdnTokenSent 2 [1, 2] "bob" [255] 33 77 [9]) =
      ("noble.dollar.portal.v1.USDNTokenSent",
        [("amount", "\"\\\"33\\\"\""), ("destination_chain_id", "\"2\""), ("destination_token", "\"\\\"AQI=\\\"\""),
         ("index", "\"\\\"77\\\"\""), ("message_id", "\"\\\"CQ==\\\"\""), ("recipient", "\"\\\"/w==\\\"\""),
         ("sender", "\"\\\"bob\\\"\""), ("source_token",
           "\"\\\"" ++ String.join (List.replicate 27 "\\\\u0000") ++ "uusdn\\\"\"")]) := by decide +kernel

example :
    shownText Demo.cfg (.peerUpdated 2 none ⟨[1], [2]⟩) =
      ("noble.dollar.portal.v1.PeerUpdated",
        [("chain", "\"2\""), ("new_manager", "\"\\\"Ag==\\\"\""), ("new_transceiver", "\"\\\"AQ==\\\"\""),
         ("old_manager", "\"null\""), ("old_transceiver", "\"null\"")]) ∧
    shownText Demo.cfg (.peerUpdated 2 (some ⟨[3], [4]⟩) ⟨[1], [2]⟩) =
      ("noble.dollar.portal.v1.PeerUpdated",
        [("chain", "\"2\""), ("new_manager", "\"\\\"Ag==\\\"\""), ("new_transceiver", "\"\\\"AQ==\\\"\""),
         ("old_manager", "\"\\\"BA==\\\"\""), ("old_transceiver", "\"\\\"Aw==\\\"\"")]) ∧
    shownText Demo.cfg (.bridgingPathSet 2 [1, 2, 3] true) =
      ("noble.dollar.portal.v1.BridgingPathSet",
        [("destination_chain_id", "\"2\""), ("destination_token", "\"\\\"AQID\\\"\""), ("supported", "\"true\"")]) ∧
    shownText Demo.cfg (.ownershipTransferred "a" "<b>") =
      ("noble.dollar.portal.v1.OwnershipTransferred",
        [("new_owner", "\"\\\"\\\\u003cb\\\\u003e\\\"\""), ("previous_owner", "\"\\\"a\\\"\"")]) ∧
    shownText Demo.cfg (.yieldRecipientSet 1 "channel-0" "x") =
      ("noble.dollar.v2.YieldRecipientSet",
        [("identifier", "\"\\\"channel-0\\\"\""), ("provider", "\"\\\"HYPERLANE\\\"\""), ("recipient", "\"\\\"x\\\"\"")]) ∧
    shownText Demo.cfg (.positionLocked "a" 1 5 6 7) =
      ("noble.dollar.vaults.v1.PositionLocked",
        [("account", "\"\\\"a\\\"\""), ("amount", "\"\\\"6\\\"\""), ("index", "\"\\\"5\\\"\""),
         ("principal", "\"\\\"7\\\"\""), ("vault_type", "\"\\\"STAKED\\\"\"")]) ∧
    shownText Demo.cfg (.positionUnlocked "a" 2 5 6 7) =
      ("noble.dollar.vaults.v1.PositionUnlocked",
        [("account", "\"\\\"a\\\"\""), ("amount", "\"\\\"6\\\"\""), ("index", "\"\\\"5\\\"\""),
         ("principal", "\"\\\"7\\\"\""), ("vault_type", "\"\\\"FLEXIBLE\\\"\"")]) ∧
    shownText Demo.cfg (.rewardClaimed [2, 1] 5) =
      ("noble.dollar.vaults.v1.RewardClaimed", [("account", "\"\\\"Ăā\\\"\""), ("amount", "\"\\\"5\\\"\"")]) ∧
    shownText Demo.cfg (.vaultsPausedSet 3) =
      ("noble.dollar.vaults.v1.PausedStateUpdated", [("paused", "\"\\\"ALL\\\"\"")]) ∧
    shownText Demo.cfg (.transferSent [65, 66] 5 2 7) =
      ("transfer_sent", [("recipient", "\"AB\""), ("refund_address", "\"\""), ("amount", "\"5\""), ("fee", "\"\""),
        ("recipient_chain", "\"2\""), ("msg_sequence", "\"7\"")]) ∧
    shownText Demo.cfg (.transferSentDigest [65, 66]) = ("transfer_sent", [("digest", "\"AB\"")]) := by decide +kernel

/-- Non-vacuity of `FieldsFit`. -/
example : Typed (.mTokenReceived 2 [1, 2] [3] [2, 1] 1000 1100000000000 [9, 9, 9]) ∧
    FieldsFit Demo.cfg (.mTokenReceived 2 [1, 2] [3] [2, 1] 1000 1100000000000 [9, 9, 9]) ∧
    RealPeers (.peerUpdated 2 (some ⟨[3], [4]⟩) ⟨[1], [2]⟩) ∧
    FieldsFit Demo.cfg (.positionLocked "a" 1 5 6 7) ∧ FieldsFit Demo.cfg (.yieldRecipientSet 1 "channel-0" "x") := by
  refine ⟨trivial, ?_, ?_, ?_, ?_⟩
  · unfold FieldsFit Amount In64; decide +kernel
  · unfold RealPeers; decide
  · unfold FieldsFit Amount In64; decide
  · unfold FieldsFit; decide

/-- Non-vacuity: of the 22 events of the demo history all are read back but those that imitate other bridges, which are the last
two. -/
example : (run Demo.cfg Demo.hist2 Demo.start).events.map (fun e =>
      decide ((understood (shown (abci Demo.cfg e))).bind (readTyped Demo.cfg) = some e)) =
    List.replicate 20 true ++ [false, false] := by decide +kernel

/-- Non-vacuity: two digests that are shown alike, and the typed event that tells them apart. -/
example (c : Cfg) : shown (abci c (.transferSentDigest (List.replicate 32 0x80))) =
      shown (abci c (.transferSentDigest (List.replicate 32 0x81))) ∧
    abci c (.usdnTokenSent 2 [] "" [] 5 6 (List.replicate 32 0x80)) ≠
      abci c (.usdnTokenSent 2 [] "" [] 5 6 (List.replicate 32 0x81)) := by
  refine ⟨C114_digest_lost c rfl (by decide) (by decide), fun h => ?_⟩
  have h1 := attr_lookup c (e := .usdnTokenSent 2 [] "" [] 5 6 (List.replicate 32 0x80)) rfl "message_id" _ rfl
    (toBytes_ofBytes _)
  have h2 := attr_lookup c (e := .usdnTokenSent 2 [] "" [] 5 6 (List.replicate 32 0x81)) rfl "message_id" _ rfl
    (toBytes_ofBytes _)
  rw [h, h2] at h1
  exact absurd (Option.some.inj h1) (by decide)

/-- Bytes that look like the beginning of a character, a surrogate, an overlong encoding and a character beyond the last one. -/
example : runes [0xc3, 0xff] = [Char.ofNat 0xfffd, Char.ofNat 0xfffd] ∧ runes [0xc3, 0x41] = [Char.ofNat 0xfffd, 'A'] ∧
    runes [0xed, 0xa0, 0x80] = List.replicate 3 (Char.ofNat 0xfffd) ∧ runes [0xc0, 0x80] = List.replicate 2 (Char.ofNat 0xfffd) ∧
    runes [0xf4, 0x90, 0x80, 0x80] = List.replicate 4 (Char.ofNat 0xfffd) ∧ runes [0xe2, 0x82, 0xac, 0x41] = ['€', 'A'] := by
  decide +kernel

/-- The hypothesis of the last part of `C114_bytes_shown`. -/
example (t : Bytes) (ch : Char) (r : Bytes) : 0x80 :: t ≠ utf8 [ch] ++ r := by
  intro h
  have := congrArg runes h
  rw [C114_bytes_shown.2.1, runes_cons] at this
  have h1 := (List.cons.inj this).1
  have e : (decodeRune 0x80 t).1 = Char.ofNat 0xfffd := rfl
  rw [e] at h1
  subst h1
  have h2 : (0x80 : UInt8) = 0xef := congrArg (fun l => l.headD 0) h
  exact absurd h2 (by decide)

end Dollar
