import Verif.Model.Grpc
import Verif.Props.C105Scalars
import Verif.Props.C106
import Verif.Props.C74
import Verif.Props.C107
import Verif.Props.C124

/-
C125: a gRPC client of a node learns what is in the node's store.
-/
set_option linter.unusedVariables false
set_option maxRecDepth 100000
namespace Dollar
open MM Spec Json Proto Rest Grpc

namespace Spec

/-- A query that can be asked over gRPC: its numbers are in the range of their Go types, its texts are shorter than 2^62 bytes. -/
def Askable : Query → Prop
  | .principal a | .yield a | .positions a | .pendingRewardsBy a => Latin a ∧ (ascii a).length < 2 ^ 62
  | .yieldRecipient p i | .retryAmount p i => (-2 ^ 31 ≤ p ∧ p < 2 ^ 31) ∧ Latin i ∧ (ascii i).length < 2 ^ 62
  | .destinationTokens n => n < 2 ^ 32
  | _ => True

/-- The texts of an answer are bytes, and no key of a map occurs twice. -/
def TextsFit : Answer → Prop
  | .index d => Big d
  | .texts l => (∀ e ∈ l, Latin e.1 ∧ Latin e.2) ∧ (l.map Prod.fst).Nodup
  | .text s => Latin s
  | .statsV2 _ ext => (∀ e ∈ ext, Latin e.1 ∧ Latin e.2.1) ∧ (ext.map Prod.fst).Nodup
  | .peers l => (l.map Prod.fst).Nodup
  | _ => True

/-- The same answer with the entries of its map in another order. -/
def ReorderedAnswer : Answer → Answer → Prop
  | .texts l, .texts l' => l'.Perm l
  | .statsV2 x l, .statsV2 y l' => y = x ∧ l'.Perm l
  | .peers l, .peers l' => l'.Perm l
  | a, b => b = a

/-- The chain ids that IBC clients show are bytes. -/
def NamesFit (client : String → Client) : Prop :=
  ∀ channel, match client channel with
    | .soloMachine d => Latin d
    | .tendermint i => Latin i
    | _ => True

/-- A call of a client at a node: the bytes of the request are sent to the method, the bytes of the answer are read. -/
def ask (T : IntText) (c : Cfg) (env : Env) (client : String → Client) (nanos : PosEntry → Nat) (n : Node) (q : Query) : Option Answer :=
  match n.load T with
  | .ok s =>
    match Grpc.call T c env client nanos s (method q) (encRequest q) with
    | some b =>
      match decAnswer T b q with
      | .ok a => some a
      | _ => none
    | none => none
  | _ => none

end Spec

/-- C125: the request that a client writes is read as the query that was meant. -/
theorem C125_request (T : IntText) {q : Query} (h : Askable q) : decRequest T (method q) (encRequest q) = some (.ok q) := by
  have empty : ∀ q, decEmpty T q [] = .ok q := fun q => by
    unfold decEmpty
    have : unmarshal T [] [] = .ok (Schema.zero []) := rfl
    rw [this]; rfl
  have acc : ∀ (q : String → Query) (a : String), Latin a ∧ (ascii a).length < 2 ^ 62 →
      decAccount T q (encText (ascii a)) = .ok (q a) := fun q a h => by
    unfold decAccount
    rw [C105_text T _ h.2]
    show PRes.ok (q (str (ascii a))) = _
    rw [str_ascii h.1]
  have path : ∀ (q : Int → String → Query) (p : Int) (i : String),
      ((-2 ^ 31 ≤ p ∧ p < 2 ^ 31) ∧ Latin i ∧ (ascii i).length < 2 ^ 62) →
      decPath T q (encRoute p (ascii i)) = .ok (q p i) := fun q p i h => by
    unfold decPath
    rw [C105_route T p _ h.1 h.2.2]
    show PRes.ok (q p (str (ascii i))) = _
    rw [str_ascii h.2.1]
  cases q <;> simp only [method, encRequest, decRequest, String.reduceEq, if_true, if_false, empty] <;> simp only [Askable] at h
  case principal a => rw [acc _ _ h]
  case yield a => rw [acc _ _ h]
  case positions a => rw [acc _ _ h]
  case pendingRewardsBy a => rw [acc _ _ h]
  case yieldRecipient p i => rw [path _ _ _ h]
  case retryAmount p i => rw [path _ _ _ h]
  case destinationTokens n => rw [C105_nonce T n h]; rfl

theorem map_str_ascii {l : List (String × String)} (h : ∀ e ∈ l, Latin e.1 ∧ Latin e.2) :
    (l.map fun e => (ascii e.1, ascii e.2)).map (fun e => (str e.1, str e.2)) = l := by
  rw [List.map_map]
  conv => rhs; rw [← List.map_id l]
  refine List.map_congr_left fun e he => ?_
  show (str (ascii e.1), str (ascii e.2)) = e
  rw [str_ascii (h e he).1, str_ascii (h e he).2]

theorem map_str_ascii3 {l : List (String × String × Int)} (h : ∀ e ∈ l, Latin e.1 ∧ Latin e.2.1) :
    (l.map fun e => (ascii e.1, ascii e.2.1, e.2.2)).map (fun e => (str e.1, str e.2.1, e.2.2)) = l := by
  rw [List.map_map]
  conv => rhs; rw [← List.map_id l]
  refine List.map_congr_left fun e he => ?_
  show (str (ascii e.1), str (ascii e.2.1), e.2.2) = e
  rw [str_ascii (h e he).1, str_ascii (h e he).2]

theorem text_read (T : IntText) {s : String} (h : Latin s) (hlen : (encText (ascii s)).length < 2 ^ 63) :
    (do let x ← decText1 T (encText (ascii s)); PRes.ok (Answer.text (str x))) = .ok (.text s) := by
  have : decText1 T (encText (ascii s)) = .ok (ascii s) := by
    unfold decText1
    unfold encText at hlen ⊢
    rw [decOne_encOne T .bytes (.bs (ascii s)) trivial hlen]
    rfl
  rw [this]
  show PRes.ok (Answer.text (str (ascii s))) = _
  rw [str_ascii h]

theorem stats_read (T : IntText) (n : Nat) (p y : Int) (ext : List (String × String × Int)) (h1 : n < 2 ^ 64) (h2 : Big p) (h3 : Big y)
    (h4 : ∀ e ∈ ext, Big e.2.2) (ht : (∀ e ∈ ext, Latin e.1 ∧ Latin e.2.1) ∧ (ext.map Prod.fst).Nodup)
    (hlen : (encStatsV2 n p y (ext.map fun e => (ascii e.1, ascii e.2.1, e.2.2))).length < 2 ^ 63) :
    decStatsV2 T (encStatsV2 n p y (ext.map fun e => (ascii e.1, ascii e.2.1, e.2.2))) =
      .ok (n, p, y, ext.map fun e => (ascii e.1, ascii e.2.1, e.2.2)) := by
  have hv : ∀ z ∈ ext.map fun e => (ascii e.1, ascii e.2.1, e.2.2), z.2.2.natAbs < 2 ^ 256 := by
    intro z hz
    obtain ⟨e, he, rfl⟩ := List.mem_map.1 hz
    exact h4 e he
  have hd : ((ext.map fun e => (ascii e.1, ascii e.2.1, e.2.2)).map Prod.fst).Nodup := by
    rw [List.map_map]
    exact ascii_keys_nodup ht.2 fun e he => (ht.1 e he).1
  exact C105_stats T n p y _ h1 h2 h3 hv hd hlen

/-- C125: the answer of a node is read by a client as it was given. -/
theorem C125_read (T : IntText) (nanos : PosEntry → Nat) (hn : ∀ p, nanos p < 1000000000) {q : Query} {a : Answer} (hf : Fitting q a)
    (hr : NumbersFit a) (ht : TextsFit a) (hlen : (encAnswer nanos a).length < 2 ^ 63) :
    decAnswer T (encAnswer nanos a) q = .ok a := by
  have amount : ∀ x : Int, Big x → decAmount T (encAmount (some x)) = .ok x := fun x h => C105_amount T (some x) h
  have texts : ∀ l : List (String × String), TextsFit (.texts l) →
      (encStringMap (l.map fun e => (ascii e.1, ascii e.2))).length < 2 ^ 63 →
      decStringMap T (encStringMap (l.map fun e => (ascii e.1, ascii e.2))) = .ok (l.map fun e => (ascii e.1, ascii e.2)) :=
    fun l ht hlen => C105_string_map T _ (by
        rw [List.map_map]
        exact ascii_keys_nodup ht.2 fun e he => (ht.1 e he).1) hlen
  cases q <;> cases a <;> first | exact hf.elim | skip
  all_goals simp only [decAnswer]
  all_goals unfold encAnswer at hlen ⊢
  all_goals simp only at hlen ⊢
  case index.index d => rw [amount d ht]; simp only [PRes.ok_bind]
  case paused.flag b => rw [(C105_flag T b 0 (by omega)).1]; simp only [PRes.ok_bind]
  case portalPaused.flag b => rw [(C105_flag T b 0 (by omega)).1]; simp only [PRes.ok_bind]
  case principal.amount x => rw [amount _ hr]; simp only [PRes.ok_bind]
  case yield.amount x => rw [amount _ hr]; simp only [PRes.ok_bind]
  case retryAmount.amount x => rw [amount _ hr]; simp only [PRes.ok_bind]
  case pendingRewards.amount x => rw [amount _ hr]; simp only [PRes.ok_bind]
  case stats.stats x =>
    rw [C73_stats T x.1 x.2.1 x.2.2 hr.1 hr.2.1 hr.2.2]; simp only [PRes.ok_bind]
  case statsV2.statsV2 x ext =>
    obtain ⟨h1, h2, h3, h4⟩ := hr
    rw [stats_read T x.1 x.2.1 x.2.2 ext h1 h2 h3 h4 ht hlen]
    simp only [PRes.ok_bind]
    rw [map_str_ascii3 ht.1]
  case yieldRecipients.texts l => rw [texts l ht hlen]; simp only [PRes.ok_bind]; rw [map_str_ascii ht.1]
  case retryAmounts.texts l => rw [texts l ht hlen]; simp only [PRes.ok_bind]; rw [map_str_ascii ht.1]
  case yieldRecipient.text s => exact text_read T ht hlen
  case owner.text s => exact text_read T ht hlen
  case peers.peers l => rw [C105_peers T l hr ht hlen]; simp only [PRes.ok_bind]
  case destinationTokens.tokens l => rw [C105_tokens T l hlen]; simp only [PRes.ok_bind]
  case nonce.nonce n => rw [C105_nonce T n hr]; simp only [PRes.ok_bind]
  case positions.positions l =>
    have := C105_positions T (l.map fun p => (p, (nanos p : Int))) (fun p hp => by
      obtain ⟨e, he, rfl⟩ := List.mem_map.1 hp
      obtain ⟨h1, h2, h3, h4, h5⟩ := hr e he
      exact ⟨h1, h2, h3, h4, h5, Int.natCast_nonneg _, by have := hn e; show ((nanos e : Nat) : Int) < _; omega⟩) hlen
    rw [this]
    simp only [PRes.ok_bind, List.map_map]
    have e : l.map (Prod.fst ∘ fun p => (p, (nanos p : Int))) = l := by
      conv => rhs; rw [← List.map_id l]
      exact List.map_congr_left fun _ _ => rfl
    rw [e]
  case pendingRewardsBy.pending t l => rw [C105_pending T t l hr.1 hr.2 hlen]; simp only [PRes.ok_bind]
  case vaultsPaused.pausing x => rw [(C105_flag T true x hr).2]; simp only [PRes.ok_bind]
  case vaultsStats.vaultsStats v =>
    rw [C73_vault_stats T v hr.1 hr.2.1 hr.2.2.1 hr.2.2.2.1 hr.2.2.2.2]; simp only [PRes.ok_bind]

/-- C125: in whatever order Go writes the entries of a map, the client reads the same entries. -/
theorem C125_any_order (T : IntText) (nanos : PosEntry → Nat) (hn : ∀ p, nanos p < 1000000000) {q : Query} {a a' : Answer}
    (ho : ReorderedAnswer a a') (hf : Fitting q a) (hr : NumbersFit a) (ht : TextsFit a) (hlen : (encAnswer nanos a').length < 2 ^ 63) :
    decAnswer T (encAnswer nanos a') q = .ok a' := by
  have key : Fitting q a' ∧ NumbersFit a' ∧ TextsFit a' := by
    by_cases e : a' = a
    · subst e; exact ⟨hf, hr, ht⟩
    · cases a <;> cases a' <;> first | exact absurd ho e | skip
      case texts.texts l l' =>
        have ho : l'.Perm l := ho
        exact ⟨by cases q <;> exact hf, trivial, fun e he => ht.1 e (ho.mem_iff.1 he), (ho.map Prod.fst).nodup_iff.2 ht.2⟩
      case statsV2.statsV2 x l y l' =>
        obtain ⟨rfl, ho⟩ := (ho : y = x ∧ l'.Perm l)
        exact ⟨by cases q <;> exact hf, ⟨hr.1, hr.2.1, hr.2.2.1, fun e he => hr.2.2.2 e (ho.mem_iff.1 he)⟩,
          fun e he => ht.1 e (ho.mem_iff.1 he), (ho.map Prod.fst).nodup_iff.2 ht.2⟩
      case peers.peers l l' =>
        have ho : l'.Perm l := ho
        exact ⟨by cases q <;> exact hf, fun e he => hr e (ho.mem_iff.1 he), (ho.map Prod.fst).nodup_iff.2 ht⟩
  exact C125_read T nanos hn key.1 key.2.1 key.2.2 hlen

/-- Two entries of a map of texts, written the other way round: the hypotheses of `C125_any_order` are met. -/
example : ReorderedAnswer (.texts [("a", "1"), ("b", "2")]) (.texts [("b", "2"), ("a", "1")])
    ∧ TextsFit (.texts [("a", "1"), ("b", "2")]) ∧ NumbersFit (.texts [("a", "1"), ("b", "2")]) :=
  ⟨List.Perm.swap _ _ _, ⟨by unfold Latin; decide, by decide⟩, trivial⟩

/-! ### The answers of a chain can be written -/

theorem latin_int (x : Int) : Latin (toString x) := by
  have digit : ∀ c : Char, c.isDigit = true → c.toNat < 256 := by
    intro c hc
    unfold Char.isDigit at hc
    simp only [Bool.and_eq_true, decide_eq_true_eq] at hc
    have h2 := hc.2
    show c.val.toNat < 256
    have : c.val.toNat ≤ 57 := UInt32.le_iff_toNat_le.1 h2
    omega
  intro c hc
  cases x with
  | ofNat n =>
    have e : (toString (Int.ofNat n)).toList = Nat.toDigits 10 n := toString_ofNat n
    rw [e] at hc
    exact digit c ((toDigits_spec n).2.1 c hc)
  | negSucc n =>
    rw [toString_negSucc] at hc
    rcases List.mem_cons.1 hc with rfl | hc
    · decide
    · exact digit c ((toDigits_spec (n + 1)).2.1 c hc)

theorem latin_route {k : Int × String} (h : Latin k.2) : Latin (recipientKey k) := by
  intro c hc
  rw [recipientKey_toList, List.mem_append, List.mem_cons] at hc
  rcases hc with hc | rfl | hc
  · unfold providerName at hc
    split at hc
    · revert c; decide
    · split at hc
      · revert c; decide
      · exact latin_int _ c hc
  · decide
  · exact h c hc

theorem latin_unknown : Latin "UNKNOWN" := by decide

theorem statsEntry_name {c : Cfg} {env : Env} {client : String → Client} (hcl : NamesFit client) {e : String × String}
    {x : String × String × Int} (h : statsEntry c env client e = some x) : x.1 = e.1 ∧ Latin x.2.1 := by
  unfold statsEntry at h
  split at h
  next p i _ =>
    cases h
    refine ⟨rfl, ?_⟩
    show Latin (if p = 0 then ibcChainId client i else if p = 1 then hypChainId c env i else "UNKNOWN")
    split
    · unfold ibcChainId
      have := hcl i
      cases hi : client i with
      | soloMachine d => rw [hi] at this; exact this
      | tendermint d => rw [hi] at this; exact this
      | other => exact latin_unknown
      | none => exact latin_unknown
    · split
      · unfold hypChainId
        split
        · exact latin_unknown
        · split
          next d _ => exact latin_int d
          · exact latin_unknown
      · exact latin_unknown
  · cases h

theorem answer_texts {c : Cfg} {env : Env} {client : String → Client} (hcl : NamesFit client) {s : State} (hr : Reachable c s)
    (fits : Fits s) (hi : 0 < s.index) {q : Query} {a : Answer} (hq : answer c env client s q = some a) : TextsFit a := by
  cases q <;> simp only [answer, Option.map_eq_some_iff, Option.some.injEq] at hq
  case index =>
    subst hq
    have e := C59_index s
    have := fits.index.2
    show (queryIndex s).natAbs < 2 ^ 256
    omega
  case yieldRecipients =>
    subst hq
    refine ⟨fun e he => ?_, KV.nodup_keys (goMap_sorted _)⟩
    obtain ⟨x, hx, rfl⟩ := List.mem_map.1 (mem_goMap he)
    exact ⟨latin_route (fits.recipients x hx).1.2, (fits.recipients x hx).2⟩
  case retryAmounts =>
    subst hq
    refine ⟨fun e he => ?_, KV.nodup_keys (goMap_sorted _)⟩
    obtain ⟨x, hx, rfl⟩ := List.mem_map.1 (mem_goMap he)
    exact ⟨latin_route (fits.retry x hx).1.2, latin_int _⟩
  case yieldRecipient p i =>
    obtain ⟨x, hx, rfl⟩ := hq
    exact (fits.recipients _ (KV.mem_of_get? hx)).2
  case owner => subst hq; exact fits.owner
  case peers => subst hq; exact KV.nodup_keys hr.shape.peers
  case statsV2 =>
    obtain ⟨x, hx, rfl⟩ := hq
    unfold queryStatsV2 at hx
    obtain ⟨l, hl, rfl⟩ := Option.map_eq_some_iff.1 hx
    refine ⟨fun e he => ?_, ?_⟩
    · obtain ⟨y, hy, h⟩ := mapM_mem hl e he
      obtain ⟨h1, h2⟩ := statsEntry_name hcl h
      obtain ⟨z, hz, rfl⟩ := List.mem_map.1 (mem_goMap hy)
      exact ⟨by rw [h1]; exact latin_route (fits.extYield z hz).1.2, h2⟩
    · show (l.map Prod.fst).Nodup
      rw [statsEntry_keys hl]
      exact KV.nodup_keys (goMap_sorted _)
  case paused | portalPaused | stats | destinationTokens | nonce | pendingRewards | vaultsPaused | vaultsStats | retryAmount =>
    subst hq; trivial
  case principal | yield | positions | pendingRewardsBy => obtain ⟨x, _, rfl⟩ := hq; trivial

/-- C125: whatever was sent to a node in up to 2^39 inputs, a gRPC client that asks it any query reads the answer of the query in the state
that the decoded messages produce, and fails exactly if the query has no answer there. -/
theorem C125_node (T : IntText) {c : Cfg} (hc : c.WF) (ha : ShortAddresses c) {s0 : State} (h0 : Initial c s0) (hf : Fits s0)
    (hlo : 10 ^ 12 ≤ s0.index) (hrec : s0.recipients.length ≤ 2 ^ 39) (nanos0 : PosKey → Int)
    (hn0 : ∀ k, 0 ≤ nanos0 k ∧ nanos0 k < 1000000000) {l : List Input} (hp : ∀ i ∈ l, Input.Proper i)
    (hsig : History.Signed c (historyOf T l)) (hlen : l.length ≤ 2 ^ 39)
    (hold : ∀ h, h <+: historyOf T l → holdersOf c (run c h s0) < 2 ^ 64) {n : Node}
    (hn : Node.run T c l (Node.save nanos0 s0) = some n) (env : Env) {client : String → Client} (hcl : NamesFit client)
    (nanos : PosEntry → Nat) (hnn : ∀ p, nanos p < 1000000000) {q : Query} (hq : Askable q)
    (hsize : ∀ a, answer c env client (run c (historyOf T l) s0) q = some a → (encAnswer nanos a).length < 2 ^ 63) :
    ask T c env client nanos n q = answer c env client (run c (historyOf T l) s0) q := by
  obtain ⟨n', r1, r2, _⟩ := C124_state T hc ha h0 hf hlo hrec nanos0 hn0 hp hsig hlen hold
  rw [hn] at r1
  cases r1
  have hty := historyOf_typed T hp
  have hl := (historyOf_length T l).trans hlen
  have hh := hold _ (List.prefix_refl _)
  unfold ask
  rw [r2]
  simp only
  unfold Grpc.call
  rw [C125_request T hq]
  simp only
  cases e : answer c env client (run c (historyOf T l) s0) q with
  | none => simp only [Option.map_none]
  | some a =>
    simp only [Option.map_some]
    have hr : Reachable c (run c (historyOf T l) s0) := .of_run h0 hsig
    have fits := C82_fits hc ha h0 hf hlo hsig hty (by omega) hh
    rw [C125_read T nanos hnn (answer_fitting e) (answer_range hc ha h0 hf hlo hsig hty hl hh env client e)
      (answer_texts hcl hr fits (hr.led hc).good.index e) (hsize a e)]

/-- A request is read as a query of the method that it was sent to. -/
theorem decRequest_method (T : IntText) {m : String} {b : Bytes} {q : Query} (h : decRequest T m b = some (.ok q)) : method q = m := by
  have empty : ∀ {q q'}, some (decEmpty T q b) = some (.ok q') → q' = q := by
    intro q q' h
    unfold decEmpty at h
    cases e : unmarshal T [] b with
    | ok x => rw [e] at h; simp only [PRes.ok_bind] at h; cases h; rfl
    | err => rw [e] at h; cases h
    | panic => rw [e] at h; cases h
  have acc : ∀ {q : String → Query} {q'}, some (decAccount T q b) = some (.ok q') → ∃ a, q' = q a := by
    intro q q' h
    unfold decAccount at h
    cases e : decText1 T b with
    | ok x => rw [e] at h; simp only [PRes.ok_bind] at h; cases h; exact ⟨_, rfl⟩
    | err => rw [e] at h; cases h
    | panic => rw [e] at h; cases h
  have path : ∀ {q : Int → String → Query} {q'}, some (decPath T q b) = some (.ok q') → ∃ p i, q' = q p i := by
    intro q q' h
    unfold decPath at h
    cases e : decRoute T b with
    | ok x => rw [e] at h; simp only [PRes.ok_bind] at h; cases h; exact ⟨_, _, rfl⟩
    | err => rw [e] at h; cases h
    | panic => rw [e] at h; cases h
  have word : some (do let n ← decWord T b; PRes.ok (Query.destinationTokens n)) = some (.ok q) → ∃ n, q = .destinationTokens n := by
    intro h
    cases e : decWord T b with
    | ok x => rw [e] at h; simp only [PRes.ok_bind] at h; cases h; exact ⟨_, rfl⟩
    | err => rw [e] at h; cases h
    | panic => rw [e] at h; cases h
  unfold decRequest at h
  iterate 20
    rcases ite_eq_iff.1 h with ⟨hm, h⟩ | ⟨-, h⟩
    · first
        | (rw [hm, empty h]; rfl)
        | (obtain ⟨a, rfl⟩ := acc h; rw [hm]; rfl)
        | (obtain ⟨p, i, rfl⟩ := path h; rw [hm]; rfl)
        | (obtain ⟨a, rfl⟩ := word h; rw [hm]; rfl)
  cases h

/-- C125: whatever bytes are sent to whatever method, a call that succeeds returns the answer of a query of that method. -/
theorem C125_hostile (T : IntText) (c : Cfg) (env : Env) (client : String → Client) (nanos : PosEntry → Nat) (s : State) (m : String)
    (b r : Bytes) (h : Grpc.call T c env client nanos s m b = some r) :
    ∃ q a, method q = m ∧ answer c env client s q = some a ∧ r = encAnswer nanos a := by
  unfold Grpc.call at h
  split at h
  next q e =>
    obtain ⟨a, h1, h2⟩ := Option.map_eq_some_iff.1 h
    exact ⟨q, a, decRequest_method T e, h1, h2.symm⟩
  · cases h

/-- C125: no request crashes the decoder. -/
theorem C125_no_panic (T : IntText) (m : String) (b : Bytes) (hb : b.length < 2 ^ 63) : decRequest T m b ≠ some .panic := by
  have key : ∀ (sch : Schema) {α : Type} (f : Fields → α), (unmarshal T sch b >>= fun x => PRes.ok (f x)) ≠ .panic := by
    intro sch α f
    have h := unmarshal_noPanic T sch b hb
    cases e : unmarshal T sch b with
    | ok x => exact fun h => nomatch h
    | err => exact fun h => nomatch h
    | panic => exact absurd e h
  have follow : ∀ {α β : Type} {x : PRes α} {f : α → β}, x ≠ .panic → (x >>= fun y => PRes.ok (f y)) ≠ .panic := by
    intro α β x f h
    cases x with
    | ok x => exact fun h => nomatch h
    | err => exact fun h => nomatch h
    | panic => exact absurd rfl h
  have one : ∀ k, decOne T k b ≠ .panic := fun k => key _ fun x => x 1
  have empty : ∀ q, some (decEmpty T q b) ≠ some .panic := fun q h => key [] (fun _ => q) (Option.some.inj h)
  have acc : ∀ q, some (decAccount T q b) ≠ some .panic := fun q h =>
    follow (f := fun a => q (str a)) (follow (f := FVal.getBytes) (one .bytes)) (Option.some.inj h)
  have path : ∀ q, some (decPath T q b) ≠ some .panic := fun q h =>
    follow (f := fun r : Int × Bytes => q r.1 (str r.2)) (key routeSchema fun x => ((x 1).getNum, (x 2).getBytes)) (Option.some.inj h)
  have word : some (do let n ← decWord T b; PRes.ok (Query.destinationTokens n)) ≠ some .panic := fun h =>
    follow (f := Query.destinationTokens) (follow (f := fun v : FVal => v.getNum.toNat % 2 ^ 32) (one .u64)) (Option.some.inj h)
  intro h
  unfold decRequest at h
  iterate 20
    rcases ite_eq_iff.1 h with ⟨hm, h⟩ | ⟨-, h⟩
    · first
        | exact empty _ h
        | exact acc _ h
        | exact path _ h
        | exact word h
  cases h

/-! ### Non-vacuity: the node of the chain of C124 -/

theorem Demo.client_names : NamesFit Demo.client := by
  intro ch
  unfold Demo.client
  by_cases h : ch = "channel-0"
  · rw [if_pos h]; show Latin "remote-1"; decide
  · rw [if_neg h]; trivial

/-- Queries of every shape are answered with Alice's position, the statistics with their chain, the peers and the recipients. -/
example : ∃ n, Node.run decimal Demo.nobleCfg Demo.nobleInputs (Node.save (fun _ => 0) Demo.start) = some n ∧
    ask decimal Demo.nobleCfg (Demo.env 13) Demo.client (fun _ => 7) n (.principal Demo.aliceN) = some (.amount 8090910) ∧
    ask decimal Demo.nobleCfg (Demo.env 13) Demo.client (fun _ => 7) n .statsV2 =
      some (.statsV2 (4, 14090909, 1500000) [("IBC/channel-0", "remote-1", 100000)]) ∧
    ask decimal Demo.nobleCfg (Demo.env 13) Demo.client (fun _ => 7) n (.yieldRecipient 0 "channel-0") = some (.text "noble1remote") ∧
    ask decimal Demo.nobleCfg (Demo.env 13) Demo.client (fun _ => 7) n (.yieldRecipient 0 "channel-1") = none := by
  obtain ⟨n, r1, _, _⟩ := C124_state decimal Demo.nobleWF Demo.noble_short Demo.noble_initial Demo.start_fits (by decide)
    (by decide) (fun _ => 0)
    (fun _ => ⟨le_refl (0 : Int), show (0 : Int) < 1000000000 by decide⟩) Demo.noble_proper (by rw [Demo.noble_history]; exact Demo.noble_signed)
    (by decide) Demo.noble_holders
  have h : ∀ {q : Query} {r : Option Answer}, Askable q →
      answer Demo.nobleCfg (Demo.env 13) Demo.client (run Demo.nobleCfg Demo.nobleHist Demo.start) q = r →
      (∀ a, r = some a → (encAnswer (fun _ => 7) a).length < 2 ^ 63) →
      ask decimal Demo.nobleCfg (Demo.env 13) Demo.client (fun _ => 7) n q = r := by
    intro q r hq he hl
    have := C125_node decimal Demo.nobleWF Demo.noble_short Demo.noble_initial Demo.start_fits (by decide)
      (by decide) (fun _ => 0)
      (fun _ => ⟨le_refl (0 : Int), show (0 : Int) < 1000000000 by decide⟩) Demo.noble_proper
      (by rw [Demo.noble_history]; exact Demo.noble_signed) (by decide) Demo.noble_holders r1 (Demo.env 13) Demo.client_names (fun _ => 7)
      (fun _ => by decide) hq (by rw [Demo.noble_history, he]; exact hl)
    rw [this, Demo.noble_history, he]
  refine ⟨n, r1, ?_, ?_, ?_, ?_⟩
  · refine h ?_ (by decide +kernel) ?_
    · show Latin Demo.aliceN ∧ (ascii Demo.aliceN).length < 2 ^ 62
      decide +kernel
    · rintro a ⟨⟩; decide +kernel
  · exact h trivial (by decide +kernel) (by rintro a ⟨⟩; decide +kernel)
  · refine h ⟨by decide, by decide, by decide⟩ (by decide +kernel) (by rintro a ⟨⟩; decide +kernel)
  · refine h ⟨by decide, by decide, by decide⟩ (by decide +kernel) (fun a ha => nomatch ha)

/-- A request with a field that the type does not have, and one with bytes that are no field. -/
example : decRequest decimal "/noble.dollar.v1.Query/Index" [16, 1] = some (.ok .index) ∧
    decRequest decimal "/noble.dollar.v1.Query/Index" [255] = some .err ∧ decRequest decimal "/noble.dollar.v1.Query/Burn" [] = none := by
  decide +kernel

end Dollar
