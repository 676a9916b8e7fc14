import Verif.Model.Node
import Verif.Props.C75
import Verif.Props.C90
import Verif.Props.C120
import Verif.Props.C103
import Verif.Props.C123

/-
C124: bytes in, bytes out.  A node that receives messages as bytes, keeps the module's state as bytes, computes with bounded integers and
answers with JSON does what the plain model of the module does.
-/
set_option linter.unusedVariables false
set_option maxRecDepth 100000
namespace Dollar
open MM Spec Json Proto Rest

namespace Spec

/-- The history that a list of inputs stands for: the messages that can be decoded, each in its block, and the actions of other
modules. -/
def historyOf (T : IntText) : List Input → History
  | [] => []
  | .wire env _ t b :: l =>
    match decodeMsg T t b with
    | .ok m => (env, m) :: historyOf T l
    | _ => historyOf T l
  | .other env _ m :: l => (env, m) :: historyOf T l

/-- What the surroundings of a node see to: messages are shorter than 2^63 bytes, block times are between the years 1 and 9999, a
nanosecond is one of 10^9; what comes from other modules has fields in the range of their types. -/
def Input.Proper : Input → Prop
  | .wire env nanos _ b => b.length < 2 ^ 63 ∧ (-62135596800 ≤ env.time ∧ env.time < 253402300800) ∧
      ∀ k, 0 ≤ nanos k ∧ nanos k < 1000000000
  | .other env nanos m => MsgTyped m ∧ (-62135596800 ≤ env.time ∧ env.time < 253402300800) ∧
      ∀ k, 0 ≤ nanos k ∧ nanos k < 1000000000

/-- A message as a client sends it. -/
def asInput (relayer : String) (nanos : PosKey → Int) (e : Env × Msg) : Input :=
  match wireFields relayer e.2 with
  | some (t, l) => .wire e.1 nanos t (encodeFields t l)
  | none => .other e.1 nanos e.2

/-- The body of a GET request at the node. -/
def bodyAt (T : IntText) (c : Cfg) (env : Env) (client : String → Client) (nanos : PosEntry → Nat) (n : Node) (path : String) :
    Option (List Char) :=
  match n.load T with
  | .ok s => Rest.get c env client nanos s path
  | _ => none

/-- The log that the node shows. -/
def logAt (c : Cfg) (n : Node) : List (String × List (String × List Char)) := n.rest.events.map fun e => shown (abci c e)

end Spec

theorem elsewhere_same (s : State) : SameElsewhere (elsewhere s) s :=
  ⟨rfl, rfl, rfl, rfl, rfl, rfl, rfl, rfl, rfl, rfl⟩

theorem load_save (T : IntText) (nanos : PosKey → Int) (s : State) :
    (Node.save nanos s).load T = restart T (elsewhere s) (disk nanos s) := by
  simp only [Node.load, Node.save]

theorem historyOf_eq (T : IntText) (l : List Input) : historyOf T l = l.filterMap (·.msg T) := by
  induction l with
  | nil => rfl
  | cons i l ih =>
    cases i with
    | wire env nanos t b =>
      have e : (Input.wire env nanos t b).msg T = match decodeMsg T t b with | .ok m => some (env, m) | _ => none := rfl
      rw [List.filterMap_cons, historyOf, ih, e]
      cases hd : decodeMsg T t b <;> simp only
    | other env nanos m =>
      have e : (Input.other env nanos m).msg T = some (env, m) := rfl
      rw [List.filterMap_cons, historyOf, ih, e]

theorem historyOf_append (T : IntText) (l l' : List Input) : historyOf T (l ++ l') = historyOf T l ++ historyOf T l' := by
  simp only [historyOf_eq, List.filterMap_append]

theorem historyOf_length (T : IntText) (l : List Input) : (historyOf T l).length ≤ l.length := by
  rw [historyOf_eq]
  exact List.length_filterMap_le _ _

theorem historyOf_typed (T : IntText) {l : List Input} (h : ∀ i ∈ l, Input.Proper i) : HistTyped (historyOf T l) := by
  intro e he
  rw [historyOf_eq] at he
  obtain ⟨i, hi, e1⟩ := List.mem_filterMap.1 he
  have hp := h i hi
  cases i with
  | wire env nanos t b =>
    change (match decodeMsg T t b with | .ok m => some (env, m) | _ => none) = some e at e1
    cases hd : decodeMsg T t b with
    | ok m =>
      rw [hd] at e1
      cases e1
      exact ⟨C90_typed T t b hp.1 m hd, hp.2.1⟩
    | err => rw [hd] at e1; cases e1
    | panic => rw [hd] at e1; cases e1
  | other env nanos m => cases e1; exact ⟨hp.1, hp.2.1⟩

theorem nanos_proper {i : Input} (h : Input.Proper i) : ∀ k, 0 ≤ i.nanos k ∧ i.nanos k < 1000000000 := by
  cases i <;> exact h.2.2

/-- C124: the node never stops, and what it reads from its store is at all times the state of the model after the decoded messages. -/
theorem C124_state (T : IntText) {c : Cfg} (hc : c.WF) (ha : ShortAddresses c) {s0 : State} (h0 : Initial c s0) (hf : Fits s0)
    (hlo : 10 ^ 12 ≤ s0.index) (hrec : s0.recipients.length ≤ 2 ^ 39) (nanos0 : PosKey → Int)
    (hn0 : ∀ k, 0 ≤ nanos0 k ∧ nanos0 k < 1000000000) {l : List Input} (hp : ∀ i ∈ l, Input.Proper i)
    (hsig : History.Signed c (historyOf T l)) (hlen : l.length ≤ 2 ^ 39)
    (hold : ∀ h, h <+: historyOf T l → holdersOf c (run c h s0) < 2 ^ 64) :
    ∃ n, Node.run T c l (Node.save nanos0 s0) = some n ∧ n.load T = .ok (run c (historyOf T l) s0) ∧
      n.rest = elsewhere (run c (historyOf T l) s0) := by
  induction l using List.reverseRecOn with
  | nil =>
    have e : run c (historyOf T []) s0 = s0 := rfl
    rw [e]
    refine ⟨Node.save nanos0 s0, rfl, ?_, rfl⟩
    rw [load_save]
    exact C79_restart T c s0 _ (.fresh h0) hf nanos0 hn0 (elsewhere_same s0)
  | append_singleton t i ih =>
    have hl : t.length ≤ 2 ^ 39 := by rw [List.length_append] at hlen; omega
    rw [historyOf_append] at hsig hold
    obtain ⟨n, r1, r2, r3⟩ := ih (fun i hi => hp i (List.mem_append_left _ hi)) (fun e he => hsig e (List.mem_append_left _ he))
      hl (fun h hh => hold h (hh.trans (List.prefix_append _ _)))
    have hrun : Node.run T c (t ++ [i]) (Node.save nanos0 s0) = Node.deliver T c n i := by
      unfold Node.run at r1 ⊢
      rw [List.foldlM_append, r1]
      show ([i].foldlM (Node.deliver T c) n) = _
      rw [List.foldlM_cons]
      cases Node.deliver T c n i <;> rfl
    rw [hrun, historyOf_append]
    unfold Node.deliver
    rw [r2]
    have hh : historyOf T [i] = ((i.msg T).map fun e => [e]).getD [] := by
      rw [historyOf_eq]
      cases h : i.msg T <;> simp [h]
    cases hm : i.msg T with
    | none =>
      rw [hm] at hh
      rw [hh]
      exact ⟨n, rfl, by rw [r2]; simp, by rw [r3]; simp⟩
    | some e =>
      obtain ⟨env, m⟩ := e
      rw [hm] at hh
      simp only [Option.map_some, Option.getD_some] at hh
      have ht := historyOf_typed T hp
      rw [historyOf_append] at ht
      have hl' := historyOf_length T (t ++ [i])
      rw [historyOf_append] at hl'
      have hlt := historyOf_length T t
      rw [hh] at hsig hold ht hl' ⊢
      have e1 := C122_messages hc h0 hlo hf.index.2 hrec (h := historyOf T t)
        (fun e he => hsig e (List.mem_append_left _ he)) (by omega) env
        (hsig (env, m) (List.mem_append_right _ List.mem_cons_self))
      have e2 : Checked.Full.step c env m (run c (historyOf T t) s0) = run c (historyOf T t ++ [(env, m)]) s0 := by
        rw [run_append]
        unfold Checked.Full.step runTx
        rw [e1]
        rfl
      refine ⟨Node.save i.nanos (Checked.Full.step c env m (run c (historyOf T t) s0)), rfl, ?_, ?_⟩
      · rw [e2, load_save]
        exact C82_restart T hc ha h0 hf hlo hsig ht (by omega) (hold _ (List.prefix_refl _)) _
          (nanos_proper (hp i (List.mem_append_right _ List.mem_cons_self))) (elsewhere_same _)
      · exact congrArg elsewhere e2

/-- C124: what a REST client reads in the body that the node returns is the answer of the query in the state of the model. -/
theorem C124_answers (T : IntText) {c : Cfg} (hc : c.WF) (ha : ShortAddresses c) {s0 : State} (h0 : Initial c s0) (hf : Fits s0)
    (hlo : 10 ^ 12 ≤ s0.index) (hrec : s0.recipients.length ≤ 2 ^ 39) (nanos0 : PosKey → Int)
    (hn0 : ∀ k, 0 ≤ nanos0 k ∧ nanos0 k < 1000000000) {l : List Input} (hp : ∀ i ∈ l, Input.Proper i)
    (hsig : History.Signed c (historyOf T l)) (hlen : l.length ≤ 2 ^ 39)
    (hold : ∀ h, h <+: historyOf T l → holdersOf c (run c h s0) < 2 ^ 64) {n : Node}
    (hn : Node.run T c l (Node.save nanos0 s0) = some n) (env : Env) (client : String → Client) (nanos : PosEntry → Nat)
    {q : Query} {path : String} (ask : Asks q path) :
    (bodyAt T c env client nanos n path).bind (learnText q) = answer c env client (run c (historyOf T l) s0) q := by
  obtain ⟨n', r1, r2, -⟩ := C124_state T hc ha h0 hf hlo hrec nanos0 hn0 hp hsig hlen hold
  rw [hn] at r1
  cases r1
  unfold bodyAt
  rw [r2]
  exact C120_get hc ha h0 hf hlo hsig (historyOf_typed T hp) ((historyOf_length T l).trans hlen) (hold _ (List.prefix_refl _))
    env client nanos ask

/-- C124: an explorer of the node's JSON log ends with the settings, index, statistics and bridged supply of the state that the
node reads from its store. -/
theorem C124_log (T : IntText) {c : Cfg} (hc : c.WF) (ha : ShortAddresses c) (hk : Rereads c) {s0 : State} (h0 : Initial c s0)
    (hf : Fits s0) (hlo : 10 ^ 12 ≤ s0.index) (hrec : s0.recipients.length ≤ 2 ^ 39) (htd : Tidy s0) (he : s0.events = [])
    (nanos0 : PosKey → Int) (hn0 : ∀ k, 0 ≤ nanos0 k ∧ nanos0 k < 1000000000) {l : List Input}
    (hp : ∀ i ∈ l, Input.Proper i) (hsig : History.Signed c (historyOf T l)) (hlen : l.length ≤ 2 ^ 39)
    (hold : ∀ h, h <+: historyOf T l → holdersOf c (run c h s0) < 2 ^ 64) {n : Node}
    (hn : Node.run T c l (Node.save nanos0 s0) = some n) :
    ∃ s, n.load T = .ok s ∧ (logAt c n).foldlM (observe c) (onChain s0) = some (onChain s) := by
  obtain ⟨n', r1, r2, r3⟩ := C124_state T hc ha h0 hf hlo hrec nanos0 hn0 hp hsig hlen hold
  rw [hn] at r1
  cases r1
  refine ⟨_, r2, ?_⟩
  have ht := historyOf_typed T hp
  have hw : ∀ e ∈ historyOf T l, InWidth e.2 := fun e he => by
    have := (ht e he).1
    generalize e.2 = m at this
    cases m <;> first | trivial | exact this.1
  have := C123_explorer hc hk h0 he hlo hf.index.2 htd hsig hw ((historyOf_length T l).trans hlen)
  unfold logAt
  rw [r3]
  exact this

/-- C124: what clients send is what the node executes: the inputs written by clients from messages stand for these messages. -/
theorem C124_clients (T : IntText) (relayer : String) (nanos : PosKey → Int) (h : History)
    (hw : ∀ e ∈ h, ∀ t l, wireFields relayer e.2 = some (t, l) → WireFits relayer e.2 ∧ (encodeFields t l).length < 2 ^ 63) :
    historyOf T (h.map (asInput relayer nanos)) = h := by
  induction h with
  | nil => rfl
  | cons e t ih =>
    have ih := ih fun e he => hw e (List.mem_cons_of_mem _ he)
    obtain ⟨env, m⟩ := e
    have : (asInput relayer nanos (env, m)).msg T = some (env, m) := by
      unfold asInput
      cases hf : wireFields relayer m with
      | none => rfl
      | some x =>
        obtain ⟨ty, fl⟩ := x
        obtain ⟨h1, h2⟩ := hw (env, m) List.mem_cons_self ty fl hf
        show (match decodeMsg T ty (encodeFields ty fl) with | .ok m => some (env, m) | _ => none) = _
        rw [C75_roundtrip T relayer m ty fl hf h1 h2]
    rw [historyOf_eq] at ih ⊢
    rw [List.map_cons, List.filterMap_cons, this, ih]

/-! ## A chain that meets the hypotheses, with the real address format -/

namespace Demo

def aliceN : String := Bech32.encode "noble" alice
def bobN : String := Bech32.encode "noble" bob

/-- Deliveries, a lock, an IBC transfer, an announcement, a claim, an unlock and a transfer. -/
def nobleHist : History :=
  [(env 1, .deliver [1]), (env 2, .deliver [2]), (env 3, .lock aliceN 2 (some 2000000)),
   (env 6, .ibcTransfer alice "channel-0" "noble1remote" 1000000), (env 7, .deliver [3]), (env 8, .claimYield aliceN),
   (env 11, .unlock aliceN 2 (some 1000000)), (env 12, .transfer bobN (some 1000000) 2 (List.replicate 32 8) (List.replicate 32 1))]

/-- The bytes that do it, after bytes that decode as no message. -/
def nobleInputs : List Input :=
  .wire (env 0) (fun _ => 5) .lock [0xff] :: nobleHist.map (asInput aliceN fun _ => 123456789)

theorem alice_read : Bech32.decode "noble" aliceN = some alice :=
  C113_roundtrip "noble" noble_ok alice (by decide) (by decide)

theorem bob_read : Bech32.decode "noble" bobN = some bob :=
  C113_roundtrip "noble" noble_ok bob (by decide) (by decide)

theorem noble_signed : History.Signed nobleCfg nobleHist := by
  have ha : ∀ a, nobleCfg.decode aliceN = some a → nobleCfg.IsUser a := fun a h => by
    have := alice_read.symm.trans h
    cases this
    exact alice_user
  have hb : ∀ a, nobleCfg.decode bobN = some a → nobleCfg.IsUser a := fun a h => by
    have := bob_read.symm.trans h
    cases this
    exact bob_user
  intro e he
  simp only [nobleHist, List.mem_cons, List.not_mem_nil, or_false] at he
  rcases he with rfl | rfl | rfl | rfl | rfl | rfl | rfl | rfl
  · trivial
  · trivial
  · exact ha
  · exact alice_user
  · trivial
  · exact ha
  · exact ha
  · exact hb

theorem noble_initial : Initial nobleCfg start := by
  constructor <;> first | rfl | decide | (unfold KV.Sorted; decide)

instance (r : String) (m : Msg) : Decidable (WireFits r m) := by
  unfold WireFits; split <;> infer_instance

theorem noble_history : historyOf decimal nobleInputs = nobleHist := by
  have e1 : (Input.wire (env 0) (fun _ => 5) .lock [0xff]).msg decimal = none := by
    have : decodeMsg decimal .lock [0xff] = .err := by decide +kernel
    show (match decodeMsg decimal .lock [0xff] with | .ok m => some (env 0, m) | _ => none) = none
    rw [this]
  have e2 := C124_clients decimal aliceN (fun _ => 123456789) nobleHist (fun e he t l hw => by
    have : ∀ e ∈ nobleHist, (wireFields aliceN e.2).all (fun x =>
        decide (WireFits aliceN e.2) && decide ((encodeFields x.1 x.2).length < 2 ^ 63)) = true := by decide +kernel
    have := this e he
    rw [hw] at this
    simpa using this)
  rw [historyOf_eq] at e2 ⊢
  unfold nobleInputs
  rw [List.filterMap_cons, e1]
  exact e2

theorem noble_proper : ∀ i ∈ nobleInputs, Input.Proper i := by
  intro i hi
  rcases List.mem_cons.1 hi with rfl | hi
  · exact ⟨by decide, by decide, fun _ => ⟨show (0 : Int) ≤ 5 by decide, show (5 : Int) < 1000000000 by decide⟩⟩
  · obtain ⟨e, he, rfl⟩ := List.mem_map.1 hi
    have h1 : ∀ e ∈ nobleHist, (wireFields aliceN e.2).all (fun x => decide ((encodeFields x.1 x.2).length < 2 ^ 63)) = true ∧
        MsgTyped e.2 ∧ -62135596800 ≤ e.1.time ∧ e.1.time < 253402300800 := by decide +kernel
    obtain ⟨h1, h2, h3⟩ := h1 e he
    unfold asInput
    cases hw : wireFields aliceN e.2 with
    | none => exact ⟨h2, h3, fun _ => ⟨show (0 : Int) ≤ 123456789 by decide, show (123456789 : Int) < 1000000000 by decide⟩⟩
    | some x =>
      rw [hw] at h1
      exact ⟨by simpa using h1, h3, fun _ => ⟨show (0 : Int) ≤ 123456789 by decide, show (123456789 : Int) < 1000000000 by decide⟩⟩

theorem noble_holders : ∀ h, h <+: historyOf decimal nobleInputs → holdersOf nobleCfg (run nobleCfg h start) < 2 ^ 64 := by
  intro h hh
  rw [noble_history] at hh
  have hk : ∀ k ≤ 8, (run nobleCfg (nobleHist.take k) start).supply < 2 ^ 64 := by decide +kernel
  have h1 := (C82_holders_le_supply nobleWF (.of_run noble_initial fun e he => noble_signed e (hh.subset he) : Reachable nobleCfg
    (run nobleCfg h start))).2
  have h2 := hk h.length (hh.length_le.trans (by decide))
  rw [← List.prefix_iff_eq_take.1 hh] at h2
  omega

theorem noble_short : ShortAddresses nobleCfg := fun s a h =>
  ((C113_spellings "noble" noble_ok s a).1 h).2.2

end Demo

/-- Non-vacuity: the node of that chain has the state of the model, with a position, a balance and an index; what it shows is read as
that; and its log is followed to the end. -/
example : ∃ n s, Node.run decimal Demo.nobleCfg Demo.nobleInputs (Node.save (fun _ => 0) Demo.start) = some n ∧
    n.load decimal = .ok s ∧ s.index = 1100000000000 ∧ s.positions.length = 1 ∧ s.supply = 15500000 ∧ s.nonce = 1 ∧
    (bodyAt decimal Demo.nobleCfg (Demo.env 13) Demo.client (fun _ => 0) n "/noble/dollar/v1/index").isSome ∧
    (logAt Demo.nobleCfg n).foldlM (observe Demo.nobleCfg) (onChain Demo.start) = some (onChain s) := by
  obtain ⟨n, r1, r2, r3⟩ := C124_state decimal Demo.nobleWF Demo.noble_short Demo.noble_initial Demo.start_fits (by decide)
    (by decide) (fun _ => 0)
    (fun _ => ⟨le_refl (0 : Int), show (0 : Int) < 1000000000 by decide⟩) Demo.noble_proper (by rw [Demo.noble_history]; exact Demo.noble_signed)
    (by decide) Demo.noble_holders
  obtain ⟨s, r4, r5⟩ := C124_log decimal Demo.nobleWF Demo.noble_short (C123_codec Demo.noble) Demo.noble_initial Demo.start_fits
    (by decide) (by decide) ⟨by decide, by decide⟩ rfl (fun _ => 0)
    (fun _ => ⟨le_refl (0 : Int), show (0 : Int) < 1000000000 by decide⟩) Demo.noble_proper
    (by rw [Demo.noble_history]; exact Demo.noble_signed) (by decide) Demo.noble_holders r1
  have e := PRes.ok.inj (r2.symm.trans r4)
  subst e
  rw [Demo.noble_history] at r2 r5
  refine ⟨n, _, r1, r2, ?_, ?_, ?_, ?_, ?_, r5⟩
  · decide +kernel
  · decide +kernel
  · decide +kernel
  · decide +kernel
  · unfold bodyAt
    rw [r2]
    decide +kernel

end Dollar
