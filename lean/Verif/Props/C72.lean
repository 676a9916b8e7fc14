import Verif.Model.Tx
import Verif.Spec.Reach
import Verif.Spec.Demo
import Verif.Props.C36
import Verif.Props.C01
import Verif.Lemmas.Ledger

/-
C72: transactions with several messages are all or nothing, the fee is kept either way, and every state
a chain reaches by such transactions is one the other theorems speak about.
-/
namespace Dollar
open Spec

/-- Every message of a list succeeds when it is run after the ones before it. -/
def Spec.allSucceed (c : Cfg) (msgs : List (Env × Msg)) (s : State) : Prop :=
  ∀ pre env m post, msgs = pre ++ (env, m) :: post → (exec c env m (run c pre s)).isOk = true

/-- The fee as a message of its own. -/
def Spec.feeMsg : Option (Env × Addr × Addr × Int) → History
  | none => []
  | some (env, p, a, x) => [(env, .keeperSend p a x)]

theorem step_of_exec {c : Cfg} {env : Env} {m : Msg} {s s' : State} {u : Unit}
    (h : exec c env m s = .ok u s') : step c env m s = s' := by
  unfold step runTx; rw [h]

theorem runMsgs_run {c : Cfg} (msgs : List (Env × Msg)) {s s' : State} {u : Unit}
    (h : runMsgs c msgs s = .ok u s') : allSucceed c msgs s ∧ s' = run c msgs s := by
  induction msgs generalizing s with
  | nil =>
    cases h
    refine ⟨fun pre env m post e => ?_, rfl⟩
    cases pre <;> cases e
  | cons e t ih =>
    obtain ⟨env, m⟩ := e
    unfold runMsgs at h
    rw [MM.bind_apply] at h
    cases he : exec c env m s with
    | ok a s1 =>
      rw [he] at h
      obtain ⟨hall, e1⟩ := ih h
      have hst := step_of_exec he
      refine ⟨fun pre env' m' post hp => ?_, by rw [e1, run, hst]⟩
      cases pre with
      | nil =>
        rw [List.nil_append] at hp
        cases hp
        rw [run, he]; rfl
      | cons q pre =>
        rw [List.cons_append] at hp
        cases hp
        rw [run, hst]
        exact hall pre env' m' post rfl
    | err x s1 => rw [he] at h; cases h
    | panic => rw [he] at h; cases h

theorem runMsgs_all {c : Cfg} (msgs : List (Env × Msg)) {s : State} (h : allSucceed c msgs s) :
    runMsgs c msgs s = .ok () (run c msgs s) := by
  induction msgs generalizing s with
  | nil => rfl
  | cons e t ih =>
    obtain ⟨env, m⟩ := e
    have h0 := h [] env m t rfl
    have he : exec c env m s = .ok () (step c env m s) := exec_of_isOk h0
    have := ih (s := step c env m s) fun pre env' m' post hp => by
      have := h ((env, m) :: pre) env' m' post (by rw [hp]; rfl)
      rwa [run] at this
    unfold runMsgs
    rw [MM.bind_apply, he, run]
    exact this

/-- All or nothing: if every message of a transaction succeeds, run in order, their effects are kept
in order; if one fails, wherever it stands, none of them leaves a trace. -/
theorem C72_all_or_nothing (c : Cfg) (msgs : List (Env × Msg)) (s : State) :
    (allSucceed c msgs s → deliverTx c ⟨none, msgs⟩ s = run c msgs s) ∧
      (¬ allSucceed c msgs s → deliverTx c ⟨none, msgs⟩ s = s) := by
  have e : deliverTx c ⟨none, msgs⟩ s = runTx (runMsgs c msgs) s := rfl
  constructor
  · intro h
    rw [e]; unfold runTx; rw [runMsgs_all msgs h]
  · intro h
    rw [e]; unfold runTx
    cases hr : runMsgs c msgs s with
    | ok u s' => exact absurd (runMsgs_run msgs hr).1 h
    | err x s' => rfl
    | panic => rfl

/-- The fee is kept whether or not the messages succeed, and a transaction whose fee cannot be paid has no
effect: a transaction with a fee is the payment of the fee followed, if that succeeded, by the
transaction without a fee. -/
theorem C72_fee_kept (c : Cfg) (env : Env) (payer account : Addr) (x : Int) (msgs : List (Env × Msg))
    (s : State) :
    ((exec c env (.keeperSend payer account x) s).isOk = true →
      deliverTx c ⟨some (env, payer, account, x), msgs⟩ s =
        deliverTx c ⟨none, msgs⟩ (step c env (.keeperSend payer account x) s)) ∧
      ((exec c env (.keeperSend payer account x) s).isOk = false →
        deliverTx c ⟨some (env, payer, account, x), msgs⟩ s = s) := by
  constructor
  · intro h
    have he := exec_of_isOk h
    generalize step c env (.keeperSend payer account x) s = s1 at he ⊢
    show (match exec c env (.keeperSend payer account x) s with
      | .ok _ s1 => runTx (runMsgs c msgs) s1 | .err _ _ => s | .panic => s) = runTx (runMsgs c msgs) s1
    rw [he]
  · intro h
    show (match exec c env (.keeperSend payer account x) s with
      | .ok _ s1 => runTx (runMsgs c msgs) s1 | .err _ _ => s | .panic => s) = s
    cases he : exec c env (.keeperSend payer account x) s with
    | ok u s' => rw [he] at h; cases h
    | err a b => rfl
    | panic => rfl

/-- Every transaction does what one of three histories of single messages does: none, the fee alone, or the
fee followed by all messages. -/
theorem C72_tx_is_history (c : Cfg) (tx : Tx) (s : State) :
    ∃ h : History, (h = [] ∨ h = feeMsg tx.fee ∨ h = feeMsg tx.fee ++ tx.msgs) ∧
      deliverTx c tx s = run c h s := by
  classical
  have msgs : ∀ l s, deliverTx c ⟨none, l⟩ s = run c l s ∨ deliverTx c ⟨none, l⟩ s = s := by
    intro l s
    by_cases h : allSucceed c l s
    · exact .inl ((C72_all_or_nothing c l s).1 h)
    · exact .inr ((C72_all_or_nothing c l s).2 h)
  obtain ⟨fee, l⟩ := tx
  cases fee with
  | none =>
    rcases msgs l s with h | h
    · exact ⟨l, .inr (.inr rfl), h⟩
    · exact ⟨[], .inl rfl, h⟩
  | some f =>
    obtain ⟨env, p, a, x⟩ := f
    have hf := C72_fee_kept c env p a x l s
    cases he : (exec c env (.keeperSend p a x) s).isOk with
    | false => exact ⟨[], .inl rfl, hf.2 he⟩
    | true =>
      have := hf.1 he
      rcases msgs l (step c env (.keeperSend p a x) s) with h | h
      · exact ⟨_, .inr (.inr rfl), by rw [this, h]; rfl⟩
      · exact ⟨_, .inr (.inl rfl), by rw [this, h]; rfl⟩

/-- States a chain reaches from a fresh one by any sequence of signed transactions with any number of
messages and any fees are reachable in the sense of all other theorems. -/
theorem C72_reachable {c : Cfg} {s0 : State} (h0 : Initial c s0) (txs : List Tx)
    (hs : ∀ tx ∈ txs, tx.Signed c) : Reachable c (deliverTxs c txs s0) := by
  have key : ∀ (txs : List Tx) (s : State), Reachable c s → (∀ tx ∈ txs, tx.Signed c) →
      Reachable c (deliverTxs c txs s) := by
    intro txs
    induction txs with
    | nil => intro s hr _; exact hr
    | cons tx t ih =>
      intro s hr hs
      refine ih _ ?_ fun x hx => hs x (List.mem_cons_of_mem _ hx)
      have htx := hs tx List.mem_cons_self
      have hfee : History.Signed c (feeMsg tx.fee) := by
        intro e he
        cases hf : tx.fee with
        | none => rw [hf] at he; cases he
        | some f =>
          obtain ⟨env, p, a, x⟩ := f
          rw [hf] at he
          cases List.mem_singleton.1 he
          exact htx.1 env p a x hf
      obtain ⟨h, hh, e⟩ := C72_tx_is_history c tx s
      have hsig : History.Signed c h := by
        rcases hh with rfl | rfl | rfl
        · intro e he; cases he
        · exact hfee
        · intro e he
          rcases List.mem_append.1 he with he | he
          · exact hfee e he
          · exact htx.2 e he
      rw [e]
      clear e hh
      induction h generalizing s with
      | nil => exact hr
      | cons q t ih2 =>
        exact ih2 _ (hr.step (hsig q List.mem_cons_self)) fun e he => hsig e (List.mem_cons_of_mem _ he)
  exact key txs s0 (.fresh h0) hs

/-- Conversely the state after any history of single messages, which is what the other theorems speak
about, is reached by such transactions. -/
theorem C72_complete {c : Cfg} (s0 : State) (h : History) (hs : h.Signed c) :
    ∃ txs, (∀ tx ∈ txs, Tx.Signed c tx) ∧ run c h s0 = deliverTxs c txs s0 := by
  refine ⟨h.map fun e => ⟨none, [e]⟩, ?_, ?_⟩
  · intro tx htx
    obtain ⟨e, he, rfl⟩ := List.mem_map.1 htx
    refine ⟨fun env p a x hx => (by cases hx), fun e' he' => ?_⟩
    rw [List.mem_singleton.1 he']
    exact hs e he
  · clear hs
    induction h generalizing s0 with
    | nil => rfl
    | cons e t ih =>
      rw [List.map_cons, deliverTxs, run, ih]
      congr 1
      obtain ⟨env, m⟩ := e
      show step c env m s0 = runTx (runMsgs c [(env, m)]) s0
      unfold runTx runMsgs step runTx runMsgs
      rw [MM.bind_apply]
      cases exec c env m s0 <;> rfl

namespace Demo

/-- A delivery, then a transaction whose second message fails, then one that succeeds; both pay a
fee of 5 units to bob. -/
def txs72 : List Tx :=
  [⟨none, [(env 1, .deliver [1])]⟩,
   ⟨some (env 2, alice, bob, 5), [(env 2, .bankSend alice bob 1000), (env 2, .bankSend alice bob 99000000)]⟩,
   ⟨some (env 3, alice, bob, 5), [(env 3, .bankSend alice bob 1000), (env 3, .bankSend bob alice 1)]⟩]

end Demo

set_option maxRecDepth 100000 in
/-- The first send of the failing transaction is undone, its fee is kept. -/
example : (deliverTxs Demo.cfg (Demo.txs72.take 2) Demo.start).balance Demo.bob = 5 ∧
    (deliverTxs Demo.cfg Demo.txs72 Demo.start).balance Demo.bob = 1009 := by decide +kernel

example : Reachable Demo.cfg (deliverTxs Demo.cfg Demo.txs72 Demo.start) := by
  refine C72_reachable Demo.start_initial _ fun tx htx => ?_
  have hb : Demo.bob ≠ Demo.cfg.moduleAddr := by decide +kernel
  simp only [Demo.txs72, List.mem_cons, List.not_mem_nil, or_false] at htx
  rcases htx with rfl | rfl | rfl
  · refine ⟨fun _ _ _ _ h => (by cases h), fun e he => ?_⟩
    cases List.mem_singleton.1 he
    trivial
  all_goals
    refine ⟨fun _ _ _ _ h => (by cases h; exact ⟨Demo.alice_user, hb⟩), fun e he => ?_⟩
    simp only [List.mem_cons, List.not_mem_nil, or_false] at he
    rcases he with rfl | rfl
    · exact Demo.alice_user
    · first | exact Demo.alice_user | exact Demo.bob_user

end Dollar
