import Verif.Model.System

/-
Transactions with several messages and with fees, as BaseApp runs them.  `step` of Model/System.lean
is the special case of one message and no fee; C72 reduces the general case to it.
-/
namespace Dollar

/-- A transaction: the fee paid in USDN (payer, fee account, amount), if any, and its messages, each with
what the other modules answer while it runs. -/
structure Tx where
  fee : Option (Env × Addr × Addr × Int)
  msgs : List (Env × Msg)

/-- BaseApp `runMsgs`: the messages run one after the other on the same branch of the store; the
first failure ends the transaction (module.go:154-165 registers the handlers that are called). -/
def runMsgs (c : Cfg) : List (Env × Msg) → M Unit
  | [] => pure ()
  | (env, m) :: t => do
    exec c env m
    runMsgs c t

/-- Deduction of the fee by the ante handler: `SendCoinsFromAccountToModule` of x/bank, under the send
restriction (keeper/keeper.go:188-292). -/
def deductFee (c : Cfg) : Option (Env × Addr × Addr × Int) → M Unit
  | none => pure ()
  | some (env, payer, account, amount) => exec c env (.keeperSend payer account amount)

/-- BaseApp `runTx`: when the ante handler fails the transaction is rejected and nothing is written;
otherwise the fee is written, and the messages are written only if all of them succeed. -/
def deliverTx (c : Cfg) (tx : Tx) (s : State) : State :=
  match deductFee c tx.fee s with
  | .ok _ s1 => runTx (runMsgs c tx.msgs) s1
  | .err _ _ => s
  | .panic => s

/-- The transactions of a chain, block after block. -/
def deliverTxs (c : Cfg) : List Tx → State → State
  | [], s => s
  | tx :: t, s => deliverTxs c t (deliverTx c tx s)

/-- The fee payer is a user and the fee account is not the dollar module's mint account; the senders are
users (`Msg.SignedByUser`). -/
def Tx.Signed (c : Cfg) (tx : Tx) : Prop :=
  (∀ env p a x, tx.fee = some (env, p, a, x) → c.IsUser p ∧ a ≠ c.moduleAddr) ∧
    ∀ e ∈ tx.msgs, e.2.SignedByUser c

end Dollar
