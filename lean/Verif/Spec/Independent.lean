import Verif.Spec.Agree

/-
When two transactions in a block have nothing to do with each other.
-/
namespace Dollar.Spec

/-- Whose funds a transaction spends: the sender of a bank transfer, and the signer of a claim, of a vault
lock and of a bridge transfer.  Other kinds of transaction (administration, unlocks, deliveries, IBC and
Hyperlane transfers) are not considered. -/
def spender (c : Cfg) : Msg → Option Addr
  | .bankSend a .. => some a
  | .bankMultiSend a _ => some a
  | .claimYield signer => c.decode signer
  | .lock signer .. => c.decode signer
  | .transfer signer .. => c.decode signer
  | _ => none

/-- Whom a bank transfer pays. -/
def payees : Msg → List Addr
  | .bankSend _ b _ => [b]
  | .bankMultiSend _ outs => outs.map Prod.fst
  | _ => []

/-- Two transactions are independent when different accounts make them, and neither pays the other.
Both may pay the same third account. -/
def Independent (c : Cfg) (m m' : Msg) : Prop :=
  ∃ a a', spender c m = some a ∧ spender c m' = some a' ∧ a ≠ a' ∧ a ∉ payees m' ∧ a' ∉ payees m

/-- Is the transaction a claim of yield? -/
def isClaim : Msg → Bool
  | .claimYield _ => true
  | _ => false

/-- The transactions of a block, each with the answer whether it succeeded. -/
def results (c : Cfg) : History → State → List ((Env × Msg) × Bool)
  | [], _ => []
  | e :: t, s => (e, (exec c e.1 e.2 s).isOk) :: results c t (step c e.1 e.2 s)

end Dollar.Spec
