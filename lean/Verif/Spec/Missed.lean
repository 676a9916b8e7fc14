import Verif.Spec.Views

/-
How many holders the statistic can miss because of one transaction (C43), in terms of the state before it.
-/
namespace Dollar.Spec

/-- The index that a message announces is above the current one. -/
def above (s : State) : Option Content → Bool
  | some (.token _ i _ _ _) => s.index < i
  | some (.index i _) => s.index < i
  | none => false

/-- A delivery announces an index above the current one. -/
def raises (env : Env) (s : State) (vaa : Bytes) : Bool := above s (content env vaa)

/-- The accounts to which a rise of the index pays yield: the two vaults, the warp module and the escrow account of
every channel with a yield recipient. -/
def paidByRise (c : Cfg) (s : State) : List Addr :=
  [c.modAddr "dollar/vaults/staked", c.modAddr "dollar/vaults/flexible", c.modAddr "warp"] ++
    (s.recipients.filter fun e => e.1.1 = 0).map fun e => c.escrow "transfer" e.1.2

/-- How many holders a transaction can make the statistic miss:
* a multi-send that spends everything is subtracted once per output instead of once,
* an account without coins that claims yield is not counted,
* neither is the account of a flexible position over nothing from which its owner unlocks,
* nor an account without coins that a rise of the index pays. -/
def misses (c : Cfg) (env : Env) (s : State) : Msg → Nat
  | .bankMultiSend a outs => if (outs.map Prod.snd).sum = s.balance a then outs.length - 1 else 0
  | .claimYield signer => if ∃ a, c.decode signer = some a ∧ s.balance a = 0 then 1 else 0
  | .unlock signer v _ => if v = 2 then
      (s.positions.filter fun e => some e.1.1 = c.decode signer ∧ e.1.2.1 = 2 ∧ e.2.amount = 0).length else 0
  | .deliver vaa => if raises env s vaa then ((paidByRise c s).filter fun a => s.balance a = 0).length else 0
  | _ => 0

/-- The same for a history: the sum over its transactions. -/
def missedIn (c : Cfg) : History → State → Nat
  | [], _ => 0
  | (env, m) :: t, s => misses c env s m + missedIn c t (step c env m s)

end Dollar.Spec
