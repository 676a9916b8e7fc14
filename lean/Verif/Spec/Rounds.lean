import Verif.Spec.Views
import Verif.Spec.Reach
import Verif.Spec.Vaults

/-
Against whom, and how often, a transaction may round.
-/
namespace Dollar.Spec

/-- The accounts that may lose a fraction of a unit of principal to rounding when the message succeeds, each as
often as that may happen: the payer, once per coin movement; the recipient of a portal transfer; when the
index rises also both vaults, once each.  Claims, settings and acknowledgements round against nobody. -/
def roundedIn (c : Cfg) (env : Env) (s : State) : Msg → List Addr
  | .bankSend x .. | .keeperSend x .. | .ibcTransfer x .. | .warpTransfer x .. => [x]
  | .bankMultiSend x outs => outs.map fun _ => x
  | .lock signer .. | .transfer signer .. => (c.decode signer).toList
  | .unlock signer v _ => match c.decode signer with
      | some u => (positionsOf s u v).flatMap fun p =>
          if v = 2 then [vaultAccount c u v p.time, c.modAddr "dollar/vaults/flexible"] else [vaultAccount c u v p.time]
      | none => []
  | .ibcReceive ch .. => [c.escrow "transfer" ch]
  | .ibcTimeout p | .ibcAckError p => [c.escrow "transfer" p.channel]
  | .warpReceive .. => [c.modAddr "warp"]
  | .deliver vaa => match content env vaa with
      | some (.token _ i r _ _) =>
          r :: if s.index < i then [c.modAddr "dollar/vaults/staked", c.modAddr "dollar/vaults/flexible"] else []
      | some (.index ..) => [c.modAddr "dollar/vaults/staked", c.modAddr "dollar/vaults/flexible"]
      | none => []
  | _ => []

/-- These accounts along a history; only successful messages count. -/
def rounded (c : Cfg) : History → State → List Addr
  | [], _ => []
  | (env, m) :: t, s =>
      (if (exec c env m s).isOk then roundedIn c env s m else []) ++ rounded c t (step c env m s)

/-- The number of such roundings along a history. -/
def rounds (c : Cfg) (h : History) (s : State) : Nat := (rounded c h s).length

/-- The number of them against one account. -/
def roundsOf (c : Cfg) (a : Addr) (h : History) (s : State) : Nat := (rounded c h s).count a

end Dollar.Spec
