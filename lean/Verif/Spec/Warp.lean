import Verif.Model.System

/-
What is sent out through Hyperlane warp tokens and what comes back.
-/
namespace Dollar
open MM

/-- Total of the warp transfers dispatched to other chains, by users and by the module. -/
def Spec.warpDispatched (s : State) : Int := (s.warpOut.map WarpOut.amount).sum

/-- Total that waits for a retry of a Hyperlane transfer (provider 1). -/
def Spec.hypWaiting (s : State) : Int := ((s.retry.filter fun e => decide (e.1.1 = 1)).map Prod.snd).sum

/-- Total recorded as collateral of the warp tokens. -/
def Spec.collateralTotal (s : State) : Int := (s.collateral.map Prod.snd).sum

/-- The amount that comes back through warp token `t` with a message. -/
def Spec.warpBackOn (t : Nat) : Msg → Int
  | .warpReceive t' _ amount => if t' = t then amount else 0
  | _ => 0

/-- The amount that comes back through any warp token with a message. -/
def Spec.warpBackAny : Msg → Int
  | .warpReceive _ _ amount => amount
  | _ => 0

/-- Total of the warp transfers that came back and were accepted, over a history. -/
def Spec.returned (c : Cfg) (f : Msg → Int) : History → State → Int
  | [], _ => 0
  | (env, m) :: rest, s =>
    (if (exec c env m s).isOk then f m else 0) + returned c f rest (Dollar.step c env m s)

end Dollar
