import Verif.Model.System

/-
Messages whose amount was left out on the wire.
-/
namespace Dollar.Spec

/-- The amount is missing. -/
def Missing : Msg → Prop
  | .lock _ _ none | .unlock _ _ none | .transfer _ none _ _ _ => True
  | _ => False

/-- The message with a missing amount taken for zero. -/
def withZero : Msg → Msg
  | .lock s v a => .lock s v (some (a.getD 0))
  | .unlock s v a => .unlock s v (some (a.getD 0))
  | .transfer s a ch t r => .transfer s (some (a.getD 0)) ch t r
  | m => m

/-- The messages of this module. -/
def Own : Msg → Prop
  | .claimYield _ | .setPaused _ _ | .setYieldRecipient .. | .deliver _ | .transfer .. | .portalSetPaused _ _ | .setPeer .. |
    .setBridgingPath .. | .transferOwnership _ _ | .lock .. | .unlock .. | .vaultsSetPaused _ _ => True
  | _ => False

end Dollar.Spec
