import Verif.Model.System

/-
States that differ only in parts that should not matter.
-/
namespace Dollar.Spec
open Dollar

/-- The state without statistics, event log and outboxes: the number of holders, the total and external
yield counters, the vault statistics, the log, the posted Wormhole messages and the lists of IBC and warp
transfers sent. -/
def unrecorded (s : State) : State :=
  { s with
    holders := 0, totalYield := 0, extYield := [], vstats := ⟨0, 0, 0, 0, 0⟩, events := [], posted := [],
    ibcOut := [], warpOut := [] }

/-- The state also without the settings of the module and the portal, the nonce, and the archive of
delivered messages. -/
def funds (s : State) : State :=
  { unrecorded s with
    paused := false, vPaused := 0, owner := "", portalPaused := false, peers := [], paths := [], nonce := 0,
    archive := [] }

/-- What a message may look at: the funds, and of the settings only those that concern it. -/
def looksAt (m : Msg) (s : State) : State :=
  match m with
  | .claimYield _ => { funds s with paused := s.paused }
  | .lock .. | .unlock .. => { funds s with vPaused := s.vPaused }
  | .deliver _ => { funds s with portalPaused := s.portalPaused, peers := s.peers, archive := s.archive }
  | .transfer .. => { funds s with portalPaused := s.portalPaused, peers := s.peers, paths := s.paths }
  | .portalSetPaused .. | .setPeer .. | .setBridgingPath .. | .transferOwnership .. => { funds s with owner := s.owner }
  | _ => funds s

/-- How a message ended. -/
inductive Outcome
  | done | error (e : Err) | panic
  deriving DecidableEq

/-- The outcome of a message. -/
def outcome (c : Cfg) (env : Env) (m : Msg) (s : State) : Outcome :=
  match exec c env m s with
  | .ok _ _ => .done
  | .err e _ => .error e
  | .panic => .panic

end Dollar.Spec
