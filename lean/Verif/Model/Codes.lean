import Verif.Model.System
import Verif.Model.Tx

/-
The error codes a client is answered with when a message fails: types/errors.go,
types/vaults/errors.go, types/portal/errors.go, and which of them the handlers return.

cosmossdk.io/errors: every registered error has a codespace and a number; `Wrap`/`Wrapf` keep both, and
BaseApp puts them in the result of the transaction.
-/
namespace Dollar.Codes

/-- The registered errors. -/
inductive Reg
  | dInvalidRequest | dInvalidAuthority | dPaused | dDecreasingIndex
  | vInvalidAuthority | vInvalidAmount | vInvalidVaultType | vInvalidPauseType | vActionPaused
  | pNoOwner | pNotOwner | pSameOwner | pPaused | pInvalidPeer | pInvalidBridgePath
  | pInvalidMessage | pInvalidRecipient
  deriving DecidableEq, Repr

/-- types/errors.go:25-28 (codespace types/keys.go:29), types/vaults/errors.go:26-30 (codespace
types/vaults/keys.go:32) and types/portal/errors.go:26-33 (codespace types/portal/keys.go:23). -/
def registered : Reg → String × Nat
  | .dInvalidRequest => ("dollar", 0)
  | .dInvalidAuthority => ("dollar", 1)
  | .dPaused => ("dollar", 2)
  | .dDecreasingIndex => ("dollar", 3)
  | .vInvalidAuthority => ("dollar/vaults", 1)
  | .vInvalidAmount => ("dollar/vaults", 2)
  | .vInvalidVaultType => ("dollar/vaults", 3)
  | .vInvalidPauseType => ("dollar/vaults", 4)
  | .vActionPaused => ("dollar/vaults", 5)
  | .pNoOwner => ("dollar/portal", 1)
  | .pNotOwner => ("dollar/portal", 2)
  | .pSameOwner => ("dollar/portal", 3)
  | .pPaused => ("dollar/portal", 4)
  | .pInvalidPeer => ("dollar/portal", 5)
  | .pInvalidBridgePath => ("dollar/portal", 6)
  | .pInvalidMessage => ("dollar/portal", 7)
  | .pInvalidRecipient => ("dollar/portal", 8)

/-- keeper/msg_server.go:54, 76, 129: the registered errors of `dollar`'s own messages. -/
def dollarErr : Err → Option Reg
  | .paused => some .dPaused
  -- msg_server.go:76 returns the error of the vaults submodule
  | .invalidAuthority => some .vInvalidAuthority
  | _ => none

/-- keeper/msg_server_v2.go:50. -/
def v2Err : Err → Option Reg
  | .invalidAuthority => some .dInvalidAuthority
  | _ => none

/-- keeper/keeper.go:342-385 and keeper/msg_server_portal.go:60-74, 198-218, 249-257, 282, 299-303;
keeper/msg_server.go:129 (`UpdateIndex` is only reached from a delivered message). -/
def portalErr : Err → Option Reg
  | .decreasingIndex => some .dDecreasingIndex
  | .noOwner => some .pNoOwner
  | .notOwner => some .pNotOwner
  | .sameOwner => some .pSameOwner
  | .portalPaused => some .pPaused
  | .invalidPeer => some .pInvalidPeer
  | .invalidBridgePath => some .pInvalidBridgePath
  | .invalidMessage => some .pInvalidMessage
  | .invalidRecipient => some .pInvalidRecipient
  | _ => none

/-- keeper/msg_server_vaults.go:50-88, 158-221, 325, 344-350.  Line 83 answers a second position in the
same block with `ErrInvalidVaultType`. -/
def vaultsErr : Err → Option Reg
  | .invalidAuthority => some .vInvalidAuthority
  | .invalidAmount => some .vInvalidAmount
  | .invalidVaultType => some .vInvalidVaultType
  | .samePositionTime => some .vInvalidVaultType
  | .invalidPauseType => some .vInvalidPauseType
  | .actionPaused => some .vActionPaused
  | _ => none

/-- The registered error behind a failure of a message; `none` for errors of other modules and for the
unregistered ones (`fmt.Errorf`) of this repository.
Handlers: keeper/msg_server.go, msg_server_v2.go, msg_server_portal.go, msg_server_vaults.go. -/
def regOf : Msg → Err → Option Reg
  | .claimYield _, e => dollarErr e
  | .setPaused _ _, e => dollarErr e
  | .setYieldRecipient _ _ _ _, e => v2Err e
  | .deliver _, e => portalErr e
  | .transfer _ _ _ _ _, e => portalErr e
  | .portalSetPaused _ _, e => portalErr e
  | .setPeer _ _ _ _, e => portalErr e
  | .setBridgingPath _ _ _ _, e => portalErr e
  | .transferOwnership _ _, e => portalErr e
  | .lock _ _ _, e => vaultsErr e
  | .unlock _ _ _, e => vaultsErr e
  | .vaultsSetPaused _ _, e => vaultsErr e
  | _, _ => none

/-- What a client is told about a message. -/
inductive Answer
  | success
  | code (codespace : String) (code : Nat)
  /-- an error that this repository does not register -/
  | other
  | crash
  deriving DecidableEq, Repr

/-- cosmossdk.io/errors `ABCIInfo` of a handler's result. -/
def answerOf (m : Msg) : Res State Unit → Answer
  | .ok _ _ => .success
  | .err e _ =>
    match regOf m e with
    | some r => .code (registered r).1 (registered r).2
    | none => .other
  | .panic => .crash

/-- The answer to one message (module.go:154-165 registers the handlers). -/
def answer (c : Cfg) (env : Env) (m : Msg) (s : State) : Answer := answerOf m (exec c env m s)

/-- The answer to a transaction: that of its first failing message (BaseApp `runMsgs`). -/
def answerMsgs (c : Cfg) : List (Env × Msg) → State → Answer
  | [], _ => .success
  | (env, m) :: t, s =>
    match exec c env m s with
    | .ok _ s' => answerMsgs c t s'
    | r => answerOf m r

end Dollar.Codes
