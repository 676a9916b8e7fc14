import Verif.Model.Events

/-
The log of the chain as somebody outside sees it.
-/
namespace Dollar.Spec

open Json

/-- The log, as the JSON API of a node shows it: for every event its type, and its attributes as JSON strings. -/
def seen (c : Cfg) (s : State) : List (String × List (String × List Char)) := s.events.map fun e => shown (abci c e)

/-- The events that are emitted as protobuf messages: all but the two that imitate the events of other Wormhole bridges. -/
def Typed : Event → Prop
  | .transferSent .. | .transferSentDigest _ => False
  | _ => True

/-- The previous peer of a peer update is a peer with a transceiver or a manager (`SetPeer` stores no others). -/
def RealPeers : Event → Prop
  | .peerUpdated _ o _ => o ≠ some ⟨[], []⟩
  | _ => True

/-- A JSON string is read. -/
def unquote (l : List Char) : Option (List Char) :=
  match string l with
  | some (s, []) => some s
  | _ => none

/-- A client takes what it is shown back to an ABCI event. -/
def understood (x : String × List (String × List Char)) : Option Abci :=
  (x.2.mapM fun f => (unquote f.2).map fun s => (f.1, utf8 s)).map fun l => ⟨x.1, l⟩

/-- Numbers within 64 bits, and amounts. -/
def In64 (x : Int) : Prop := -2 ^ 63 ≤ x ∧ x < 2 ^ 63
def Amount (x : Int) : Prop := x.natAbs < 2 ^ 256

/-- An event whose numbers fit the types of their fields, whose enumerations have names and whose accounts have an
address. -/
def FieldsFit (c : Cfg) : Event → Prop
  | .yieldClaimed _ x => Amount x
  | .indexUpdated o n p y => In64 o ∧ In64 n ∧ Amount p ∧ Amount y
  | .pausedSet _ => True
  | .mTokenReceived ch _ _ r x i _ => ch < 2 ^ 32 ∧ c.decode (c.encode r) = some r ∧ Amount x ∧ In64 i
  | .transferRedeemed _ => True
  | .delivered _ => True
  | .usdnTokenSent ch _ _ _ x i _ => ch < 2 ^ 16 ∧ Amount x ∧ In64 i
  | .transferSent .. => True
  | .transferSentDigest _ => True
  | .portalPausedSet _ => True
  | .peerUpdated ch _ _ => ch < 2 ^ 16
  | .bridgingPathSet ch _ _ => ch < 2 ^ 16
  | .ownershipTransferred _ _ => True
  | .yieldRecipientSet p _ _ => -2 ^ 31 ≤ p ∧ p < 2 ^ 31
  | .positionLocked _ v i x p => (v = 1 ∨ v = 2) ∧ In64 i ∧ Amount x ∧ Amount p
  | .positionUnlocked _ v i x p => (v = 1 ∨ v = 2) ∧ In64 i ∧ Amount x ∧ Amount p
  | .rewardClaimed r x => c.decode (c.encode r) = some r ∧ Amount x
  | .vaultsPausedSet p => 0 ≤ p ∧ p ≤ 3

end Dollar.Spec
