import Verif.Model.System

/-
Observations of the state that the properties are stated with, written without the model's
helper functions.
-/
namespace Dollar.Spec
open Dollar

/-- Sum of all USDN balances. -/
def totalBalances (s : State) : Int := (s.bal.map fun e => e.2).sum

/-- Sum of all recorded principals. -/
def totalPrincipals (s : State) : Int := (s.principal.map fun e => e.2).sum

/-- What a message carried by a VAA asks for. -/
inductive Content
  /-- mint `amount` to `recipient`, announcing `index` -/
  | token (amount : Nat) (index : Int) (recipient : Bytes) (chain : Nat) (token : Bytes)
  /-- announce `index` -/
  | index (index : Int) (chain : Nat)
  deriving DecidableEq

/-- The innermost payload of a VAA: transceiver message, then manager message. -/
def innerPayload (v : VAA) : Option Sl :=
  match parseTransceiver v.payload with
  | .ok t => match parseManager t.managerPayload with
    | .ok m => some m.payload
    | _ => none
  | _ => none

/-- The request in an inner payload, if it is one of the two known kinds. -/
def contentOf (payload : Sl) : Option Content :=
  match payloadType payload with
  | .ok .token => match decodeToken payload with
    | .ok p => some (.token p.amount p.index p.recipient p.chain p.token)
    | _ => none
  | .ok .index => match decodeIndex payload with
    | .ok p => some (.index p.1 p.2)
    | _ => none
  | _ => none

/-- The request carried by the bytes of a VAA, as Wormhole verifies them. -/
def content (env : Env) (vaa : Bytes) : Option Content :=
  match env.verify vaa with
  | some v => match innerPayload v with
    | some p => contentOf p
    | none => none
  | none => none

/-- The index announced by a request. -/
def Content.announced : Content → Int
  | .token _ i _ _ _ => i
  | .index i _ => i

/-- The amount a request mints. -/
def Content.minted : Content → Int
  | .token a _ _ _ _ => a
  | .index _ _ => 0

/-- Signed amount of USDN a successful message brings in over the portal. -/
def bridged (env : Env) : Msg → Int
  | .deliver vaa => match content env vaa with
    | some q => q.minted
    | none => 0
  | .transfer _ (some a) _ _ _ => -a
  | _ => 0

/-- Net amount brought in over the portal by the successful messages of a history. -/
def netBridged (c : Cfg) : History → State → Int
  | [], _ => 0
  | (env, m) :: t, s =>
    (match exec c env m s with
      | .ok _ _ => bridged env m
      | _ => 0) + netBridged c t (step c env m s)

end Dollar.Spec
