import Verif.Model.Disk
import Verif.Model.CheckedAll

/-
A node as a whole: messages come in as bytes, the module's state lies in the key-value store as bytes, every handler reads it
from there and writes it back, and the arithmetic is the chain's, with the panic on overflow.
-/
namespace Dollar
open Proto

/-- What a node has between two transactions: the module's store (keeper/keeper.go:142-165) and the state of the other modules. -/
structure Node where
  store : Disk
  rest : State

/-- The state of the other modules; the module's own part is left blank. -/
def elsewhere (s : State) : State :=
  { s with
    paused := false, index := 0, holders := 0, totalPrincipal := 0, totalYield := 0, owner := "", portalPaused := false,
    nonce := 0, vPaused := 0, seasonOneEnded := false, collector := [], totalFlexible := 0, vstats := ⟨0, 0, 0, 0, 0⟩,
    principal := [], extYield := [], recipients := [], retry := [], peers := [], paths := [], positions := [],
    rewards := [] }

/-- What reaches a node: a message of the module as the bytes of its type (module.go:154-165), or an action of another module on the
module (a bank transfer, a packet, a warp transfer), which this model does not take apart into bytes.  `nanos` are the
nanoseconds of the times of the positions that are written. -/
inductive Input
  | wire (env : Env) (nanos : PosKey → Int) (t : MsgType) (b : Bytes)
  | other (env : Env) (nanos : PosKey → Int) (m : Msg)

/-- The message that an input stands for; bytes that do not decode stand for none (the transaction is refused before any handler
runs). -/
def Input.msg (T : IntText) : Input → Option (Env × Msg)
  | .wire env _ t b =>
    match decodeMsg T t b with
    | .ok m => some (env, m)
    | _ => none
  | .other env _ m => some (env, m)

def Input.nanos : Input → PosKey → Int
  | .wire _ n _ _ => n
  | .other _ n _ => n

/-- The state as the handlers read it from the store (keeper/state.go, keeper/state_portal.go, keeper/state_vaults.go). -/
def Node.load (T : IntText) (n : Node) : PRes State := restart T n.rest n.store

/-- The node after a commit (the same files). -/
def Node.save (nanos : PosKey → Int) (s : State) : Node := ⟨disk nanos s, elsewhere s⟩

/-- One input: decode, read, handle with bounded integers, write.  A failed handler changes nothing (baseapp); a store that cannot be
read stops the node (`none`).  Simplification: the whole store is read and written for every message, where the code reads and
writes the keys it needs (C66 has the single accesses). -/
def Node.deliver (T : IntText) (c : Cfg) (n : Node) (i : Input) : Option Node :=
  match n.load T with
  | .ok s =>
    match i.msg T with
    | some (env, m) => some (Node.save i.nanos (Checked.Full.step c env m s))
    | none => some n
  | _ => none

/-- All inputs, one after the other. -/
def Node.run (T : IntText) (c : Cfg) (l : List Input) (n : Node) : Option Node := l.foldlM (Node.deliver T c) n

end Dollar
