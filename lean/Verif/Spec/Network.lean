import Verif.Props.C14
import Mathlib.Algebra.BigOperators.Group.Finset.Basic

/-
Several chains that run this code, connected by Wormhole. Used to state what bridging between them keeps.
-/
namespace Dollar.Spec
open Dollar

/-- One transaction on one chain of the network. -/
structure NetEvent (n : Nat) where
  chain : Fin n
  env : Env
  msg : Msg

/-- The state of every chain. -/
abbrev Net (n : Nat) := Fin n → State

/-- A transaction changes only the chain it runs on. -/
def netStep (c : Fin n → Cfg) (e : NetEvent n) (S : Net n) : Net n :=
  fun i => if i = e.chain then step (c i) e.env e.msg (S i) else S i

/-- Any interleaving of transactions of all the chains. -/
def netRun (c : Fin n → Cfg) : List (NetEvent n) → Net n → Net n
  | [], S => S
  | e :: t, S => netRun c t (netStep c e S)

/-- What a message, when it succeeds, sends out to the Wormhole chains in `dest`. -/
def outgoing (dest : Nat → Bool) : Msg → Int
  | .transfer _ (some a) ch _ _ => if dest ch then a else 0
  | _ => 0

/-- What a message, when it succeeds, brings in from the Wormhole chains in `src`. -/
def incoming (src : Nat → Bool) (env : Env) : Msg → Int
  | .deliver vaa => match env.verify vaa with
    | some v => if src v.emitterChain then
        (match content env vaa with
          | some q => q.minted
          | none => 0)
      else 0
    | none => 0
  | _ => 0

/-- What the transaction sends from chain `j` to the chains in `dest`; nothing if it fails or is not on chain `j`. -/
def sends (c : Fin n → Cfg) (j : Fin n) (dest : Nat → Bool) (e : NetEvent n) (S : Net n) : Int :=
  if e.chain = j then
    match exec (c j) e.env e.msg (S j) with
    | .ok _ _ => outgoing dest e.msg
    | _ => 0
  else 0

/-- What the transaction mints on chain `i` from the chains in `src`. -/
def receives (c : Fin n → Cfg) (i : Fin n) (src : Nat → Bool) (e : NetEvent n) (S : Net n) : Int :=
  if e.chain = i then
    match exec (c i) e.env e.msg (S i) with
    | .ok _ _ => incoming src e.env e.msg
    | _ => 0
  else 0

/-- Everything burned on chain `j` by transfers to the chains in `dest`. -/
def sent (c : Fin n → Cfg) (j : Fin n) (dest : Nat → Bool) : List (NetEvent n) → Net n → Int
  | [], _ => 0
  | e :: t, S => sends c j dest e S + sent c j dest t (netStep c e S)

/-- Everything minted on chain `i` by deliveries from the chains in `src`. -/
def received (c : Fin n → Cfg) (i : Fin n) (src : Nat → Bool) : List (NetEvent n) → Net n → Int
  | [], _ => 0
  | e :: t, S => receives c i src e S + received c i src t (netStep c e S)

/-- The Wormhole side: the address under which each chain's portal posts, and the digest of the message with a
given sequence number. Different messages have different digests (the digest is a hash of the body, which holds
the emitter chain, the emitter and the sequence). -/
structure Wormhole (n : Nat) where
  emitter : Fin n → Bytes
  digest : Fin n → Nat → Bytes
  digest_inj : ∀ j k a b, digest j a = digest k b → j = k ∧ a = b

/-- Honest guardians: a delivered VAA that is verified as coming from the portal of a chain of the network is one
that this chain has posted before. Nothing is assumed about other emitters. -/
def Honest (c : Fin n → Cfg) (W : Wormhole n) (S : Net n) (e : NetEvent n) : Prop :=
  ∀ vaa v j, e.msg = .deliver vaa → e.env.verify vaa = some v → v.emitterChain = (c j).chain →
    v.emitterAddress = W.emitter j →
    ∃ seq raw nonce tail, (S j).posted[seq]? = some (raw, nonce) ∧ v.digest = W.digest j seq ∧
      v.payload = Sl.ofBytes raw tail

/-- Honest guardians throughout the history. -/
def HonestRun (c : Fin n → Cfg) (W : Wormhole n) (h : List (NetEvent n)) (S : Net n) : Prop :=
  ∀ pre e post, h = pre ++ e :: post → Honest c W (netRun c pre S) e

/-- A transaction as the network may run it: signed by users, with the chain of a transfer a uint16 as Go's type
says, and owners enter the true portal address when they set a chain of the network as a peer. -/
structure NetEvent.Fair (c : Fin n → Cfg) (W : Wormhole n) (e : NetEvent n) : Prop where
  signed : e.msg.SignedByUser (c e.chain)
  small : ∀ s a ch t r, e.msg = .transfer s a ch t r → ch < 2 ^ 16
  peers : ∀ s j t m, e.msg = .setPeer s (c j).chain t m → t = W.emitter j

/-- The network: well-formed chains with different Wormhole ids. -/
structure NetWF (c : Fin n → Cfg) : Prop where
  wf : ∀ i, (c i).WF
  denom : ∀ i, (c i).denom.toByteArray.data.toList.length ≤ 32
  ids : ∀ i j, (c i).chain = (c j).chain → i = j

/-- A network of fresh chains, whose genesis peers are the true ones. -/
structure NetStart (c : Fin n → Cfg) (W : Wormhole n) (S : Net n) : Prop where
  initial : ∀ i, Initial (c i) (S i)
  sized : ∀ i, Sized (S i)
  peers : ∀ i j p, (S i).peers.get? (c j).chain = some p → p.transceiver = W.emitter j

/-- The Wormhole chain `ch` only. -/
def only (ch : Nat) : Nat → Bool := fun x => x == ch

/-- The chains that are not in the network. -/
def outside (c : Fin n → Cfg) : Nat → Bool := fun x => decide (∀ j, x ≠ (c j).chain)

end Dollar.Spec
