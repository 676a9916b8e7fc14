import Verif.Spec.Vaults
import Verif.Model.Portal

/-
What the error codes mean: for every registered codespace and number, which messages can be answered with
it and in which states.  Written from the names of the codes, apart from the handlers.
-/
namespace Dollar.Spec
open Dollar

/-- Messages only the authority of the module may send, with the code their refusal carries: yield
recipients are set by a message of `dollar`, both pause switches answer with the code of
`dollar/vaults`. -/
def GovernedBy (codespace : String) : Msg → Option String
  | .setYieldRecipient signer _ _ _ => if codespace = "dollar" then some signer else none
  | .setPaused signer _ => if codespace = "dollar/vaults" then some signer else none
  | .vaultsSetPaused signer _ => if codespace = "dollar/vaults" then some signer else none
  | _ => none

/-- Messages only the owner of the portal may send. -/
def OwnerMessage : Msg → Option String
  | .portalSetPaused signer _ => some signer
  | .setPeer signer _ _ _ => some signer
  | .setBridgingPath signer _ _ _ => some signer
  | .transferOwnership signer _ => some signer
  | _ => none

/-- The vault is closed for this message: season one is over (flexible vault), or the vaults are paused
(1: locking, 2: unlocking, 3: both). -/
def VaultClosed (s : State) : Msg → Prop
  | .lock _ vault _ => vault = 2 ∧ s.seasonOneEnded = true ∨ s.vPaused = 3 ∨ s.vPaused = 1
  | .unlock _ vault _ => vault = 2 ∧ s.seasonOneEnded = true ∨ s.vPaused = 3 ∨ s.vPaused = 2
  | _ => False

/-- The amount of a lock or unlock is not acceptable. -/
def WrongAmount (c : Cfg) (env : Env) (s : State) (user : Addr) : Msg → Prop
  | .lock _ vault (some amount) =>
    amount < c.minLock ∨
      (vault = 1 ∨ vault = 2) ∧ s.positions.get? (user, vault, env.time) = none ∧ s.balance user < amount
  | .unlock _ _ none => True
  | .unlock _ vault (some amount) =>
    amount ≤ 0 ∨
      (vault = 1 ∨ vault = 2) ∧
        (lockedBy s user vault < amount ∨ amount < c.minUnlock ∧ amount ≠ lockedBy s user vault)
  | _ => False

/-- The vault of a lock or unlock does not exist, or (lock) the user already has a position of this
second in it. -/
def WrongVault (c : Cfg) (env : Env) (s : State) (user : Addr) : Msg → Prop
  | .lock _ vault (some amount) =>
    c.minLock ≤ amount ∧ (¬(vault = 1 ∨ vault = 2) ∨ s.positions.get? (user, vault, env.time) ≠ none)
  | .unlock _ vault (some amount) => 0 < amount ∧ ¬(vault = 1 ∨ vault = 2)
  | _ => False

/-- The name a message of the vaults is signed with. -/
def vaultSigner : Msg → Option String
  | .lock signer _ _ => some signer
  | .unlock signer _ _ => some signer
  | _ => none

/-- A delivered message is new and signed by the guardians. -/
def NewlySigned (env : Env) (s : State) (bz : Bytes) (v : VAA) : Prop :=
  env.verify bz = some v ∧ v.digest ∉ s.archive

/-- It comes from the transceiver of a registered peer. -/
def FromPeer (s : State) (v : VAA) (peer : Peer) : Prop :=
  s.peers.get? v.emitterChain = some peer ∧ peer.transceiver = v.emitterAddress

/-- It comes from a peer's transceiver and manager and is addressed to the manager of this chain. -/
def Addressed (c : Cfg) (s : State) (v : VAA) (t : TransceiverMessage Sl) : Prop :=
  ∃ peer, FromPeer s v peer ∧ parseTransceiver v.payload = .ok t ∧
    peer.manager = t.sourceManager.bytes ∧ t.recipientManager.bytes = c.paddedManager

/-- It does not come from a registered peer. -/
def Stranger (s : State) (v : VAA) : Prop :=
  (∀ peer, ¬FromPeer s v peer) ∨
    ∃ peer t, FromPeer s v peer ∧ parseTransceiver v.payload = .ok t ∧ peer.manager ≠ t.sourceManager.bytes

/-- The index it carries for this chain is not above the current one. -/
def CarriesOldIndex (c : Cfg) (s : State) (v : VAA) : Prop :=
  ∃ t m index, Addressed c s v t ∧ parseManager t.managerPayload = .ok m ∧
    payloadType m.payload = .ok .index ∧ decodeIndex m.payload = .ok (index, c.chain) ∧ index ≤ s.index

/-- 32 bytes, not all of them zero. -/
def Proper (b : Bytes) : Prop := b.length = 32 ∧ ∃ x ∈ b, x ≠ 0

/-- The cause of every code. -/
def Cause (codespace : String) (code : Nat) (c : Cfg) (env : Env) (m : Msg) (s : State) : Prop :=
  match codespace, code with
  | "dollar", 1 => ∃ signer, GovernedBy "dollar" m = some signer ∧ signer ≠ c.authority
  | "dollar", 2 => ∃ signer, m = .claimYield signer ∧ s.paused = true
  | "dollar", 3 => ∃ bz v, m = .deliver bz ∧ s.portalPaused = false ∧ NewlySigned env s bz v ∧ CarriesOldIndex c s v
  | "dollar/vaults", 1 => ∃ signer, GovernedBy "dollar/vaults" m = some signer ∧ signer ≠ c.authority
  | "dollar/vaults", 2 => ∃ signer user, vaultSigner m = some signer ∧ ¬VaultClosed s m ∧
      c.decode signer = some user ∧ WrongAmount c env s user m
  | "dollar/vaults", 3 => ∃ signer user, vaultSigner m = some signer ∧ ¬VaultClosed s m ∧
      c.decode signer = some user ∧ WrongVault c env s user m
  | "dollar/vaults", 4 => ∃ kind, m = .vaultsSetPaused c.authority kind ∧ (kind < 0 ∨ 3 < kind)
  | "dollar/vaults", 5 => VaultClosed s m
  | "dollar/portal", 1 => ∃ signer, OwnerMessage m = some signer ∧ s.owner = ""
  | "dollar/portal", 2 => ∃ signer, OwnerMessage m = some signer ∧ s.owner ≠ "" ∧ signer ≠ s.owner
  | "dollar/portal", 3 => s.owner ≠ "" ∧ m = .transferOwnership s.owner s.owner ∧ ∃ a, c.decode s.owner = some a
  | "dollar/portal", 4 => s.portalPaused = true ∧
      ((∃ bz, m = .deliver bz) ∨ ∃ signer amount chain token recipient,
        m = .transfer signer amount chain token recipient)
  | "dollar/portal", 5 =>
      (∃ bz v, m = .deliver bz ∧ s.portalPaused = false ∧ NewlySigned env s bz v ∧ Stranger s v) ∨
      (∃ signer amount chain token recipient, m = .transfer signer amount chain token recipient ∧
        s.portalPaused = false ∧ s.peers.get? chain = none) ∨
      (∃ chain transceiver manager, s.owner ≠ "" ∧ m = .setPeer s.owner chain transceiver manager ∧
        ¬(chain ≠ 0 ∧ chain ≠ c.chain ∧ Proper transceiver ∧ Proper manager))
  | "dollar/portal", 6 =>
      (∃ signer amount chain token recipient, m = .transfer signer amount chain token recipient ∧
        s.portalPaused = false ∧ s.peers.get? chain ≠ none ∧ s.paths.get? (chain, token) = none) ∨
      (∃ chain token supported, s.owner ≠ "" ∧ m = .setBridgingPath s.owner chain token supported ∧
        ¬(chain ≠ c.chain ∧ Proper token))
  | "dollar/portal", 7 => ∃ bz v peer t, m = .deliver bz ∧ s.portalPaused = false ∧ NewlySigned env s bz v ∧
      FromPeer s v peer ∧ parseTransceiver v.payload = .ok t ∧ peer.manager = t.sourceManager.bytes ∧
      t.recipientManager.bytes ≠ c.paddedManager
  | "dollar/portal", 8 => ∃ signer amount chain token recipient,
      m = .transfer signer amount chain token recipient ∧ s.portalPaused = false ∧
      s.peers.get? chain ≠ none ∧ s.paths.get? (chain, token) ≠ none ∧ recipient.length ≠ 32
  | _, _ => False

end Dollar.Spec
