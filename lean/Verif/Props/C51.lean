import Verif.Lemmas.WP
import Verif.Lemmas.Bank
import Verif.Lemmas.Handlers
import Verif.Spec.Views
import Verif.Spec.Demo

/-
C51: administrative messages succeed exactly when the signer and the arguments are right, and then
change exactly one setting.
-/
set_option maxRecDepth 100000
namespace Dollar
open MM Spec

/-- The signer is the portal owner, and there is one. -/
def Spec.OwnedBy (s : State) (signer : String) : Prop := s.owner ≠ "" ∧ signer = s.owner

/-- A 32-byte word other than zero. -/
def Spec.NonZeroWord (b : Bytes) : Prop := b.length = 32 ∧ ∃ x ∈ b, x ≠ 0

theorem nonZeroWord_iff (b : Bytes) : NonZeroWord b ↔ b.length = 32 ∧ b ≠ zero32 := by
  constructor
  · rintro ⟨h, x, hx, h0⟩
    refine ⟨h, fun e => ?_⟩
    rw [e] at hx
    exact h0 (List.eq_of_mem_replicate hx)
  · rintro ⟨h, hn⟩
    refine ⟨h, ?_⟩
    by_contra hc
    refine hn (List.eq_replicate_iff.2 ⟨h, fun x hx => ?_⟩)
    by_contra h0
    exact hc ⟨x, hx, h0⟩

theorem ensureOwner_iff {signer : String} {s s' : State} {u : Unit} :
    ensureOwner signer s = .ok u s' ↔ OwnedBy s signer ∧ s' = s := by
  unfold ensureOwner OwnedBy
  simp only [bind_ok, get_ok]
  constructor
  · rintro ⟨_, _, ⟨rfl, rfl⟩, h⟩
    rw [ite_ok] at h
    rcases h with ⟨_, h⟩ | ⟨h1, h⟩
    · cases h
    rw [ite_ok] at h
    rcases h with ⟨_, h⟩ | ⟨h2, h⟩
    · cases h
    · cases h; exact ⟨⟨h1, not_not.1 h2⟩, rfl⟩
  · rintro ⟨⟨h1, h2⟩, rfl⟩
    refine ⟨_, _, ⟨rfl, rfl⟩, ?_⟩
    rw [if_neg h1, if_neg (not_not.2 h2)]
    rfl

/-- SetPausedState of the module: exactly the authority, and only the pause flag changes. -/
theorem C51_set_paused (c : Cfg) (env : Env) (signer : String) (b : Bool) (s s' : State) :
    exec c env (.setPaused signer b) s = .ok () s' ↔
      signer = c.authority ∧
        s' = { s with paused := b, events := s.events ++ [.pausedSet b] } := by
  show setPaused c signer b s = _ ↔ _
  unfold setPaused
  by_cases h : signer = c.authority
  · rw [if_neg (not_not.2 h)]
    constructor
    · intro e; cases e; exact ⟨h, rfl⟩
    · rintro ⟨_, rfl⟩; rfl
  · rw [if_pos h]
    constructor
    · intro e; cases e
    · rintro ⟨e, _⟩; exact absurd e h

/-- SetPausedState of the vaults: exactly the authority and one of the four pause types (none, lock,
unlock, all), and only the vault pause state changes. -/
theorem C51_vaults_set_paused (c : Cfg) (env : Env) (signer : String) (p : Int) (s s' : State) :
    exec c env (.vaultsSetPaused signer p) s = .ok () s' ↔
      signer = c.authority ∧ (p = 0 ∨ p = 1 ∨ p = 2 ∨ p = 3) ∧
        s' = { s with vPaused := p, events := s.events ++ [.vaultsPausedSet p] } := by
  show vaultsSetPaused c signer p s = _ ↔ _
  unfold vaultsSetPaused
  by_cases h : signer = c.authority
  · rw [if_neg (not_not.2 h)]
    by_cases hp : 0 ≤ p ∧ p ≤ 3
    · rw [if_neg (not_not.2 hp)]
      constructor
      · intro e; cases e; exact ⟨h, by omega, rfl⟩
      · rintro ⟨_, _, rfl⟩; rfl
    · rw [if_pos hp]
      constructor
      · intro e; cases e
      · rintro ⟨_, e, _⟩; exact absurd (by omega) hp
  · rw [if_pos h]
    constructor
    · intro e; cases e
    · rintro ⟨e, _⟩; exact absurd e h

/-- SetPausedState of the portal: exactly the owner, and only the portal pause flag changes. -/
theorem C51_portal_set_paused (c : Cfg) (env : Env) (signer : String) (b : Bool) (s s' : State) :
    exec c env (.portalSetPaused signer b) s = .ok () s' ↔
      OwnedBy s signer ∧
        s' = { s with portalPaused := b, events := s.events ++ [.portalPausedSet b] } := by
  show portalSetPaused signer b s = _ ↔ _
  unfold portalSetPaused
  simp only [bind_ok, ensureOwner_iff]
  constructor
  · rintro ⟨_, _, ⟨h, rfl⟩, _, _, hm, he⟩
    cases hm; cases he; exact ⟨h, rfl⟩
  · rintro ⟨h, rfl⟩
    exact ⟨(), _, ⟨h, rfl⟩, (), _, rfl, rfl⟩

/-- SetPeer: exactly the owner, a foreign chain other than 0 and two non-zero 32-byte addresses; the
peer of that chain is replaced, every other peer and all other state stays. -/
theorem C51_set_peer (c : Cfg) (env : Env) (signer : String) (chain : Nat) (transceiver manager : Bytes)
    (s s' : State) :
    exec c env (.setPeer signer chain transceiver manager) s = .ok () s' ↔
      OwnedBy s signer ∧ chain ≠ 0 ∧ chain ≠ c.chain ∧ NonZeroWord transceiver ∧ NonZeroWord manager ∧
        s' = { s with
          peers := s.peers.set chain ⟨transceiver, manager⟩,
          events := s.events ++ [.peerUpdated chain (s.peers.get? chain) ⟨transceiver, manager⟩] } := by
  show setPeer c signer chain transceiver manager s = _ ↔ _
  unfold setPeer
  simp only [bind_ok, ensureOwner_iff, get_ok, nonZeroWord_iff]
  constructor
  · rintro ⟨_, _, ⟨h, rfl⟩, _, _, ⟨rfl, rfl⟩, he⟩
    split at he
    · cases he
    split at he
    · cases he
    split at he
    · cases he
    split at he
    · cases he
    split at he
    · cases he
    split at he
    · cases he
    rename_i h1 h2 h3 h4 h5 h6
    cases he
    exact ⟨h, h1, h2, ⟨not_not.1 h3, h4⟩, ⟨not_not.1 h5, h6⟩, rfl⟩
  · rintro ⟨h, h1, h2, ⟨h3, h4⟩, ⟨h5, h6⟩, rfl⟩
    refine ⟨(), _, ⟨h, rfl⟩, _, _, ⟨rfl, rfl⟩, ?_⟩
    rw [if_neg h1, if_neg h2, if_neg (not_not.2 h3), if_neg h4, if_neg (not_not.2 h5), if_neg h6]
    rfl

/-- SetBridgingPath: exactly the owner, a foreign chain and a non-zero 32-byte token; that path is
set, every other path and all other state stays. -/
theorem C51_set_bridging_path (c : Cfg) (env : Env) (signer : String) (chain : Nat) (token : Bytes)
    (b : Bool) (s s' : State) :
    exec c env (.setBridgingPath signer chain token b) s = .ok () s' ↔
      OwnedBy s signer ∧ chain ≠ c.chain ∧ NonZeroWord token ∧
        s' = { s with
          paths := s.paths.set (chain, token) b,
          events := s.events ++ [.bridgingPathSet chain token b] } := by
  show setBridgingPath c signer chain token b s = _ ↔ _
  unfold setBridgingPath
  simp only [bind_ok, ensureOwner_iff, nonZeroWord_iff]
  constructor
  · rintro ⟨_, _, ⟨h, rfl⟩, he⟩
    split at he
    · cases he
    split at he
    · cases he
    split at he
    · cases he
    rename_i h1 h2 h3
    cases he
    exact ⟨h, h1, ⟨not_not.1 h2, h3⟩, rfl⟩
  · rintro ⟨h, h1, ⟨h2, h3⟩, rfl⟩
    refine ⟨(), _, ⟨h, rfl⟩, ?_⟩
    rw [if_neg h1, if_neg (not_not.2 h2), if_neg h3]
    rfl

/-- TransferOwnership: exactly the owner, to a valid address string other than their own; only the
owner changes. -/
theorem C51_transfer_ownership (c : Cfg) (env : Env) (signer newOwner : String) (s s' : State) :
    exec c env (.transferOwnership signer newOwner) s = .ok () s' ↔
      OwnedBy s signer ∧ (∃ a, c.decode newOwner = some a) ∧ newOwner ≠ signer ∧
        s' = { s with owner := newOwner, events := s.events ++ [.ownershipTransferred signer newOwner] } := by
  show transferOwnership c signer newOwner s = _ ↔ _
  unfold transferOwnership
  simp only [bind_ok, ensureOwner_iff]
  constructor
  · rintro ⟨_, _, ⟨h, rfl⟩, he⟩
    cases ha : c.decode newOwner with
    | none => rw [ha] at he; cases he
    | some a =>
    rw [ha] at he
    replace he : (if newOwner = signer then fail .sameOwner else _ : M Unit) _ = .ok () s' := he
    split at he
    · cases he
    rename_i h1
    cases he
    exact ⟨h, ⟨a, rfl⟩, h1, rfl⟩
  · rintro ⟨h, ⟨a, ha⟩, h1, rfl⟩
    refine ⟨(), _, ⟨h, rfl⟩, ?_⟩
    rw [ha]
    show (if newOwner = signer then _ else _ : M Unit) _ = _
    rw [if_neg h1]
    rfl

/-- The stores named in the theorems above change at one key only. -/
theorem C51_one_key (s : State) (chain : Nat) (p : Peer) (token : Bytes) (b : Bool) :
    (∀ k, (s.peers.set chain p).get? k = if k = chain then some p else s.peers.get? k) ∧
    (∀ k, (s.paths.set (chain, token) b).get? k = if k = (chain, token) then some b else s.paths.get? k) :=
  ⟨fun _ => KV.get?_set _ _ _ _, fun _ => KV.get?_set _ _ _ _⟩

/-- Non-vacuity: the demo chain has an owner who can set a peer and a path, and an authority. -/
example : OwnedBy Demo.start "owner" ∧ NonZeroWord (List.replicate 32 5) ∧
    (∃ s', exec Demo.cfg (Demo.env 1) (.setPeer "owner" 2 (List.replicate 32 5) (List.replicate 32 6))
      Demo.start = .ok () s') ∧
    (∃ s', exec Demo.cfg (Demo.env 1) (.vaultsSetPaused Demo.cfg.authority 3) Demo.start = .ok () s') ∧
    (∀ s', exec Demo.cfg (Demo.env 1) (.vaultsSetPaused Demo.cfg.authority 4) Demo.start ≠ .ok () s') := by
  have hw : ∀ n : UInt8, n ≠ 0 → NonZeroWord (List.replicate 32 n) := fun n hn =>
    ⟨List.length_replicate, n, List.mem_replicate.2 ⟨by decide, rfl⟩, hn⟩
  have ho : OwnedBy Demo.start "owner" := ⟨by decide +kernel, by decide +kernel⟩
  refine ⟨ho, hw 5 (by decide), ⟨_, (C51_set_peer ..).2 ⟨ho, by decide, by decide +kernel,
    hw 5 (by decide), hw 6 (by decide), rfl⟩⟩, ⟨_, (C51_vaults_set_paused ..).2 ⟨rfl, by decide, rfl⟩⟩,
    fun s' h => ?_⟩
  have := ((C51_vaults_set_paused ..).1 h).2.1
  omega

end Dollar
