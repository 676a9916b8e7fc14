import Verif.Model.System

/-
An off-chain indexer: what can be known about the chain from its event log alone.
-/
namespace Dollar.Spec

/-- What the indexer keeps. -/
@[ext] structure Indexer where
  paused : Bool
  portalPaused : Bool
  vaultsPaused : Int
  owner : String
  peer : Nat → Option Peer
  path : Nat → Bytes → Option Bool
  recipient : Int → String → Option String
  index : Int
  nonce : Nat
  /-- principal counted for the staked and the flexible vault -/
  stakedPrincipal : Int
  flexiblePrincipal : Int
  /-- rewards distributed to the flexible vault -/
  distributed : Int
  /-- the part of the supply that came over the bridge -/
  bridged : Int

/-- How the indexer follows one event.  It gives up (`none`) when the event contradicts what it
knows: an index update that does not start at the known index or does not raise it, a peer update or
an ownership transfer that names a wrong predecessor, a transfer with an unexpected sequence number, a
position or an outgoing transfer that is not valued at the current index. -/
def Indexer.follow (v : Indexer) : Event → Option Indexer
  | .pausedSet b => some { v with paused := b }
  | .portalPausedSet b => some { v with portalPaused := b }
  | .vaultsPausedSet b => some { v with vaultsPaused := b }
  | .ownershipTransferred old new =>
    if old = v.owner ∧ new ≠ old then some { v with owner := new } else none
  | .peerUpdated chain old new =>
    if old = v.peer chain then
      some { v with peer := fun k => if k = chain then some new else v.peer k }
    else none
  | .bridgingPathSet chain token b =>
    some { v with path := fun k t => if k = chain ∧ t = token then some b else v.path k t }
  | .yieldRecipientSet provider id r =>
    some { v with recipient := fun p i => if p = provider ∧ i = id then some r else v.recipient p i }
  | .indexUpdated old new _ yield =>
    if old = v.index ∧ old < new ∧ 0 ≤ yield then some { v with index := new } else none
  | .mTokenReceived _ _ _ _ amount i _ =>
    if 0 ≤ amount then some { v with index := max v.index i, bridged := v.bridged + amount } else none
  | .usdnTokenSent _ _ _ _ amount i _ =>
    if i = v.index ∧ 0 ≤ amount then some { v with bridged := v.bridged - amount } else none
  | .transferSent _ _ _ n => if n = v.nonce then some { v with nonce := (n + 1) % 2 ^ 32 } else none
  | .positionLocked _ vault i _ p =>
    if i = v.index ∧ vault = 1 then some { v with stakedPrincipal := v.stakedPrincipal + p }
    else if i = v.index ∧ vault = 2 then some { v with flexiblePrincipal := v.flexiblePrincipal + p }
    else none
  | .positionUnlocked _ vault _ _ p =>
    if vault = 1 then some { v with stakedPrincipal := v.stakedPrincipal - p }
    else if vault = 2 then some { v with flexiblePrincipal := v.flexiblePrincipal - p }
    else none
  | .rewardClaimed _ a => if 0 ≤ a then some { v with distributed := v.distributed + a } else none
  | .yieldClaimed _ _ | .transferRedeemed _ | .delivered _ | .transferSentDigest _ => some v

/-- Follow a log from its beginning. -/
def Indexer.replay (v : Indexer) : List Event → Option Indexer
  | [] => some v
  | e :: t =>
    match v.follow e with
    | some v' => replay v' t
    | none => none

/-- The same data, read from the chain. -/
def onChain (s : State) : Indexer where
  paused := s.paused
  portalPaused := s.portalPaused
  vaultsPaused := s.vPaused
  owner := s.owner
  peer := fun k => s.peers.get? k
  path := fun k t => s.paths.get? (k, t)
  recipient := fun p i => s.recipients.get? (p, i)
  index := s.index
  nonce := s.nonce
  stakedPrincipal := s.vstats.stakedPrincipal
  flexiblePrincipal := s.vstats.flexPrincipal
  distributed := s.vstats.flexDistributed
  bridged := s.supply - s.totalYield

/-- The yield a log speaks of. -/
def yieldIn : List Event → Int
  | [] => 0
  | .indexUpdated _ _ _ yield :: t => yield + yieldIn t
  | _ :: t => yieldIn t

/-- The index a receipt quotes is known. -/
def Indexer.knows (v : Indexer) : Event → Bool
  | .mTokenReceived _ _ _ _ _ i _ => decide (i ≤ v.index)
  | _ => true

/-- No receipt in the log quotes an index that was not announced by an index update before. -/
def Indexer.caughtUp (v : Indexer) : List Event → Bool
  | [] => true
  | e :: t =>
    v.knows e && (match v.follow e with
      | some v' => v'.caughtUp t
      | none => false)

end Dollar.Spec
