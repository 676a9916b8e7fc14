import Verif.Basic.KV
import Verif.Basic.M
import Verif.Basic.Slice

/-
State, configuration and environment of the modelled module.
Citations are to files under /repo.
-/
namespace Dollar

/-- `sdk.AccAddress`: raw address bytes. -/
abbrev Addr := Bytes

/-- `portal.Peer` (types/portal/portal.pb.go; used in keeper/msg_server_portal.go:222-225). -/
structure Peer where
  transceiver : Bytes
  manager : Bytes
  deriving DecidableEq, Repr

/-- `vaults.Position` (keeper/msg_server_vaults.go:112-117).
Simplification: `Time` is kept in whole seconds (`Time.Unix()`), the only form the code uses. -/
structure Position where
  principal : Int
  index : Int
  amount : Int
  time : Int
  deriving DecidableEq, Repr

/-- `vaults.Reward` (keeper/msg_server.go:457-461). -/
structure Reward where
  index : Int
  total : Int
  rewards : Int
  deriving DecidableEq, Repr

/-- `vaults.Stats` (keeper/state_vaults.go:189-280). The user counters are `uint64`. -/
structure VStats where
  flexPrincipal : Int
  flexUsers : Nat
  flexDistributed : Int
  stakedPrincipal : Int
  stakedUsers : Nat
  deriving DecidableEq, Repr

/-- Events emitted through `k.event.EventManager(ctx)`. -/
inductive Event
  /-- keeper/msg_server.go:67-70 -/
  | yieldClaimed (account : String) (amount : Int)
  /-- keeper/msg_server.go:187-192 -/
  | indexUpdated (old new totalPrincipal yield : Int)
  /-- keeper/msg_server.go:83-88 -/
  | pausedSet (paused : Bool)
  /-- keeper/keeper.go:434-442 -/
  | mTokenReceived (sourceChain : Nat) (destinationToken sender : Bytes) (recipient : Addr)
      (amount index : Int) (messageId : Bytes)
  /-- keeper/keeper.go:446-448 -/
  | transferRedeemed (digest : Bytes)
  /-- keeper/msg_server_portal.go:53-55 -/
  | delivered (vaa : Bytes)
  /-- keeper/msg_server_portal.go:143-152 -/
  | usdnTokenSent (destinationChain : Nat) (destinationToken : Bytes) (sender : String)
      (recipient : Bytes) (amount index : Int) (messageId : Bytes)
  /-- keeper/msg_server_portal.go:156-165 -/
  | transferSent (recipient : Bytes) (amount : Int) (chain nonce : Nat)
  /-- keeper/msg_server_portal.go:169-173 -/
  | transferSentDigest (digest : Bytes)
  /-- keeper/msg_server_portal.go:185-189 -/
  | portalPausedSet (paused : Bool)
  /-- keeper/msg_server_portal.go:230-236 -/
  | peerUpdated (chain : Nat) (old : Option Peer) (new : Peer)
  /-- keeper/msg_server_portal.go:266-270 -/
  | bridgingPathSet (chain : Nat) (token : Bytes) (supported : Bool)
  /-- keeper/msg_server_portal.go:289-292 -/
  | ownershipTransferred (previous new : String)
  /-- keeper/msg_server_v2.go:83-87 -/
  | yieldRecipientSet (provider : Int) (identifier recipient : String)
  /-- keeper/msg_server_vaults.go:147-153 -/
  | positionLocked (account : String) (vault index amount principal : Int)
  /-- keeper/msg_server_vaults.go:308-314 -/
  | positionUnlocked (account : String) (vault index amount principal : Int)
  /-- keeper/msg_server_vaults.go:432-435 -/
  | rewardClaimed (account : Addr) (amount : Int)
  /-- keeper/msg_server_vaults.go:358-360 -/
  | vaultsPausedSet (paused : Int)
  deriving DecidableEq, Repr

/-- A USDN packet handed to IBC core (source channel, sender account, receiver, amount). -/
structure IbcOut where
  channel : String
  sender : Addr
  receiver : String
  amount : Int
  deriving DecidableEq, Repr

/-- A Hyperlane warp transfer (route, remote domain, remote recipient, amount). -/
structure WarpOut where
  tokenId : Nat
  domain : Nat
  recipient : Bytes
  amount : Int
  deriving DecidableEq, Repr

/-- The chain state visible to the module.  Keeper fields: keeper/keeper.go:70-90.
Simplifications: every `collections.Item` is present (`InitGenesis` sets all of them,
genesis.go:38-183); of x/bank only USDN balances and supply are kept, and a zero
balance may be stored explicitly; of wormhole only archived digests and posted
messages; of hyperlane only the collateral per warp token. -/
structure State where
  /-- x/bank balances of the module's denom -/
  bal : KV Addr Int
  /-- x/bank supply of the module's denom -/
  supply : Int
  paused : Bool
  index : Int
  principal : KV Addr Int
  /-- `Stats.TotalHolders` (uint64; increments are not wrapped in the model) -/
  holders : Nat
  totalPrincipal : Int
  totalYield : Int
  extYield : KV (Int × String) Int
  recipients : KV (Int × String) String
  retry : KV (Int × String) Int
  owner : String
  portalPaused : Bool
  peers : KV Nat Peer
  paths : KV (Nat × Bytes) Bool
  nonce : Nat
  vPaused : Int
  seasonOneEnded : Bool
  collector : Addr
  positions : KV (Addr × Int × Int) Position
  totalFlexible : Int
  rewards : KV Int Reward
  vstats : VStats
  /-- wormhole: digests of VAAs already verified -/
  archive : List Bytes
  /-- wormhole: posted messages with their nonce, oldest first -/
  posted : List (Bytes × Nat)
  /-- hyperlane: `HypTokens[id].CollateralBalance` -/
  collateral : KV Nat Int
  /-- IBC packets handed to the channel layer, oldest first -/
  ibcOut : List IbcOut
  /-- IBC core: packet commitments that are neither acknowledged nor timed out -/
  inflight : List IbcOut
  /-- Ghost: USDN vouchers per channel that are in flight to, or held on, the counterparty chain
  (sent minus refunded minus returned).  Not stored on chain; used to state escrow backing. -/
  vouchers : KV String Int
  /-- warp transfers dispatched, oldest first -/
  warpOut : List WarpOut
  events : List Event
  deriving DecidableEq, Repr

/-- Effects over the chain state. -/
abbrev M := MM State

/-- Outcome of a call into another module (IBC transfer, warp transfer).
`failLate` fails after the coins (and collateral) were already booked. -/
inductive Ext
  | success | failEarly | failLate
  deriving DecidableEq, Repr

/-- A verified VAA as returned by the wormhole keeper (keeper/keeper.go:345-364). -/
structure VAA where
  emitterChain : Nat
  emitterAddress : Bytes
  payload : Sl
  digest : Bytes
  deriving DecidableEq, Repr

/-- Static configuration and pure functions of dependencies.
keeper/keeper.go:50-68 (keeper configuration) and 111-120 (derived portal addresses). -/
structure Cfg where
  denom : String
  authority : String
  minLock : Int
  minUnlock : Int
  /-- `authtypes.NewModuleAddress` -/
  modAddr : String → Addr
  /-- `transfertypes.GetEscrowAddress(port, channel)` -/
  escrow : String → String → Addr
  /-- `address.Codec.StringToBytes`; `none` is a decoding error -/
  decode : String → Option Addr
  /-- `address.Codec.BytesToString` -/
  encode : Addr → String
  /-- bank blocked addresses (simapp/app.yaml) -/
  blocked : Addr → Bool
  /-- `wormhole.GetChain`, a uint16 -/
  chain : Nat
  /-- `crypto.Keccak256` -/
  keccak : Bytes → Bytes
  /-- `hyperlaneutil.DecodeHexAddress` -/
  hexAddr : String → Option Bytes
  /-- `HexAddress.GetInternalId` -/
  internalId : Bytes → Nat

namespace Cfg
variable (c : Cfg)

/-- types/keys.go:29-32 -/
def moduleAddr : Addr := c.modAddr "dollar"
/-- types/keys.go:34-35 -/
def yieldAddr : Addr := c.modAddr "dollar/yield"
/-- types/vaults/keys.go:34-35 -/
def stakedAddr : Addr := c.modAddr "dollar/vaults/staked"
/-- types/vaults/keys.go:37-38 -/
def flexibleAddr : Addr := c.modAddr "dollar/vaults/flexible"
/-- keeper/msg_server.go:334 (`warptypes.ModuleName` is "warp") -/
def warpAddr : Addr := c.modAddr "warp"
/-- keeper/msg_server.go:274 (`transfertypes.PortID` is "transfer") -/
def escrowAddr (channel : String) : Addr := c.escrow "transfer" channel

/-- keeper/keeper.go:115-116: the 20-byte address in the last 20 of 32 bytes.
(A module address is 20 bytes long, so `copy` fills the tail exactly.) -/
def paddedManager : Bytes := List.replicate 12 0 ++ c.modAddr "dollar/portal/manager"

/-- keeper/keeper.go:119-120: denom bytes right aligned in 32 bytes. -/
def rawToken : Bytes :=
  List.replicate (32 - c.denom.toByteArray.data.toList.length) 0 ++ c.denom.toByteArray.data.toList

end Cfg

/-- Environment of one transaction: everything the module observes that the state
does not determine.  All fields are arbitrary; the map order is a permutation. -/
structure Env where
  /-- block time in seconds (`header.GetHeaderInfo(ctx).Time.Unix()`) -/
  time : Int
  /-- `wormhole.ParseAndVerifyVAA` before the replay check; `none` is a verification error -/
  verify : Bytes → Option VAA
  /-- outcome of an IBC transfer on a channel -/
  ibc : String → Ext
  /-- outcome of a warp transfer of a token -/
  warp : Nat → Ext
  /-- `channel.GetChannel(port "transfer", id)` found -/
  channelExists : String → Bool
  /-- domains of the routers enrolled for a warp token -/
  routers : Nat → List Nat
  /-- `wormhole.PostMessage` succeeds -/
  postOk : Bool
  /-- order in which Go iterates over the keys of a map -/
  mapOrder : List String → List String
  mapOrder_perm : ∀ l, (mapOrder l).Perm l

namespace State

/-- `bank.GetBalance(ctx, a, denom).Amount`. -/
def balance (s : State) (a : Addr) : Int := (s.bal.get? a).getD 0

/-- `Principal.Get`, zero when absent (keeper/keeper.go:223-226). -/
def principalOf (s : State) (a : Addr) : Int := (s.principal.get? a).getD 0

/-- `GetRetryAmount`, keeper/state.go:216-224. -/
def retryOf (s : State) (provider : Int) (id : String) : Int :=
  (s.retry.get? (provider, id)).getD 0

/-- Vouchers in flight or held on the counterparty of a channel (ghost). -/
def vouchersOf (s : State) (channel : String) : Int := (s.vouchers.get? channel).getD 0

/-- External yield statistic of a route, zero when absent (keeper/state.go:141-144). -/
def extYieldOf (s : State) (provider : Int) (id : String) : Int :=
  (s.extYield.get? (provider, id)).getD 0

end State

/-- `v2.Provider_IBC`, types/v2/dollar.pb.go. -/
def IBC : Int := 0
/-- `v2.Provider_HYPERLANE`, types/v2/dollar.pb.go. -/
def HYPERLANE : Int := 1

/-- `vaults.STAKED`, types/vaults/vaults.pb.go. -/
def STAKED : Int := 1
/-- `vaults.FLEXIBLE`, types/vaults/vaults.pb.go. -/
def FLEXIBLE : Int := 2

/-- `vaults.LOCK`, types/vaults/vaults.pb.go. -/
def PAUSE_LOCK : Int := 1
/-- `vaults.UNLOCK`, types/vaults/vaults.pb.go. -/
def PAUSE_UNLOCK : Int := 2
/-- `vaults.ALL`, types/vaults/vaults.pb.go. -/
def PAUSE_ALL : Int := 3

/-- Emit an event. -/
def emit (e : Event) : M Unit := MM.modify fun s => { s with events := s.events ++ [e] }

end Dollar
