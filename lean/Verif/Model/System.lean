import Verif.Model.Vaults
import Verif.Model.Portal
import Verif.Model.IBC

/-
The module as a transition system: every transaction that can touch USDN or module state.
-/
namespace Dollar
open MM

/-- Transactions. The first group are the module's messages (proto/noble/dollar/**/tx.proto),
the second the messages and packets of other modules that move USDN. -/
inductive Msg
  | claimYield (signer : String)
  | setPaused (signer : String) (paused : Bool)
  | setYieldRecipient (signer : String) (provider : Int) (identifier recipient : String)
  | deliver (vaa : Bytes)
  | transfer (signer : String) (amount : Option Int) (chain : Nat) (token recipient : Bytes)
  | portalSetPaused (signer : String) (paused : Bool)
  | setPeer (signer : String) (chain : Nat) (transceiver manager : Bytes)
  | setBridgingPath (signer : String) (chain : Nat) (token : Bytes) (supported : Bool)
  | transferOwnership (signer newOwner : String)
  | lock (signer : String) (vault : Int) (amount : Option Int)
  | unlock (signer : String) (vault : Int) (amount : Option Int)
  | vaultsSetPaused (signer : String) (paused : Int)
  | bankSend (sender recipient : Addr) (amount : Int)
  | bankMultiSend (sender : Addr) (outputs : List (Addr × Int))
  | keeperSend (sender recipient : Addr) (amount : Int)
  | ibcTransfer (sender : Addr) (channel receiver : String) (amount : Int)
  | ibcReceive (channel : String) (receiver : Addr) (amount : Int)
  | ibcTimeout (packet : IbcOut)
  | ibcAckError (packet : IbcOut)
  | ibcAckSuccess (packet : IbcOut)
  | warpCreate (tokenId : Nat)
  | warpTransfer (sender : Addr) (tokenId domain : Nat) (recipient : Bytes) (amount : Int)
  | warpReceive (tokenId : Nat) (receiver : Addr) (amount : Int)
  deriving DecidableEq, Repr

/-- x/bank `MsgSend`: positive amount, recipient not blocked. -/
def bankSend (c : Cfg) (sender recipient : Addr) (amount : Int) : M Unit :=
  if amount ≤ 0 then fail .invalidAmount
  else if c.blocked recipient then fail .blockedRecipient
  else sendCoins c sender recipient amount

/-- x/bank `MsgMultiSend`: at least one output, positive amounts, no blocked output. -/
def bankMultiSend (c : Cfg) (sender : Addr) (outs : List (Addr × Int)) : M Unit :=
  if outs = [] then fail .invalidAmount
  else if outs.any (fun o => decide (o.2 ≤ 0)) then fail .invalidAmount
  else if outs.any (fun o => c.blocked o.1) then fail .blockedRecipient
  else multiSend c sender outs

/-- Another module moves USDN through the bank keeper (`SendCoins`, `SendCoinsFromAccountToModule`,
`SendCoinsFromModuleToModule`): transaction fees, deposits, swap pools.  Unlike x/bank messages this may
credit blocked accounts; the send restriction applies all the same (keeper/keeper.go:188-292). -/
def keeperSend (c : Cfg) (sender recipient : Addr) (amount : Int) : M Unit :=
  if amount < 0 then fail .invalidAmount
  else sendCoins c sender recipient amount

/-- ICS-20 `MsgTransfer` of USDN by a user. -/
def userIbcTransfer (c : Cfg) (env : Env) (sender : Addr) (channel receiver : String)
    (amount : Int) : M Unit :=
  if amount ≤ 0 then fail .invalidAmount
  else ibcTransfer c env channel sender receiver amount

/-- The handler of a transaction (module.go:154-165 registers the module's servers). -/
def exec (c : Cfg) (env : Env) : Msg → M Unit
  | .claimYield signer => claimYield c signer
  | .setPaused signer p => setPaused c signer p
  | .setYieldRecipient signer p i r => setYieldRecipient c env signer p i r
  | .deliver vaa => deliver c env vaa
  | .transfer signer a chain token recipient => transfer c env signer a chain token recipient
  | .portalSetPaused signer p => portalSetPaused signer p
  | .setPeer signer chain t m => setPeer c signer chain t m
  | .setBridgingPath signer chain token b => setBridgingPath c signer chain token b
  | .transferOwnership signer o => transferOwnership c signer o
  | .lock signer v a => lock c env signer v a
  | .unlock signer v a => unlock c signer v a
  | .vaultsSetPaused signer p => vaultsSetPaused c signer p
  | .bankSend s r a => bankSend c s r a
  | .bankMultiSend s outs => bankMultiSend c s outs
  | .keeperSend s r a => keeperSend c s r a
  | .ibcTransfer s ch r a => userIbcTransfer c env s ch r a
  | .ibcReceive ch r a => ibcReceive c ch r a
  | .ibcTimeout p => packetFailed c p true
  | .ibcAckError p => packetFailed c p false
  | .ibcAckSuccess p => packetAcked c p
  | .warpCreate t => warpCreate t
  | .warpTransfer s t d r a => warpSend c t d s r a
  | .warpReceive t r a => warpReceive c t r a

/-- BaseApp: a transaction that returns an error or panics leaves no trace. -/
def runTx (x : M Unit) (s : State) : State :=
  match x s with
  | .ok _ s' => s'
  | .err _ _ => s
  | .panic => s

/-- One transaction. -/
def step (c : Cfg) (env : Env) (m : Msg) (s : State) : State := runTx (exec c env m) s

/-! ### Assumptions on configuration and signers -/

/-- The module account names that belong to the dollar module (all begin with "dollar",
types/keys.go:29-36, types/vaults/keys.go:30-40) and to the Hyperlane warp module. -/
def ownName (n : String) : Prop := n = "warp" ∨ ∃ rest, n = "dollar" ++ rest

/-- An address that can sign or be spent from by others: not an account of the dollar module or of the warp
module and not an escrow account of IBC transfers (those are hashes nobody knows a key for, and only
the code modelled here spends from them).  Accounts of people, contracts and other modules
all qualify. -/
def Cfg.IsUser (c : Cfg) (a : Addr) : Prop :=
  (∀ n, ownName n → a ≠ c.modAddr n) ∧ (∀ ch, a ≠ c.escrow "transfer" ch)

/-- Properties of the dependencies that the module relies on. -/
structure Cfg.WF (c : Cfg) : Prop where
  /-- module addresses are collision free (truncated SHA-256, idealised) -/
  mod_inj : ∀ m n, c.modAddr m = c.modAddr n → m = n
  /-- escrow addresses of the transfer port are collision free -/
  escrow_inj : ∀ a b, c.escrow "transfer" a = c.escrow "transfer" b → a = b
  /-- module and escrow addresses do not collide -/
  mod_ne_escrow : ∀ n p ch, c.modAddr n ≠ c.escrow p ch
  /-- the portal manager address has 20 bytes -/
  mod_len : (c.modAddr "dollar/portal/manager").length = 20
  /-- bech32: what decodes is, up to case, the encoding of the decoded address -/
  decode_lower : ∀ s a, c.decode s = some a → lowerStr s = c.encode a
  /-- encoding is injective -/
  encode_inj : ∀ a b, c.encode a = c.encode b → a = b
  /-- the dollar module account is a blocked recipient (simapp/app.yaml:33-34) -/
  module_blocked : c.blocked c.moduleAddr = true

/-- The sender of a message that spends or claims is a user (for string signers: whatever address it
decodes to).  Administrative messages may be signed by anybody, in particular by a module account such
as that of governance.  No other module pays into the dollar module's mint account (with x/bank messages
nobody can, it is blocked). -/
def Msg.SignedByUser (c : Cfg) : Msg → Prop
  | .claimYield s | .transfer s .. | .lock s .. | .unlock s .. => ∀ a, c.decode s = some a → c.IsUser a
  | .keeperSend a b _ => c.IsUser a ∧ b ≠ c.moduleAddr
  | .bankSend a .. | .bankMultiSend a _ | .ibcTransfer a .. | .warpTransfer a .. => c.IsUser a
  | .setPaused .. | .setYieldRecipient .. | .portalSetPaused .. | .setPeer .. | .setBridgingPath ..
  | .transferOwnership .. | .vaultsSetPaused .. => True
  | .deliver _ | .ibcReceive .. | .ibcTimeout _ | .ibcAckError _ | .ibcAckSuccess _ | .warpCreate _
  | .warpReceive .. => True

/-- A history: any sequence of transactions, each with its own environment. -/
abbrev History := List (Env × Msg)

/-- The state after a history. -/
def run (c : Cfg) : History → State → State
  | [], s => s
  | (env, m) :: t, s => run c t (step c env m s)

/-- Every transaction of a history is signed by a user. -/
def History.Signed (c : Cfg) (h : History) : Prop := ∀ e ∈ h, e.2.SignedByUser c

end Dollar
