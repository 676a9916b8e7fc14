import Verif.Model.Genesis

/-
keeper/query_server.go, query_server_portal.go, query_server_vaults.go, query_server_v2.go.
A query is a function of the state; requests are assumed non-nil.
-/
namespace Dollar

/-- keeper/query_server.go:42-55: the index as a decimal with 18 digits. -/
def queryIndex (s : State) : Int := decQuoInt (decOfInt s.index) SCALE

/-- keeper/query_server.go:67-80: `none` inside is the nil amount of an unknown account. -/
def queryPrincipal (c : Cfg) (s : State) (account : String) : Option (Option Int) :=
  (c.decode account).map fun a => s.principal.get? a

/-- keeper/query_server.go:82-90. -/
def queryYield (c : Cfg) (s : State) (account : String) : Option Int :=
  (c.decode account).map fun a => claimable s a

/-- keeper/query_server.go:92-107: holders, principal, yield. -/
def queryStats (s : State) : Nat × Int × Int := (s.holders, s.totalPrincipal, s.totalYield)

/-- keeper/query_server_portal.go:72-94; the chain id is truncated to 16 bits (line 78). -/
def queryDestinationTokens (s : State) (chainId : Nat) : List Bytes :=
  s.paths.filterMap fun e => if e.1.1 = chainId % 2 ^ 16 ∧ e.2 = true then some e.1.2 else none

/-- keeper/query_server_vaults.go:54-72 with keeper/state_vaults.go:118-140. -/
def queryPositions (c : Cfg) (s : State) (provider : String) : Option (List PosEntry) :=
  (c.decode provider).map fun a => (allPositions s).filter fun p => p.address = a

/-- keeper/query_server_vaults.go:74-94. -/
def queryPendingRewards (s : State) : Int := KV.sum s.rewards fun _ r => r.rewards

/-- keeper/query_server_vaults.go:129-143: the callback of the walk, for one record. -/
def queryWalk (cur amountPrincipal : Int) (acc : Int) (e : Int × Reward) : Int :=
  if ¬ 0 < e.2.total ∨ ¬ 0 < e.2.rewards then acc
  else acc + (if e.2.index ≠ cur ∧ ¬ e.2.rewards < 0 then
    decTrunc (decMulInt (decQuo (decOfInt e.2.rewards) (decOfInt e.2.total)) amountPrincipal) else 0)

/-- keeper/query_server_vaults.go:121-149: the rewards shown for one position: a walk over the
records after the position's index, in order.  `none` is the division-by-zero panic for a position
with index 0. -/
def positionRewards (s : State) (p : PosEntry) : Option Int :=
  if p.index = 0 then none
  else some ((s.rewards.filter fun e => decide (p.index < e.1)).foldl
    (queryWalk s.index (roundedDown p.amount p.index)) 0)

/-- keeper/query_server_vaults.go:96-156: total and per-position pending rewards. -/
def queryPendingByProvider (c : Cfg) (s : State) (provider : String) :
    Option (Int × List (Int × Int)) := do
  let a ← c.decode provider
  let l ← (positionsOf s a FLEXIBLE).mapM fun p => (positionRewards s p).map fun r => (p.amount, r)
  pure ((l.map Prod.snd).sum, l)

/-- keeper/query_server_v2.go:104-116. -/
def queryYieldRecipient (s : State) (provider : Int) (id : String) : Option String :=
  s.recipients.get? (provider, id)

/-- keeper/query_server_v2.go:128-136. -/
def queryRetryAmount (s : State) (provider : Int) (id : String) : Int := s.retryOf provider id

/-- keeper/query_server.go:57-65 with keeper/state.go:33-37. -/
def queryPaused (s : State) : Bool := s.paused

/-- keeper/query_server_portal.go:42-50. -/
def queryOwner (s : State) : String := s.owner

/-- keeper/query_server_portal.go:52-60 with keeper/state_portal.go:32-36. -/
def queryPortalPaused (s : State) : Bool := s.portalPaused

/-- keeper/query_server_portal.go:62-70 with keeper/state_portal.go:38-48. -/
def queryPeers (s : State) : List (Nat × Peer) := s.peers

/-- keeper/query_server_portal.go:96-104. -/
def queryNonce (s : State) : Nat := s.nonce

/-- keeper/query_server_vaults.go:44-52 with keeper/state_vaults.go:78-84. -/
def queryVaultsPaused (s : State) : Int := s.vPaused

/-- keeper/query_server_vaults.go:158-175. -/
def queryVaultsStats (s : State) : VStats := s.vstats

/-- keeper/query_server_v2.go:94-102 with keeper/state.go:164-175: a Go map, so entries with equal keys
overwrite each other. -/
def queryYieldRecipients (s : State) : List (String × String) :=
  goMap (s.recipients.map fun e => (recipientKey e.1, e.2))

/-- keeper/query_server_v2.go:118-126 with keeper/state.go:203-213: amounts are decimal strings. -/
def queryRetryAmounts (s : State) : List (String × String) :=
  goMap (s.retry.map fun e => (recipientKey e.1, toString e.2))

/-- keeper/query_server_v2.go:51-92 with keeper/state.go:148-162: the external yield of the v2 `Stats`
query, by key; `none` is the panic of `ParseYieldRecipientKey`.  The chain id shown next to each
amount is added in Model/Stats2. -/
def queryExternalYield (s : State) : Option (List (String × Int)) :=
  (goMap (s.extYield.map fun e => (recipientKey e.1, toString e.2))).mapM fun e =>
    match parseRecipientKey e.1 with
    | .ok _ => some (e.1, (intOfString e.2).getD 0)
    | _ => none

end Dollar
