import Verif.Basic.KV
import Verif.Basic.Slice
import Verif.Model.Types

/-
The module's key-value store, byte by byte: how the collections of keeper/keeper.go:71-165 lay out their
entries in the one store of the module, and how the indexed map of vault positions is kept.

The key codecs belong to cosmossdk.io/collections, which is not part of the repository; they are
modelled after that library's documentation.
-/
namespace Dollar

/-- The collections of the module: types/keys.go:37-45, types/portal/keys.go:34-40,
types/vaults/keys.go:41-49, keeper/state_vaults.go:48, 56. -/
inductive Coll
  | paused | index | principal | stats | extYield | recipient | retry
  | owner | portalPaused | peer | path | nonce
  | vPaused | seasonOneEnded | collector | position | totalFlexible | reward | vstats
  | byProvider | byPair
  deriving DecidableEq, Repr

/-- The bytes of an ASCII string. -/
def ascii (s : String) : Bytes := s.toList.map fun ch => UInt8.ofNat ch.toNat

/-- The prefix of a collection: types/keys.go:37-45, types/portal/keys.go:34-40,
types/vaults/keys.go:41-49, keeper/state_vaults.go:48, 56. -/
def Coll.pre : Coll → Bytes
  | .paused => ascii "paused"
  | .index => ascii "index"
  | .principal => ascii "principal/"
  | .stats => ascii "stats"
  | .extYield => ascii "total_external_yield/"
  | .recipient => ascii "yield_recipient/"
  | .retry => ascii "retry_amount/"
  | .owner => ascii "portal/owner"
  | .portalPaused => ascii "portal/paused"
  | .peer => ascii "portal/peer/"
  | .path => ascii "portal/bridging_path/"
  | .nonce => ascii "portal/nonce"
  | .vPaused => ascii "vaults/paused"
  | .seasonOneEnded => ascii "vaults/season_one_ended"
  | .collector => ascii "vaults/season_two_yield_collector"
  | .position => ascii "vaults/position/"
  | .totalFlexible => ascii "vaults/total_flexible_principal"
  | .reward => ascii "vaults/reward/"
  | .vstats => ascii "vaults/stats"
  | .byProvider => ascii "vaults_positions_by_provider"
  | .byPair => ascii "vaults_positions_by_pair_provider_and_vault"

/-- The key of a vault position: owner, vault, time. -/
abbrev PosKey := Addr × Int × Int

/-- A logical key: a collection with the key inside it (keeper/keeper.go:142-165).  The keys of the two
indexes are determined by the position they refer to (keeper/state_vaults.go:51-61). -/
inductive SKey
  /-- one of the `collections.Item`s -/
  | paused | index | stats | owner | portalPaused | nonce | vPaused | seasonOneEnded | collector
  | totalFlexible | vstats
  | principal (a : Addr)
  | extYield (provider : Int) (id : Bytes)
  | recipient (provider : Int) (id : Bytes)
  | retry (provider : Int) (id : Bytes)
  | peer (chain : Nat)
  | path (chain : Nat) (token : Bytes)
  | position (k : PosKey)
  | reward (index : Int)
  | byProvider (k : PosKey)
  | byPair (k : PosKey)
  deriving DecidableEq, Repr

/-- The collection of a key. -/
def SKey.coll : SKey → Coll
  | .paused => .paused
  | .index => .index
  | .stats => .stats
  | .owner => .owner
  | .portalPaused => .portalPaused
  | .nonce => .nonce
  | .vPaused => .vPaused
  | .seasonOneEnded => .seasonOneEnded
  | .collector => .collector
  | .totalFlexible => .totalFlexible
  | .vstats => .vstats
  | .principal _ => .principal
  | .extYield _ _ => .extYield
  | .recipient _ _ => .recipient
  | .retry _ _ => .retry
  | .peer _ => .peer
  | .path _ _ => .path
  | .position _ => .position
  | .reward _ => .reward
  | .byProvider _ => .byProvider
  | .byPair _ => .byPair

/-- `collections.Int32Key`: big endian with the sign bit flipped, that is, `x + 2^31`. -/
def encInt32 (x : Int) : Bytes := toBE 4 (x + 2 ^ 31).toNat
/-- `collections.Int64Key`: big endian with the sign bit flipped, that is, `x + 2^63`. -/
def encInt64 (x : Int) : Bytes := toBE 8 (x + 2 ^ 63).toNat
/-- `collections.BytesKey`, non-terminal: a length byte, then the bytes (an error beyond 255 bytes). -/
def encBytesNT (b : Bytes) : Bytes := UInt8.ofNat b.length :: b

/-- `collections.TripleKeyCodec(BytesKey, Int32Key, Int64Key)` (keeper/keeper.go:161). -/
def encPos (k : PosKey) : Bytes := encBytesNT k.1 ++ encInt32 k.2.1 ++ encInt64 k.2.2

/-- The bytes of a key behind the prefix of its collection. -/
def SKey.rest : SKey → Bytes
  | .principal a => a
  | .extYield p id | .recipient p id | .retry p id => encInt32 p ++ id
  | .peer n => toBE 2 n
  | .path n t => toBE 2 n ++ t
  | .position k => encPos k
  | .reward i => encInt64 i
  | .byProvider k => encBytesNT k.1 ++ encPos k
  | .byPair k => encBytesNT k.1 ++ encInt32 k.2.1 ++ encPos k
  | _ => []

/-- The key of an entry in the store of the module. -/
def SKey.bytes (k : SKey) : Bytes := k.coll.pre ++ k.rest

/-! ### The indexed map of positions -/

/-- What is stored: a position, nothing (index entries), or the encoding of some other value. -/
inductive SVal
  | position (p : Position)
  | ref
  | other (b : Bytes)
  deriving DecidableEq, Repr

/-- The store of the module. -/
abbrev FStore := KV Bytes SVal

/-- `IndexedMap.Set`: reference the position in both indexes (keeper/state_vaults.go:38-43), then store it.
(The references of an older value under the same key are the same keys.) -/
def FStore.setPos (st : FStore) (k : PosKey) (p : Position) : FStore :=
  ((st.set (SKey.byProvider k).bytes .ref).set (SKey.byPair k).bytes .ref).set (SKey.position k).bytes (.position p)

/-- `IndexedMap.Remove`: remove the references, then the position. -/
def FStore.removePos (st : FStore) (k : PosKey) : FStore :=
  ((st.erase (SKey.byProvider k).bytes).erase (SKey.byPair k).bytes).erase (SKey.position k).bytes

/-- Decoding a non-terminal `BytesKey`: value and remaining bytes. -/
def decBytesNT : Bytes → Option (Bytes × Bytes)
  | [] => none
  | n :: t => if n.toNat ≤ t.length then some (t.take n.toNat, t.drop n.toNat) else none

/-- Decoding an `Int32Key`. -/
def decInt32 (b : Bytes) : Option (Int × Bytes) :=
  if 4 ≤ b.length then some ((beNat (b.take 4) : Int) - 2 ^ 31, b.drop 4) else none
/-- Decoding an `Int64Key`. -/
def decInt64 (b : Bytes) : Option (Int × Bytes) :=
  if 8 ≤ b.length then some ((beNat (b.take 8) : Int) - 2 ^ 63, b.drop 8) else none

/-- Decoding the key of a position. -/
def decPos (b : Bytes) : Option PosKey :=
  match decBytesNT b with
  | none => none
  | some (a, b) =>
  match decInt32 b with
  | none => none
  | some (v, b) =>
  match decInt64 b with
  | none => none
  | some (t, _) => some (a, v, t)

/-- `Multi.MatchExact` for a reference key that is encoded as `ref`, with `PrimaryKey` and the lookup of
the position (keeper/state_vaults.go:121-134, 147-160): all keys with the prefix, in ascending order. -/
def FStore.matchExact (st : FStore) (c : Coll) (ref : Bytes) : List (PosKey × Position) :=
  (st.filter fun e => (c.pre ++ ref).isPrefixOf e.1).filterMap fun e =>
    match decPos (e.1.drop (c.pre ++ ref).length) with
    | none => none
    | some k =>
      match st.get? (SKey.position k).bytes with
      | some (.position p) => some (k, p)
      | _ => none

/-- keeper/state_vaults.go:118-140, `GetVaultsPositionsByProvider`. -/
def FStore.byProvider (st : FStore) (a : Addr) : List (PosKey × Position) :=
  st.matchExact .byProvider (encBytesNT a)

/-- keeper/state_vaults.go:143-165, `GetVaultsPositionsByProviderAndVault`. -/
def FStore.byProviderAndVault (st : FStore) (a : Addr) (v : Int) : List (PosKey × Position) :=
  st.matchExact .byPair (encBytesNT a ++ encInt32 v)

/-- keeper/state_vaults.go:93-115, `GetVaultsPositions`: iterate the primary map. -/
def FStore.allPositions (st : FStore) : List (PosKey × Position) :=
  (st.filter fun e => Coll.position.pre.isPrefixOf e.1).filterMap fun e =>
    match decPos (e.1.drop Coll.position.pre.length), e.2 with
    | some k, .position p => some (k, p)
    | _, _ => none

/-- keeper/msg_server_vaults.go:394-397 and keeper/query_server_vaults.go:126-129: walk the records of
rewards with `StartExclusive(start)`.  (The library starts at the encoded key followed by a zero byte,
which is the first key after it.) -/
def FStore.rewardsFrom (st : FStore) (start : Int) : List (Int × Bytes) :=
  (st.filter fun e => Coll.reward.pre.isPrefixOf e.1 && bytesLt (Coll.reward.pre ++ encInt64 start) e.1).filterMap fun e =>
    match decInt64 (e.1.drop Coll.reward.pre.length), e.2 with
    | some (i, _), .other v => some (i, v)
    | _, _ => none

/-- keeper/state.go:178-194, `GetYieldRecipientsByProvider`: walk the yield recipients with
`NewPrefixedPairRange(provider)`. -/
def FStore.recipientsOf (st : FStore) (provider : Int) : List (Bytes × Bytes) :=
  (st.filter fun e => (Coll.recipient.pre ++ encInt32 provider).isPrefixOf e.1).filterMap fun e =>
    match e.2 with
    | .other v => some (e.1.drop (Coll.recipient.pre ++ encInt32 provider).length, v)
    | _ => none

/-- keeper/query_server_portal.go:79-92: walk the bridging paths with `NewPrefixedPairRange(chain)`. -/
def FStore.pathsOf (st : FStore) (chain : Nat) : List (Bytes × Bytes) :=
  (st.filter fun e => (Coll.path.pre ++ toBE 2 chain).isPrefixOf e.1).filterMap fun e =>
    match e.2 with
    | .other v => some (e.1.drop (Coll.path.pre ++ toBE 2 chain).length, v)
    | _ => none

/-- A write to the store: to the indexed map of positions, or to any other collection. -/
inductive StoreOp
  | setPos (k : PosKey) (p : Position)
  | removePos (k : PosKey)
  | put (k : SKey) (v : Bytes)
  | del (k : SKey)

/-- The effect of a write. -/
def StoreOp.apply : StoreOp → FStore → FStore
  | .setPos k p, st => st.setPos k p
  | .removePos k, st => st.removePos k
  | .put k v, st => st.set k.bytes (.other v)
  | .del k, st => st.erase k.bytes

end Dollar
