import Verif.Spec.Reach

/-
A concrete configuration that satisfies every assumption made on dependencies, and a concrete
chain.  Used only to show that the hypotheses of the theorems are met.
-/
namespace Dollar.Demo
open Dollar

/-- Module addresses: tagged names (no collision), 20 bytes for the portal manager. -/
def modAddr (n : String) : Addr :=
  if n = "dollar/portal/manager" then 0 :: 1 :: List.replicate 18 7
  else 0 :: 0 :: n.toByteArray.data.toList

/-- A character outside ASCII for every byte. -/
def charOf (b : UInt8) : Char := Char.ofNat (b.toNat + 256)
def byteOf (ch : Char) : UInt8 := UInt8.ofNat (ch.toNat - 256)

/-- Text form of an address: one character per byte, outside ASCII. -/
def encode (a : Addr) : String := String.ofList (a.map charOf)

/-- The inverse; other characters and addresses of more than 255 bytes are an error. -/
def decode (s : String) : Option Addr :=
  let l := s.toList.map Char.toLower
  if l.length ≤ 255 ∧ l.all (fun ch => decide (256 ≤ ch.toNat ∧ ch.toNat < 512)) = true then
    some (l.map byteOf)
  else none

def cfg : Cfg where
  denom := "uusdn"
  authority := "authority"
  minLock := 1000000
  minUnlock := 1000000
  modAddr := modAddr
  escrow := fun p ch => 1 :: (p ++ "/" ++ ch).toByteArray.data.toList
  decode := decode
  encode := encode
  blocked := fun a => decide (a = modAddr "dollar")
  chain := 4009
  keccak := fun b => b.take 32
  hexAddr := fun s => if s = "" then none else some (s.toList.map fun ch => UInt8.ofNat ch.toNat)
  internalId := fun b => (b.getLast?.map UInt8.toNat).getD 0

theorem bytes_inj {a b : String} (h : a.toByteArray.data.toList = b.toByteArray.data.toList) : a = b := by
  apply String.toByteArray_inj.1
  cases ha : a.toByteArray with
  | mk x =>
  cases hb : b.toByteArray with
  | mk y =>
  rw [ha, hb] at h
  congr 1
  exact Array.toList_inj.1 h

theorem append_right_inj' {p a b : String} (h : p ++ a = p ++ b) : a = b := by
  have := congrArg String.toList h
  simp only [String.toList_append] at this
  exact String.toList_inj.1 (List.append_cancel_left this)

theorem toNat_ofNat {n : Nat} (h : n.isValidChar) : (Char.ofNat n).toNat = n := by
  unfold Char.ofNat
  rw [dif_pos h]
  rfl

theorem encode_inj (a b : Addr) (h : encode a = encode b) : a = b := by
  have h := String.ofList_inj.1 h
  refine (List.map_inj_right ?_).1 h
  intro x y hxy
  have hx : ∀ z : UInt8, (z.toNat + 256).isValidChar := fun z => Or.inl (by have := z.toNat_lt; omega)
  have : (Char.ofNat (x.toNat + 256)).toNat = (Char.ofNat (y.toNat + 256)).toNat :=
    congrArg Char.toNat hxy
  rw [toNat_ofNat (hx x), toNat_ofNat (hx y)] at this
  exact UInt8.toNat_inj.1 (by omega)

theorem char_back (ch : Char) (h : 256 ≤ ch.toNat ∧ ch.toNat < 512) :
    charOf (byteOf ch) = ch := by
  unfold charOf byteOf
  have : (UInt8.ofNat (ch.toNat - 256)).toNat = ch.toNat - 256 := by
    rw [UInt8.toNat_ofNat']; omega
  rw [this, Nat.sub_add_cancel h.1]
  exact Char.ofNat_toNat ch

theorem decode_lower (s : String) (a : Addr) (h : decode s = some a) : lowerStr s = encode a := by
  unfold decode at h
  simp only at h
  split at h
  · next hall =>
    obtain ⟨_, hall⟩ := hall
    cases h
    unfold lowerStr encode
    congr 1
    rw [List.map_map]
    have : ∀ l : List Char, (∀ ch ∈ l, 256 ≤ ch.toNat ∧ ch.toNat < 512) →
        l = l.map (charOf ∘ byteOf) := by
      intro l
      induction l with
      | nil => intro _; rfl
      | cons x l ih =>
        intro hl
        have e2 := ih (fun ch hch => hl ch (List.mem_cons_of_mem _ hch))
        have e1 : (charOf ∘ byteOf) x = x := by
          rw [Function.comp_apply]; exact char_back x (hl x List.mem_cons_self)
        rw [List.map_cons, e1]
        exact List.cons_eq_cons.2 ⟨rfl, e2⟩
    refine this _ fun ch hch => ?_
    have := List.all_eq_true.1 hall ch hch
    simpa using this
  · cases h

theorem decode_short {s : String} {a : Addr} (h : cfg.decode s = some a) : a.length ≤ 255 := by
  have h : decode s = some a := h
  unfold decode at h
  simp only at h
  split at h
  · next hl => cases h; rw [List.length_map]; exact hl.1
  · cases h

theorem cfg_wf : cfg.WF where
  mod_inj := by
    intro m n h
    show m = n
    have h : modAddr m = modAddr n := h
    unfold modAddr at h
    split at h <;> split at h
    · simp_all
    · exact absurd (List.cons.inj (List.cons.inj h).2).1 (by decide)
    · exact absurd (List.cons.inj (List.cons.inj h).2).1 (by decide)
    · exact bytes_inj (List.cons.inj (List.cons.inj h).2).2
  escrow_inj := by
    intro a b h
    exact append_right_inj' (bytes_inj (List.cons.inj h).2)
  mod_ne_escrow := by
    intro n p ch h
    have h : modAddr n = _ := h
    unfold modAddr at h
    split at h <;> exact absurd (List.cons.inj h).1 (by decide)
  mod_len := by decide
  decode_lower := decode_lower
  encode_inj := encode_inj
  module_blocked := by decide

/-- Addresses that start with 2 belong to users. -/
theorem user (l : List UInt8) : cfg.IsUser (2 :: l) := by
  constructor
  · intro n _ h
    have h : _ = modAddr n := h
    unfold modAddr at h
    split at h <;> exact absurd (List.cons.inj h).1 (by decide)
  · intro ch h
    exact absurd (List.cons.inj h).1 (by decide)

/-- Two users and their text form. -/
def alice : Addr := 2 :: List.replicate 18 0 ++ [1]
def bob : Addr := 2 :: List.replicate 18 0 ++ [2]
def collector : Addr := 2 :: List.replicate 18 0 ++ [9]
def aliceS : String := encode alice
def bobS : String := encode bob

theorem alice_user : cfg.IsUser alice := user _
theorem bob_user : cfg.IsUser bob := user _

theorem aliceS_user : ∀ a, cfg.decode aliceS = some a → cfg.IsUser a := by
  intro a h
  have : cfg.decode aliceS = some alice := by decide
  rw [this] at h; cases h; exact alice_user

theorem bobS_user : ∀ a, cfg.decode bobS = some a → cfg.IsUser a := by
  intro a h
  have : cfg.decode bobS = some bob := by decide
  rw [this] at h; cases h; exact bob_user

/-- A fresh chain: index 1.0, an owner, one peer (chain 2), one bridging path. -/
def start : State where
  bal := []
  supply := 0
  paused := false
  index := 1000000000000
  principal := []
  holders := 0
  totalPrincipal := 0
  totalYield := 0
  extYield := []
  recipients := [((0, "channel-0"), "noble1remote")]
  retry := []
  owner := "owner"
  portalPaused := false
  peers := [(2, ⟨List.replicate 32 5, List.replicate 32 6⟩)]
  paths := [((2, List.replicate 32 8), true)]
  nonce := 0
  vPaused := 0
  seasonOneEnded := false
  collector := collector
  positions := []
  totalFlexible := 0
  rewards := []
  vstats := ⟨0, 0, 0, 0, 0⟩
  archive := []
  posted := []
  collateral := []
  ibcOut := []
  inflight := []
  vouchers := []
  warpOut := []
  events := []

theorem start_initial : Initial cfg start := by
  constructor <;> first | rfl | decide | (unfold KV.Sorted; decide)

/-- A VAA from the configured peer carrying a manager payload. -/
def vaa (digest : UInt8) (payload : Bytes) : VAA :=
  let mm : ManagerMessage Bytes := ⟨List.replicate 31 0 ++ [digest], List.replicate 32 3, payload⟩
  ⟨2, List.replicate 32 5,
    Sl.ofBytes (encodeTransceiver ⟨List.replicate 32 6, cfg.paddedManager, encodeManager mm, []⟩) [],
    [digest]⟩

/-- A token transfer of `amount` to `a`, carrying an index. -/
def vaaToken (digest : UInt8) (a : Addr) (amount : Nat) (index : Int) : VAA :=
  vaa digest (encodeNtt ⟨amount, List.replicate 32 4, List.replicate 12 0 ++ a, 4009,
    encodeAdditional index cfg.rawToken⟩)

/-- An index update. -/
def vaaIndex (digest : UInt8) (index : Int) : VAA := vaa digest (encodeIndex index 4009)

/-- Wormhole of the demo chain: which byte strings are valid VAAs. -/
def verify (bz : Bytes) : Option VAA :=
  if bz = [1] then some (vaaToken 1 alice 10000000 1000000000000)
  else if bz = [2] then some (vaaToken 2 bob 5000000 1000000000000)
  else if bz = [3] then some (vaaIndex 3 1100000000000)
  else if bz = [4] then some (vaaToken 4 alice 1000000 1200000000000)
  else if bz = [5] then some (vaaIndex 5 1300000000000)
  else none

/-- Environment at a block time; every call into other modules succeeds. -/
def env (time : Int) : Env where
  time := time
  verify := verify
  ibc := fun _ => .success
  warp := fun _ => .success
  channelExists := fun ch => decide (ch = "channel-0")
  routers := fun _ => [7]
  postOk := true
  mapOrder := id
  mapOrder_perm := fun l => List.Perm.refl l

/-- Deliveries, locks in both vaults, an index update. -/
def hist1 : History :=
  [(env 1, .deliver [1]), (env 2, .deliver [2]),
   (env 3, .lock aliceS 2 (some 2000000)), (env 4, .lock bobS 1 (some 2000000)),
   (env 5, .lock aliceS 1 (some 3000000)),
   (env 6, .ibcTransfer alice "channel-0" "noble1remote" 1000000),
   (env 7, .deliver [3])]

/-- More deliveries and unlocks. -/
def hist2 : History := hist1 ++
  [(env 8, .claimYield aliceS), (env 9, .deliver [4]),
   (env 10, .unlock bobS 1 (some 2000000)), (env 11, .unlock aliceS 2 (some 1000000)),
   (env 12, .transfer bobS (some 1000000) 2 (List.replicate 32 8) (List.replicate 32 1))]

theorem hist1_signed : History.Signed cfg hist1 := by
  intro e he
  simp only [hist1, List.mem_cons, List.not_mem_nil, or_false] at he
  rcases he with rfl | rfl | rfl | rfl | rfl | rfl | rfl
  · trivial
  · trivial
  · exact aliceS_user
  · exact bobS_user
  · exact aliceS_user
  · exact alice_user
  · trivial

theorem hist2_signed : History.Signed cfg hist2 := by
  intro e he
  rcases List.mem_append.1 he with he | he
  · exact hist1_signed e he
  simp only [List.mem_cons, List.not_mem_nil, or_false] at he
  rcases he with rfl | rfl | rfl | rfl | rfl
  · exact aliceS_user
  · trivial
  · exact bobS_user
  · exact aliceS_user
  · exact bobS_user

/-- The demo states are reachable. -/
theorem reach_take (n : Nat) : Reachable cfg (run cfg (hist1.take n) start) :=
  .of_run start_initial fun e he => hist1_signed e (List.mem_of_mem_take he)
theorem reach2_take (n : Nat) : Reachable cfg (run cfg (hist2.take n) start) :=
  .of_run start_initial fun e he => hist2_signed e (List.mem_of_mem_take he)
theorem reach1 : Reachable cfg (run cfg hist1 start) := .of_run start_initial hist1_signed
theorem reach2 : Reachable cfg (run cfg hist2 start) := .of_run start_initial hist2_signed

end Dollar.Demo
