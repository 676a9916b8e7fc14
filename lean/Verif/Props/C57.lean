import Verif.Props.C52
import Verif.Props.C14

/-
C57: the bytes of an outgoing transfer and of an index payload, field by field.
-/
set_option maxRecDepth 100000
namespace Dollar
open Spec MM

namespace Spec

/-- `n` as `k` bytes, most significant first. -/
def be (k n : Nat) : Bytes := (List.range k).map fun i => UInt8.ofNat (n / 256 ^ (k - 1 - i) % 256)

/-- A native token transfer message as the NTT and M-portal wire formats lay it out: 259 bytes. -/
def wire (sourceManager peerManager : Bytes) (id : Nat) (sender : Bytes) (amount : Nat)
    (sourceToken recipient : Bytes) (chain index : Nat) (token : Bytes) : Bytes :=
  -- transceiver message
  [0x99, 0x45, 0xff, 0x10] ++ sourceManager ++ peerManager ++ be 2 187 ++
  -- manager message
  be 32 id ++ sender ++ be 2 121 ++
  -- native token transfer, 6 decimals
  [0x99, 0x4e, 0x54, 0x54, 6] ++ be 8 amount ++ sourceToken ++ recipient ++ be 2 chain ++ be 2 40 ++
  -- additional payload
  be 8 index ++ token ++
  -- empty transceiver payload
  be 2 0

end Spec

theorem toBE_eq_be (k n : Nat) : toBE k n = be k n := by
  induction k generalizing n with
  | zero => rfl
  | succ k ih =>
    unfold toBE
    rw [ih]
    unfold be
    rw [List.range_succ, List.map_append]
    congr 1
    · refine List.map_congr_left fun i hi => ?_
      rw [List.mem_range] at hi
      rw [show k + 1 - 1 - i = (k - 1 - i) + 1 by omega, Nat.pow_succ', Nat.div_div_eq_div_mul]
    · simp

theorem be_zero (k : Nat) : be k 0 = List.replicate k 0 := by
  refine List.eq_replicate_iff.2 ⟨by simp [be], fun b hb => ?_⟩
  unfold be at hb
  obtain ⟨i, _, rfl⟩ := List.mem_map.1 hb
  simp

theorem be_pad (j k n : Nat) (h : n < 256 ^ k) : be (j + k) n = List.replicate j 0 ++ be k n := by
  rw [← toBE_eq_be, ← toBE_eq_be]
  induction k generalizing n with
  | zero =>
    have : n = 0 := by simpa using h
    subst this
    rw [show j + 0 = j from rfl, toBE_eq_be, be_zero]
    simp [toBE]
  | succ k ih =>
    rw [show j + (k + 1) = (j + k) + 1 from rfl]
    unfold toBE
    rw [ih, List.append_assoc]
    rw [Nat.pow_succ] at h
    exact Nat.div_lt_of_lt_mul (by rw [Nat.mul_comm]; exact h)

theorem Reachable.nonce_lt {c : Cfg} {s : State} (hr : Reachable c s) : s.nonce < 2 ^ 32 := by
  refine Reachable.induct (P := fun s => s.nonce < 2 ^ 32) (fun _ hi => hi.nonce) ?_ ?_ hr
  · intro s env m h0 _
    rcases step_cases c env m s with q | q
    · rw [q]; exact h0
    generalize Dollar.step c env m s = s' at q
    rcases posted_step q with ⟨_, h2⟩ | ⟨_, _, _, _, _, _, _, _, _, _, _, _, h2⟩
    · rw [h2]; exact h0
    · rw [h2]; omega
  · rintro s s' h0 hu
    obtain ⟨⟨_, _, _, _, _, _, _, _, _, rfl⟩, _⟩ := hu
    exact h0

/-- A successful transfer posts exactly the message the wire format prescribes: source manager and
source token are this module's, the recipient manager is the peer's, the id is the nonce, the sender
is the signer's address in a 32-byte word, and amount, recipient, chain, index and destination token
are those of the transfer. -/
theorem C57_transfer_bytes {c : Cfg} (hc : c.WF) (hd : c.denom.toByteArray.data.toList.length ≤ 32)
    {s s' : State} (hr : Reachable c s) (hs : Sized s) (env : Env)
    (signer : String) (amount : Option Int) (chain : Nat) (token recipient : Bytes)
    (h : exec c env (.transfer signer amount chain token recipient) s = .ok () s') :
    ∃ amt a peer raw, amount = some amt ∧ c.decode signer = some a ∧ s.peers.get? chain = some peer ∧
      s'.posted = s.posted ++ [(raw, s.nonce)] ∧
      raw = wire (word (c.modAddr "dollar/portal/manager")) peer.manager s.nonce (word a) amt.toNat
        (word c.denom.toByteArray.data.toList) recipient chain s.index.toNat token ∧
      raw.length = 259 := by
  obtain ⟨amt, rfl, ht⟩ := transfer_ok (show transfer c env _ _ _ _ _ s = .ok () s' from h)
  obtain ⟨peer, a, q, hpe, ha, hl, _, hb, e⟩ := ht.run
  have hdid := ht.did ha
  rcases posted_step h with ⟨h1, h2⟩ | ⟨sg, amt', ch', tk', rc', peer', a', em, hp', ha', hl', hpo, hno⟩
  · exfalso
    have h3 := hdid.nonce
    rw [h2] at h3
    omega
  cases em
  rw [hpe] at hp'; cases hp'
  rw [ha] at ha'; cases ha'
  have hi := (hr.led hc).good.index
  have hn := hr.nonce_lt
  have hp32 := hs.peers _ _ hpe
  have ht32 := hs.paths _ ht.path
  have hrcp := ht.rcpLen
  have hpm : c.paddedManager = word (c.modAddr "dollar/portal/manager") := by
    unfold Cfg.paddedManager word; rw [hc.mod_len]
  have hrt : c.rawToken = word c.denom.toByteArray.data.toList := by
    unfold Cfg.rawToken word; rfl
  have hw : ∀ b : Bytes, b.length ≤ 32 → (word b).length = 32 := fun b hb => by
    unfold word; rw [List.length_append, List.length_replicate]; omega
  have hpml : (word (c.modAddr "dollar/portal/manager")).length = 32 := hw _ (by rw [hc.mod_len]; decide)
  have hrtl : (word c.denom.toByteArray.data.toList).length = 32 := hw _ hd
  have hal : (word a).length = 32 := hw _ hl
  have hu : toUint64 s.index = s.index.toNat := by
    unfold toUint64
    rw [Int.emod_eq_of_lt hi.le (by have := hs.index_high; omega)]
  have hid : List.replicate 28 0 ++ toBE 4 s.nonce = be 32 s.nonce := by
    rw [toBE_eq_be, be_pad 28 4 _ (by simpa using hn)]
  have hbl : ∀ k n, (be k n).length = k := fun k n => by simp [be]
  have key : (transferMessage c peer s.index amt.toNat chain token recipient (word a) s.nonce).2 =
      wire (word (c.modAddr "dollar/portal/manager")) peer.manager s.nonce (word a) amt.toNat
        (word c.denom.toByteArray.data.toList) recipient chain s.index.toNat token := by
    unfold transferMessage
    simp only [hid]
    have h40 : (encodeAdditional s.index token).length = 40 := by
      unfold encodeAdditional; rw [List.length_append, toBE_length, ht32]
    have hntt : encodeNtt ⟨amt.toNat, c.rawToken, recipient, chain, encodeAdditional s.index token⟩ =
        [0x99, 0x4e, 0x54, 0x54, 6] ++ be 8 amt.toNat ++ word c.denom.toByteArray.data.toList ++ recipient ++
        be 2 chain ++ be 2 40 ++ be 8 s.index.toNat ++ token := by
      unfold encodeNtt
      simp only [h40]
      rw [if_pos (by decide), hrt]
      unfold encodeAdditional nttPrefix
      rw [hu]
      simp only [toBE_eq_be, List.append_assoc, List.cons_append, List.nil_append]
    rw [hntt]
    have h121 : ([0x99, 0x4e, 0x54, 0x54, 6] ++ be 8 amt.toNat ++ word c.denom.toByteArray.data.toList ++
        recipient ++ be 2 chain ++ be 2 40 ++ be 8 s.index.toNat ++ token).length = 121 := by
      simp only [List.length_append, hbl, hrtl, hrcp, ht32]; rfl
    have h187 : (encodeManager ⟨be 32 s.nonce, word a, [0x99, 0x4e, 0x54, 0x54, 6] ++ be 8 amt.toNat ++
        word c.denom.toByteArray.data.toList ++ recipient ++ be 2 chain ++ be 2 40 ++ be 8 s.index.toNat ++
        token⟩).length = 187 := by
      unfold encodeManager
      simp only [h121, List.length_append (as := _ ++ toBE 2 121)]
      simp only [List.length_append, hbl, toBE_length, hal]
    unfold encodeTransceiver
    simp only [h187]
    unfold encodeManager
    simp only [h121]
    rw [hpm]
    unfold wire transceiverPrefix
    simp only [toBE_eq_be, List.append_assoc, List.cons_append, List.nil_append, List.length_nil,
      List.append_nil]
  refine ⟨amt, a, peer, _, rfl, ha, hpe, hpo, key, ?_⟩
  have key' : (wire (word (c.modAddr "dollar/portal/manager")) peer.manager s.nonce (word a) amt.toNat
        (word c.denom.toByteArray.data.toList) recipient chain s.index.toNat token).length = 259 := by
    unfold wire
    simp only [List.length_append, hbl, hrtl, hpml, hp32, hal, hrcp, ht32]; rfl
  exact (congrArg List.length key).trans key'

/-- The layout loses nothing: two messages are equal only if all their fields are. -/
theorem C57_wire_injective {m1 p1 s1 t1 r1 d1 m2 p2 s2 t2 r2 d2 : Bytes} {i1 a1 c1 x1 i2 a2 c2 x2 : Nat}
    (hm : m1.length = m2.length) (hp : p1.length = p2.length) (hs : s1.length = s2.length)
    (ht : t1.length = t2.length) (hr : r1.length = r2.length)
    (hi1 : i1 < 256 ^ 32) (hi2 : i2 < 256 ^ 32) (ha1 : a1 < 256 ^ 8) (ha2 : a2 < 256 ^ 8)
    (hc1 : c1 < 256 ^ 2) (hc2 : c2 < 256 ^ 2) (hx1 : x1 < 256 ^ 8) (hx2 : x2 < 256 ^ 8)
    (h : wire m1 p1 i1 s1 a1 t1 r1 c1 x1 d1 = wire m2 p2 i2 s2 a2 t2 r2 c2 x2 d2) :
    m1 = m2 ∧ p1 = p2 ∧ i1 = i2 ∧ s1 = s2 ∧ a1 = a2 ∧ t1 = t2 ∧ r1 = r2 ∧ c1 = c2 ∧ x1 = x2 ∧ d1 = d2 := by
  have inj : ∀ k x y, x < 256 ^ k → y < 256 ^ k → be k x = be k y → x = y := by
    intro k x y hx hy e
    rw [← toBE_eq_be, ← toBE_eq_be] at e
    rw [← beNat_toBE k x hx, ← beNat_toBE k y hy, e]
  have hbl : ∀ k n, (be k n).length = k := fun k n => by simp [be]
  unfold wire at h
  simp only [List.append_assoc] at h
  have h := List.append_cancel_left h
  obtain ⟨e1, h⟩ := List.append_inj h hm
  obtain ⟨e2, h⟩ := List.append_inj h hp
  have h := List.append_cancel_left h
  obtain ⟨e3, h⟩ := List.append_inj h (by rw [hbl, hbl])
  obtain ⟨e4, h⟩ := List.append_inj h hs
  have h := List.append_cancel_left h
  have h := List.append_cancel_left h
  obtain ⟨e5, h⟩ := List.append_inj h (by rw [hbl, hbl])
  obtain ⟨e6, h⟩ := List.append_inj h ht
  obtain ⟨e7, h⟩ := List.append_inj h hr
  obtain ⟨e8, h⟩ := List.append_inj h (by rw [hbl, hbl])
  have h := List.append_cancel_left h
  obtain ⟨e9, h⟩ := List.append_inj h (by rw [hbl, hbl])
  have h := List.append_cancel_right h
  exact ⟨e1, e2, inj _ _ _ hi1 hi2 e3, e4, inj _ _ _ ha1 ha2 e5, e6, e7, inj _ _ _ hc1 hc2 e8,
    inj _ _ _ hx1 hx2 e9, h⟩

/-- An index payload is "M0IT", the index in 8 bytes and the destination chain in 2. -/
theorem C57_index_bytes (index destination : Nat) (hi : index < 2 ^ 63) :
    encodeIndex index destination = [0x4d, 0x30, 0x49, 0x54] ++ be 8 index ++ be 2 destination := by
  unfold encodeIndex indexPrefix toUint64
  rw [Int.emod_eq_of_lt (by omega) (by omega), Int.toNat_natCast, toBE_eq_be, toBE_eq_be]

/-- Non-vacuity: in the demo history one message was posted; another transfer is possible after it,
and its bytes are those of the specification. -/
example : let s := run Demo.cfg Demo.hist2 Demo.start
    Reachable Demo.cfg s ∧ Sized s ∧ Demo.cfg.denom.toByteArray.data.toList.length ≤ 32 ∧
    (exec Demo.cfg (Demo.env 13) (.transfer Demo.bobS (some 500000) 2 (List.replicate 32 8)
      (List.replicate 32 1)) s).isOk = true ∧
    ((step Demo.cfg (Demo.env 13) (.transfer Demo.bobS (some 500000) 2 (List.replicate 32 8)
      (List.replicate 32 1)) s).posted.getLast?.map fun e => (e.1.length, e.2, (e.1.drop 136).take 13)) =
      some (259, 1, [0x99, 0x4e, 0x54, 0x54, 6, 0, 0, 0, 0, 0, 7, 161, 32]) :=
  ⟨Demo.reach2, C14_sizes_reachable Demo.cfg_wf Demo.start_initial demo_sized _ Demo.hist2_signed, by decide,
    by decide +kernel, by decide +kernel⟩

end Dollar
