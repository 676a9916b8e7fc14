import Verif.Props.C41
import Verif.Props.C16
import Verif.Props.C18
import Verif.Lemmas.Codec2

/-
C19: malformed portal payloads are rejected with an error, never a panic - false; the inputs that
make Deliver panic, exactly.
-/
set_option maxRecDepth 100000
namespace Dollar
open Spec MM

/-- The transceiver parser panics exactly on inputs shorter than four bytes and on inputs with the
right prefix that do not start with a complete message. -/
theorem C19_transceiver_panic_iff_partial (bz : Sl) :
    parseTransceiver bz = .panic ↔
      bz.arr.length < 4 ∨ (bz.arr.take 4 = [0x99, 0x45, 0xff, 0x10] ∧
        ¬ ∃ m rest, TransceiverMessage.Sized m ∧ bz.arr = encodeTransceiver m ++ rest) := by
  by_cases h4 : bz.arr.length < 4
  · refine ⟨fun _ => .inl h4, fun _ => ?_⟩
    unfold parseTransceiver
    have : bz.slice 0 4 = none := by unfold Sl.slice; rw [if_neg (by omega)]
    rw [this]; rfl
  by_cases hp : bz.arr.take 4 = transceiverPrefix
  · constructor
    · intro h
      refine .inr ⟨hp, ?_⟩
      rintro ⟨m, rest, hm, e⟩
      obtain ⟨r, h1, _⟩ := C17_prefix_parses bz m hm rest e
      rw [h] at h1; cases h1
    · rintro (h | ⟨_, h⟩)
      · exact absurd h h4
      · cases hx : parseTransceiver bz with
        | panic => rfl
        | ok r =>
          obtain ⟨hs, rest, e⟩ := C17_accepts_only_prefix bz r hx
          exact absurd ⟨_, rest, hs, e⟩ h
        | err =>
          exfalso
          unfold parseTransceiver at hx
          rw [Sl.slice_eq (Nat.zero_le 4) (by omega)] at hx
          have hb : (Sl.mk (bz.arr.drop 0) (4 - 0)).bytes = transceiverPrefix := hp
          have hx' : (if (Sl.mk (bz.arr.drop 0) (4 - 0)).bytes ≠ transceiverPrefix then PRes.err else _) = PRes.err := hx
          rw [if_neg (by rw [hb]; simp)] at hx'
          revert hx'
          cases bz.slice 4 36 with
          | none => intro h; cases h
          | some a =>
          cases bz.slice 36 68 with
          | none => intro h; cases h
          | some b =>
          cases bz.slice 68 70 with
          | none => intro h; cases h
          | some l =>
          show (do
            let mp ← PRes.ofSlice (bz.slice 70 (70 + beNat l.bytes))
            let l2 ← PRes.ofSlice (bz.slice (70 + beNat l.bytes) (70 + beNat l.bytes + 2))
            let tp ← PRes.ofSlice (bz.slice (70 + beNat l.bytes + 2) (70 + beNat l.bytes + 2 + beNat l2.bytes))
            PRes.ok (TransceiverMessage.mk a b mp tp)) = PRes.err → False
          cases bz.slice 70 (70 + beNat l.bytes) with
          | none => intro h; cases h
          | some mp =>
          cases bz.slice (70 + beNat l.bytes) (70 + beNat l.bytes + 2) with
          | none => intro h; cases h
          | some l2 =>
          show (do
            let tp ← PRes.ofSlice (bz.slice (70 + beNat l.bytes + 2) (70 + beNat l.bytes + 2 + beNat l2.bytes))
            PRes.ok (TransceiverMessage.mk a b mp tp)) = PRes.err → False
          cases bz.slice (70 + beNat l.bytes + 2) (70 + beNat l.bytes + 2 + beNat l2.bytes) with
          | none => intro h; cases h
          | some tp => intro h; cases h
  · constructor
    · intro h
      rw [C17_wrong_prefix bz (by omega) hp] at h; cases h
    · rintro (h | ⟨h, _⟩)
      · exact absurd h h4
      · exact absurd h hp

theorem bind_panic {α β : Type} {x : M α} {f : α → M β} {s : State} :
    (x >>= f) s = .panic ↔ x s = .panic ∨ ∃ a s', x s = .ok a s' ∧ f a s' = .panic := by
  rw [bind_apply]
  cases x s with
  | ok a s' => simp
  | err e s' => simp
  | panic => simp

theorem parse_panic {α : Type} {r : PRes α} {s : State} : parse r s = .panic ↔ r = .panic := by
  cases r <;> simp [parse]

theorem parse_ok' {α : Type} {r : PRes α} {a : α} {s s' : State} :
    parse r s = .ok a s' ↔ r = .ok a ∧ s' = s := by
  cases r with
  | ok b => simp [parse, eq_comm]
  | err => simp [parse]
  | panic => simp [parse]

theorem decodeToken_panic {p : Sl} (hw : p.WF) : decodeToken p = .panic ↔ parseNtt p = .err := by
  unfold decodeToken nttOrZero
  cases h : parseNtt p with
  | panic => exact absurd h (C18_ntt_no_panic p hw)
  | err =>
    refine ⟨fun _ => rfl, fun _ => ?_⟩
    rfl
  | ok t =>
    obtain ⟨_, hlen, hwa⟩ := parseNtt_wf hw h
    refine ⟨fun hh => ?_, fun hh => by cases hh⟩
    exfalso
    simp only [PRes.bind_panic] at hh
    rcases hh with hh | ⟨a, ha, hh⟩
    · cases hh
    cases ha
    rcases hh with hh | ⟨b, hb, hh⟩
    · unfold additionalOrZero at hh
      cases hd : decodeAdditional t.additional with
      | panic => exact C18_additional_no_panic _ hwa hd
      | err => rw [hd] at hh; cases hh
      | ok r => rw [hd] at hh; cases hh
    rw [PRes.ofSlice_panic] at hh
    rcases hh with hh | ⟨r, hr, hh⟩
    · rw [Sl.sliceFrom_eq (by omega)] at hh; cases hh
    · cases hh

theorem decodeIndex_panic {p : Sl} : decodeIndex p = .panic ↔ p.arr.length < 14 := by
  unfold decodeIndex
  simp only [PRes.bind_panic, PRes.ofSlice_panic, PRes.ofSlice_ok]
  constructor
  · rintro (h | ⟨a, ha, h | ⟨b, hb, h⟩⟩)
    · have := Sl.slice_none h (by omega); omega
    · have := Sl.slice_none h (by omega); omega
    · cases h
  · intro h
    by_cases h12 : p.arr.length < 12
    · left; unfold Sl.slice; rw [if_neg (by omega)]
    · right
      refine ⟨_, Sl.slice_eq (by omega) (by omega), .inl ?_⟩
      unfold Sl.slice; rw [if_neg (by omega)]

theorem payloadType_prefix {p : Sl} (hw : p.WF) {t : PayloadType} (h : payloadType p = .ok t) :
    (t = .token → p.bytes.take 4 = [0x99, 0x4e, 0x54, 0x54]) ∧
      (t = .index → p.bytes.take 4 = [0x4d, 0x30, 0x49, 0x54]) := by
  unfold payloadType at h
  split at h
  · cases h; exact ⟨nofun, nofun⟩
  · next h4 =>
    have hle : 4 ≤ p.arr.length := le_trans (by omega) hw
    rw [Sl.slice_eq (Nat.zero_le 4) hle] at h
    have hb : (Sl.mk (p.arr.drop 0) (4 - 0)).bytes = p.bytes.take 4 := by
      show p.arr.take 4 = (p.arr.take p.len).take 4
      rw [List.take_take, Nat.min_eq_left (by omega)]
    have h' : (if (Sl.mk (p.arr.drop 0) (4 - 0)).bytes = nttPrefix then PRes.ok PayloadType.token
      else if (Sl.mk (p.arr.drop 0) (4 - 0)).bytes = indexPrefix then PRes.ok .index else .ok .unknown) = .ok t := h
    rw [hb] at h'
    split at h'
    · next e => cases h'; exact ⟨fun _ => e, nofun⟩
    · split at h'
      · next e => cases h'; exact ⟨nofun, fun _ => e⟩
      · cases h'; exact ⟨nofun, nofun⟩

theorem payloadType_no_panic {p : Sl} (hw : p.WF) : payloadType p ≠ .panic := by
  unfold payloadType
  split
  · intro h; cases h
  · next h4 =>
    have hle : 4 ≤ p.arr.length := le_trans (by omega) hw
    rw [Sl.slice_eq (Nat.zero_le 4) hle]
    show (if (Sl.mk (p.arr.drop 0) (4 - 0)).bytes = nttPrefix then PRes.ok PayloadType.token
      else if (Sl.mk (p.arr.drop 0) (4 - 0)).bytes = indexPrefix then PRes.ok .index else .ok .unknown) ≠ .panic
    split
    · intro h; cases h
    · split <;> (intro h; cases h)

/-- The only ways in which Deliver panics in a reachable state: the VAA payload is not a complete
transceiver message; the inner payload has the token prefix but is not a native token transfer; it
has the index prefix but fewer than fourteen bytes (of capacity); or the message is fine and the
index it announces makes the total principal worth less than the supply (C41).  Every other
input, however malformed, gives an error or is ignored. -/
theorem C19_panic_causes_partial {c : Cfg} (hc : c.WF) {s : State} (hr : Reachable c s) (env : Env)
    (vaa : Bytes) (h : exec c env (.deliver vaa) s = .panic) :
    ∃ v, env.verify vaa = some v ∧
      ((v.payload.arr.length < 4 ∨ (v.payload.arr.take 4 = [0x99, 0x45, 0xff, 0x10] ∧
          ¬ ∃ m rest, TransceiverMessage.Sized m ∧ v.payload.arr = encodeTransceiver m ++ rest)) ∨
        (∃ p, innerPayload v = some p ∧ p.bytes.take 4 = [0x99, 0x4e, 0x54, 0x54] ∧ parseNtt p = .err) ∨
        (∃ p, innerPayload v = some p ∧ p.bytes.take 4 = [0x4d, 0x30, 0x49, 0x54] ∧ p.arr.length < 14) ∨
        ∃ q, content env vaa = some q ∧ s.index < q.announced ∧
          (s.totalPrincipal * q.announced).tdiv (10 ^ 12) < s.supply) := by
  have hpos := (hr.led hc).good.index
  have h : deliver c env vaa s = .panic := h
  unfold deliver at h
  rw [bind_panic] at h
  rcases h with h | ⟨_, _, _, h⟩
  swap
  · cases h
  unfold deliverInner at h
  rw [bind_panic] at h
  rcases h with h | ⟨_, _, h0, h⟩
  · cases h
  cases h0
  split at h
  · cases h
  rw [bind_panic] at h
  rcases h with h | ⟨v, s1, h0, h⟩
  · exfalso
    unfold verifyVAA at h
    cases hw : env.verify vaa with
    | none => simp only [hw] at h; cases h
    | some w =>
      simp only [hw, bind_panic] at h
      rcases h with h | ⟨_, _, h0, h⟩
      · cases h
      split at h
      · cases h
      · rw [bind_panic] at h
        rcases h with h | ⟨_, _, _, h⟩ <;> cases h
  have hv : env.verify vaa = some v ∧ s1 = { s with archive := s.archive ++ [v.digest] } := by
    unfold verifyVAA at h0
    cases hw : env.verify vaa with
    | none => simp only [hw] at h0; cases h0
    | some w =>
      simp only [hw] at h0
      rw [bind_ok] at h0
      obtain ⟨_, _, hg, h0⟩ := h0
      cases hg
      split at h0
      · cases h0
      · rw [bind_ok] at h0
        obtain ⟨_, _, hm, h0⟩ := h0
        cases hm
        cases h0
        exact ⟨rfl, rfl⟩
  obtain ⟨hv, rfl⟩ := hv
  refine ⟨v, hv, ?_⟩
  cases hpe : s.peers.get? v.emitterChain with
  | none => simp only [hpe] at h; cases h
  | some peer =>
  simp only [hpe] at h
  split at h
  · cases h
  unfold deliverPayload at h
  rw [bind_panic, parse_panic] at h
  rcases h with h | ⟨t, s2, h0, h⟩
  · exact .inl ((C19_transceiver_panic_iff_partial _).1 h)
  rw [parse_ok'] at h0
  obtain ⟨ht, rfl⟩ := h0
  split at h
  · cases h
  split at h
  · cases h
  have hw1 := (parseTransceiver_wf ht).2.2.1
  rw [bind_panic, parse_panic] at h
  rcases h with h | ⟨m, s3, h0, h⟩
  · exact absurd h (C16_no_panic _ hw1)
  rw [parse_ok'] at h0
  obtain ⟨hm, rfl⟩ := h0
  have hw2 := (parseManager_wf hw1 hm).2.2
  have hin : innerPayload v = some m.payload := by unfold innerPayload; simp only [ht, hm]
  unfold handlePayload at h
  rw [bind_panic, parse_panic] at h
  rcases h with h | ⟨ty, s4, h0, h⟩
  · exact absurd h (payloadType_no_panic hw2)
  rw [parse_ok'] at h0
  obtain ⟨hty, rfl⟩ := h0
  have hpre := payloadType_prefix hw2 hty
  cases ty with
  | unknown => cases h
  | token =>
    simp only at h
    unfold handleToken at h
    rw [bind_panic, parse_panic] at h
    rcases h with h | ⟨p, s5, h0, h⟩
    · exact .inr (.inl ⟨_, hin, hpre.1 rfl, (decodeToken_panic hw2).1 h⟩)
    rw [parse_ok'] at h0
    obtain ⟨hp, rfl⟩ := h0
    split at h
    · cases h
    split at h
    · cases h
    rw [bind_panic] at h
    rcases h with h | ⟨_, _, _, h⟩
    swap
    · cases h
    have hcn : content env vaa = some (.token p.amount p.index p.recipient p.chain p.token) := by
      unfold content
      simp only [hv, hin]
      unfold contentOf
      simp only [hty, hp]
    refine .inr (.inr (.inr ⟨_, hcn, ?_⟩))
    show s.index < p.index ∧ (s.totalPrincipal * p.index).tdiv (10 ^ 12) < s.supply
    set sA : State := { s with archive := s.archive ++ [v.digest] } with hsA
    have hgA : Good c sA := ((hr.led hc).congr (s' := sA)).good
    unfold mint at h
    rw [bind_panic] at h
    rcases h with h | ⟨_, s6, h0, h⟩
    · have hu : updateIndex c env p.index sA = .panic := by
        rw [ignore_apply] at h
        revert h
        cases updateIndex c env p.index sA <;> simp
      exact (updateIndex_panic_iff (s := sA) hpos).1 hu
    · exfalso
      have hui := ignore_updateIndex hc hgA h0
      have hpos6 : s6.index ≠ 0 := by have := hui.good.index; omega
      unfold newCoin at h
      rw [if_neg (by omega), bind_panic] at h
      rcases h with h | ⟨_, s7, h1, h⟩
      · cases h
      cases h1
      rw [bind_panic] at h
      rcases h with h | ⟨_, s8, h1, h⟩
      · cases h
      rw [mintCoins_eq] at h1
      cases h1
      exact (sendModuleToAccount_safe (s := minted s6 c.moduleAddr p.amount) hpos6).1 h
  | index =>
    simp only at h
    unfold handleIndex at h
    rw [bind_panic, parse_panic] at h
    rcases h with h | ⟨p, s5, h0, h⟩
    · exact .inr (.inr (.inl ⟨_, hin, hpre.2 rfl, decodeIndex_panic.1 h⟩))
    rw [parse_ok'] at h0
    obtain ⟨hp, rfl⟩ := h0
    split at h
    · cases h
    have hcn : content env vaa = some (.index p.1 p.2) := by
      unfold content
      simp only [hv, hin]
      unfold contentOf
      simp only [hty, hp]
    refine .inr (.inr (.inr ⟨_, hcn, ?_⟩))
    exact (updateIndex_panic_iff (s := { s with archive := s.archive ++ [v.digest] }) hpos).1 h

namespace Demo

/-- VAAs from the configured peer: an empty payload, a four-byte token payload and a four-byte
index payload. -/
def verifyBad (bz : Bytes) : Option VAA :=
  if bz = [1] then some ⟨2, List.replicate 32 5, Sl.ofBytes [] [], [1]⟩
  else if bz = [2] then some (vaa 2 [0x99, 0x4e, 0x54, 0x54])
  else if bz = [3] then some (vaa 3 [0x4d, 0x30, 0x49, 0x54])
  else if bz = [4] then some (vaa 4 [])
  else none

def envBad : Env := { env 1 with verify := verifyBad }

theorem reach0 : Reachable cfg start := .fresh start_initial

end Demo

/-- The result is a panic. -/
def Res.isPanic {σ α : Type} (r : Res σ α) : Bool :=
  match r with
  | .panic => true
  | _ => false

theorem Res.isPanic_iff {σ α : Type} {r : Res σ α} : r.isPanic = true ↔ r = .panic := by
  cases r <;> simp [Res.isPanic]

/-- The property fails: three malformed payloads in otherwise valid VAAs panic. -/
theorem C19_malformed_can_panic :
    ∃ (c : Cfg) (s : State) (env : Env), c.WF ∧ Reachable c s ∧
      exec c env (.deliver [1]) s = .panic ∧ exec c env (.deliver [2]) s = .panic ∧
      exec c env (.deliver [3]) s = .panic ∧
      (∃ v1 v2 v3, env.verify [1] = some v1 ∧ env.verify [2] = some v2 ∧ env.verify [3] = some v3 ∧
        v1.payload.bytes = [] ∧
        (∃ p, innerPayload v2 = some p ∧ p.bytes = [0x99, 0x4e, 0x54, 0x54]) ∧
        ∃ p, innerPayload v3 = some p ∧ p.bytes = [0x4d, 0x30, 0x49, 0x54]) := by
  refine ⟨Demo.cfg, Demo.start, Demo.envBad, Demo.cfg_wf, Demo.reach0, Res.isPanic_iff.1 (by decide +kernel),
    Res.isPanic_iff.1 (by decide +kernel), Res.isPanic_iff.1 (by decide +kernel), ?_⟩
  refine ⟨_, _, _, rfl, rfl, rfl, rfl, ?_, ?_⟩
  · have h : ((innerPayload (Demo.vaa 2 [0x99, 0x4e, 0x54, 0x54])).map Sl.bytes) = some [0x99, 0x4e, 0x54, 0x54] := by
      decide +kernel
    obtain ⟨p, h1, h2⟩ := Option.map_eq_some_iff.1 h
    exact ⟨p, h1, h2⟩
  · have h : ((innerPayload (Demo.vaa 3 [0x4d, 0x30, 0x49, 0x54])).map Sl.bytes) = some [0x4d, 0x30, 0x49, 0x54] := by
      decide +kernel
    obtain ⟨p, h1, h2⟩ := Option.map_eq_some_iff.1 h
    exact ⟨p, h1, h2⟩

-- An empty manager payload, on the other hand, is ignored.
example : (exec Demo.cfg Demo.envBad (.deliver [4]) Demo.start).isOk = true := by decide +kernel

end Dollar
