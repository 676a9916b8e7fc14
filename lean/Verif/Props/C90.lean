import Verif.Props.C75
import Verif.Props.C82

/-
C90: whatever bytes are decoded, the message that comes out is in the range of its Go types.
-/
set_option maxRecDepth 100000
namespace Dollar
open Proto Spec

namespace Spec

/-- The amount of a message: absent, or of at most 256 bits. -/
def AmountFits : Option Int → Prop
  | none => True
  | some a => a.natAbs < 2 ^ 256

/-- A message of the given type whose parts are in the range of their Go types: strings of bytes, 32-bit
enumerations, 16-bit chain ids, amounts that are absent or have at most 256 bits. -/
def InRange : MsgType → Msg → Prop
  | .claimYield, .claimYield s => Latin s
  | .setPaused, .setPaused s _ => Latin s
  | .setYieldRecipient, .setYieldRecipient s p i r => Latin s ∧ (-2 ^ 31 ≤ p ∧ p < 2 ^ 31) ∧ Latin i ∧ Latin r
  | .deliver, .deliver _ => True
  | .transfer, .transfer s a chain _ _ => Latin s ∧ AmountFits a ∧ chain < 2 ^ 16
  | .portalSetPaused, .portalSetPaused s _ => Latin s
  | .setPeer, .setPeer s chain _ _ => Latin s ∧ chain < 2 ^ 16
  | .setBridgingPath, .setBridgingPath s chain _ _ => Latin s ∧ chain < 2 ^ 16
  | .transferOwnership, .transferOwnership s o => Latin s ∧ Latin o
  | .lock, .lock s v a => Latin s ∧ (-2 ^ 31 ≤ v ∧ v < 2 ^ 31) ∧ AmountFits a
  | .unlock, .unlock s v a => Latin s ∧ (-2 ^ 31 ≤ v ∧ v < 2 ^ 31) ∧ AmountFits a
  | .vaultsSetPaused, .vaultsSetPaused s p => Latin s ∧ (-2 ^ 31 ≤ p ∧ p < 2 ^ 31)
  | _, _ => False

/-- The message carries its amount, if it is of a kind that has one. -/
def HasAmount : Msg → Prop
  | .transfer _ a _ _ _ => a ≠ none
  | .lock _ _ a => a ≠ none
  | .unlock _ _ a => a ≠ none
  | _ => True

end Spec

/-- A field in the range of its type; a `math.Int` may be nil. -/
def Proto.Kind.Holds : Kind → FVal → Prop
  | .u64, .num x => 0 ≤ x ∧ x < 2 ^ 64
  | .u16, .num x => 0 ≤ x ∧ x < 2 ^ 16
  | .i64, .num x => -2 ^ 63 ≤ x ∧ x < 2 ^ 63
  | .i32, .num x => -2 ^ 31 ≤ x ∧ x < 2 ^ 31
  | .bool, .num x => x = 0 ∨ x = 1
  | .bytes, .bs _ => True
  | .int, .int x => AmountFits x
  | .time, .time s ns => timeOk s ns = true
  | _, _ => False

theorem Kind.zero_holds (k : Kind) : k.Holds k.zero := by
  cases k <;> simp [Kind.zero, Kind.Holds, AmountFits, timeOk]

theorem conv_holds {k : Kind} {v : Nat} (hk : k.wire = 0) (hv : v < 2 ^ 64) : k.Holds (.num (k.conv v)) := by
  cases k with
  | u64 =>
    show (0 : Int) ≤ (v : Int) ∧ (v : Int) < 2 ^ 64
    omega
  | u16 =>
    show (0 : Int) ≤ ((v % 2 ^ 16 : Nat) : Int) ∧ ((v % 2 ^ 16 : Nat) : Int) < 2 ^ 16
    omega
  | i64 =>
    show -2 ^ 63 ≤ toInt64 v ∧ toInt64 v < 2 ^ 63
    unfold toInt64
    split <;> omega
  | i32 =>
    show -2 ^ 31 ≤ toInt32 v ∧ toInt32 v < 2 ^ 31
    unfold toInt32
    split <;> omega
  | bool =>
    show (if v = 0 then (0 : Int) else 1) = 0 ∨ (if v = 0 then (0 : Int) else 1) = 1
    split <;> simp
  | _ => cases hk

theorem parsePayload_holds {T : IntText} {k : Kind} {b : Bytes} {old v : FVal} (ho : k.Holds old)
    (h : parsePayload T k b old = .ok v) : k.Holds v := by
  unfold parsePayload at h
  cases k with
  | bytes => cases h; trivial
  | int =>
    simp only at h
    split at h
    · cases h; exact ho
    · split at h
      · cases h
      · split at h
        next x _ hx => cases h; exact hx
        · cases h
  | time =>
    simp only at h
    unfold readTime at h
    cases hr : unmarshalLoop noParse timestampSchema b (b.length + 1) 0 timestampSchema.zero with
    | ok m =>
      rw [hr] at h
      simp only [PRes.ok_bind] at h
      split at h
      next ht => cases h; exact ht
      · cases h
    | err => rw [hr] at h; cases h
    | panic => rw [hr] at h; cases h
  | _ => cases h

theorem readField_holds {T : IntText} {b : Bytes} {k : Kind} {old v : FVal} {j j' : Int} (h0 : 0 ≤ j)
    (ho : k.Holds old) (h : readField (parsePayload T) b k old j = .ok (v, j')) : k.Holds v := by
  unfold readField at h
  split at h
  next hk =>
    rcases readVarint_spec b j h0 with e | ⟨x, i, e, _, _, hx⟩
    · rw [e] at h; cases h
    · rw [e] at h
      simp only [PRes.ok_bind] at h
      cases h
      exact conv_holds hk hx
  next =>
    rcases readVarint_spec b j h0 with e | ⟨x, i, e, _, _, hx⟩
    · rw [e] at h; cases h
    · rw [e] at h
      simp only [PRes.ok_bind] at h
      split at h
      · cases h
      split at h
      · cases h
      split at h
      · cases h
      cases hs : Proto.sub b i (wrap64 (i + toInt64 x)) with
      | err => rw [hs] at h; cases h
      | panic => rw [hs] at h; cases h
      | ok p =>
        rw [hs] at h
        simp only [PRes.ok_bind] at h
        cases hp : parsePayload T k p old with
        | err => rw [hp] at h; cases h
        | panic => rw [hp] at h; cases h
        | ok w =>
          rw [hp] at h
          simp only [PRes.ok_bind] at h
          cases h
          exact parsePayload_holds ho hp

theorem unmarshalLoop_holds {T : IntText} {sch : Schema} {b : Bytes} (hb : b.length < 2 ^ 63) {fuel : Nat} {i : Int}
    {m m' : Fields} (h0 : 0 ≤ i) (hm : ∀ (n : Nat) k, sch.kind n = some k → k.Holds (m n))
    (h : unmarshalLoop (parsePayload T) sch b fuel i m = .ok m') :
    ∀ (n : Nat) k, sch.kind n = some k → k.Holds (m' n) := by
  induction fuel generalizing i m with
  | zero => cases h
  | succ f ih =>
    unfold unmarshalLoop at h
    by_cases hl : (b.length : Int) ≤ i
    · rw [if_pos hl] at h
      split at h
      · cases h
      · cases h; exact hm
    rw [if_neg hl] at h
    rcases readVarint_spec b i h0 with e | ⟨v, j, e, h1, h2, _⟩
    · rw [e] at h; cases h
    rw [e] at h
    simp only [PRes.ok_bind] at h
    split at h
    · cases h
    split at h
    · cases h
    next hpos =>
    split at h
    · rcases skipField_spec b hb i h0 (by omega) with hs | ⟨j', hs, h3, h4⟩
      · rw [hs] at h; cases h
      · rw [hs] at h
        simp only [PRes.ok_bind] at h
        exact ih (by omega) hm h
    next k hk =>
      split at h
      · cases h
      cases hs : readField (parsePayload T) b k (m (toInt32 (v >>> 3)).toNat) j with
      | err => rw [hs] at h; cases h
      | panic => rw [hs] at h; cases h
      | ok w =>
        obtain ⟨w, j'⟩ := w
        have hkn : sch.kind ((toInt32 (v >>> 3)).toNat : Int) = some k := by
          rw [Int.toNat_of_nonneg (by omega)]; exact hk
        have hw := readField_holds (by omega) (hm _ _ hkn) hs
        have hj : 0 ≤ j' := by
          rcases readField_spec (parsePayload T) (fun k p old h => parsePayload_noPanic T k p old h) b hb k
            (m (toInt32 (v >>> 3)).toNat) j (by omega) h2 with e' | ⟨q, j'', e', h3, _⟩
          · rw [e'] at hs; cases hs
          · rw [e'] at hs; cases hs; omega
        rw [hs] at h
        simp only [PRes.ok_bind] at h
        refine ih hj ?_ h
        intro n k' hk'
        split
        next he =>
          subst he
          rw [hkn] at hk'
          cases hk'
          exact hw
        · exact hm n k' hk'

theorem unmarshal_holds {T : IntText} {sch : Schema} {b : Bytes} (hb : b.length < 2 ^ 63) {m : Fields}
    (h : unmarshal T sch b = .ok m) (n : Nat) (k : Kind) (hk : sch.kind n = some k) : k.Holds (m n) := by
  refine unmarshalLoop_holds hb (by omega) ?_ h n k hk
  intro n k hk
  unfold Schema.zero
  rw [hk]
  exact Kind.zero_holds k

theorem latin_str (b : Bytes) : Latin (str b) := by
  intro ch hch
  unfold str at hch
  rw [String.toList_ofList, List.mem_map] at hch
  obtain ⟨x, _, rfl⟩ := hch
  have hx : x.toNat < 256 := x.toNat_lt
  have hv : Nat.isValidChar x.toNat := .inl (by omega)
  show (Char.ofNat x.toNat).val.toNat < 256
  rw [Char.ofNat, dif_pos hv]
  exact hx

theorem holds_i32 {v : FVal} (h : Kind.i32.Holds v) : -2 ^ 31 ≤ v.getNum ∧ v.getNum < 2 ^ 31 := by
  cases v <;> first | exact h.elim | exact h

theorem holds_u16 {v : FVal} (h : Kind.u16.Holds v) : v.getNum.toNat < 2 ^ 16 := by
  cases v with
  | num x =>
    have : 0 ≤ x ∧ x < 2 ^ 16 := h
    show x.toNat < 2 ^ 16
    omega
  | _ => exact h.elim

theorem holds_int {v : FVal} (h : Kind.int.Holds v) : AmountFits v.getInt? := by
  cases v <;> first | exact h.elim | exact h

/-- C90: whatever bytes are decoded as a message of some type: if a message comes out, it is a message of that
type and every part of it is in the range of its Go type. -/
theorem C90_decoded_in_range (T : IntText) (t : MsgType) (b : Bytes) (hb : b.length < 2 ^ 63) (m : Msg)
    (h : decodeMsg T t b = .ok m) : InRange t m := by
  unfold decodeMsg at h
  cases e : unmarshal T t.schema b with
  | err => rw [e] at h; cases h
  | panic => rw [e] at h; cases h
  | ok f =>
    rw [e] at h
    simp only [PRes.ok_bind] at h
    cases h
    have hf := unmarshal_holds hb e
    cases t with
    | claimYield => exact latin_str _
    | setPaused => exact latin_str _
    | setYieldRecipient => exact ⟨latin_str _, holds_i32 (hf 2 _ rfl), latin_str _, latin_str _⟩
    | deliver => trivial
    | transfer => exact ⟨latin_str _, holds_int (hf 2 _ rfl), holds_u16 (hf 3 _ rfl)⟩
    | portalSetPaused => exact latin_str _
    | setPeer => exact ⟨latin_str _, holds_u16 (hf 2 _ rfl)⟩
    | setBridgingPath => exact ⟨latin_str _, holds_u16 (hf 2 _ rfl)⟩
    | transferOwnership => exact ⟨latin_str _, latin_str _⟩
    | lock => exact ⟨latin_str _, holds_i32 (hf 2 _ rfl), holds_int (hf 3 _ rfl)⟩
    | unlock => exact ⟨latin_str _, holds_i32 (hf 2 _ rfl), holds_int (hf 3 _ rfl)⟩
    | vaultsSetPaused => exact ⟨latin_str _, holds_i32 (hf 2 _ rfl)⟩

/-- C90: so every decoded message meets the condition under which C82 shows that all stored numbers fit. -/
theorem C90_typed (T : IntText) (t : MsgType) (b : Bytes) (hb : b.length < 2 ^ 63) (m : Msg)
    (h : decodeMsg T t b = .ok m) : MsgTyped m := by
  have hr := C90_decoded_in_range T t b hb m h
  cases t <;> cases m <;> first | exact hr.elim | trivial | exact hr.2

/-- C90: a decoded message that carries its amount can be written down again and is read as the same message,
whatever unusual form it first came in. -/
theorem C90_reencoded (T : IntText) (t : MsgType) (b : Bytes) (hb : b.length < 2 ^ 63) (m : Msg)
    (h : decodeMsg T t b = .ok m) (ha : HasAmount m) (relayer : String) (hr : Latin relayer) :
    ∃ l, wireFields relayer m = some (t, l) ∧
      ((encodeFields t l).length < 2 ^ 63 → decodeMsg T t (encodeFields t l) = .ok m) := by
  have hi := C90_decoded_in_range T t b hb m h
  have key : (∃ l, wireFields relayer m = some (t, l)) ∧ WireFits relayer m := by
    cases t <;> cases m <;> first | exact hi.elim | exact ⟨⟨_, rfl⟩, hi⟩ | exact ⟨⟨_, rfl⟩, hr⟩ | skip
    · rename_i a _ _ _
      cases a with
      | none => exact absurd rfl ha
      | some a => exact ⟨⟨_, rfl⟩, hi⟩
    all_goals
      rename_i a
      cases a with
      | none => exact absurd rfl ha
      | some a => exact ⟨⟨_, rfl⟩, hi⟩
  obtain ⟨⟨l, hl⟩, hf⟩ := key
  exact ⟨l, hl, fun hlen => C75_roundtrip T relayer m t l hl hf hlen⟩

/-! Examples.  A lock whose vault is written as the ten-byte number 2^33 + 2 is a lock in vault 2; one written as
2^31 names a negative vault; a transfer to chain 65538 is one to chain 2; the fields may come in any order and more
than once, the last one counts. -/

example : decodeMsg decimal .lock [0x10, 0x82, 0x80, 0x80, 0x80, 0x20, 0x1a, 0x01, 0x37, 0x0a, 0x01, 0x61] =
    .ok (.lock "a" 2 (some 7)) := by decide +kernel
example : decodeMsg decimal .vaultsSetPaused [0x0a, 0x01, 0x61, 0x10, 0x80, 0x80, 0x80, 0x80, 0x08] =
    .ok (.vaultsSetPaused "a" (-2147483648)) := by decide +kernel
example : decodeMsg decimal .claimYield [0x0a, 0x01, 0x61, 0x0a, 0x01, 0x62] = .ok (.claimYield "b") := by
  decide +kernel

example : InRange .lock (.lock "a" 2 (some 7)) :=
  C90_decoded_in_range decimal .lock [0x10, 0x82, 0x80, 0x80, 0x80, 0x20, 0x1a, 0x01, 0x37, 0x0a, 0x01, 0x61]
    (by decide) _ (by decide +kernel)

example : ∃ l, wireFields "" (.lock "a" 2 (some 7)) = some (.lock, l) ∧
    ((encodeFields .lock l).length < 2 ^ 63 → decodeMsg decimal .lock (encodeFields .lock l) = .ok (.lock "a" 2 (some 7))) :=
  C90_reencoded decimal .lock [0x10, 0x82, 0x80, 0x80, 0x80, 0x20, 0x1a, 0x01, 0x37, 0x0a, 0x01, 0x61]
    (by decide) _ (by decide +kernel) (by simp [HasAmount]) "" (by decide)

end Dollar
