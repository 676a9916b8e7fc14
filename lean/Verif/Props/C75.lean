import Verif.Props.C74

/-
C75: the message a user signs is the message the handler receives; except that a chain id above 65535 is cut
to its low 16 bits.
-/
namespace Dollar
open Proto

namespace Spec

/-- A message whose parts are in the range of their Go types: strings of bytes, 32-bit enumerations, 16-bit chain
ids, amounts that are present and have at most 256 bits. -/
def WireFits (relayer : String) : Msg → Prop
  | .claimYield s => Latin s
  | .setPaused s _ => Latin s
  | .setYieldRecipient s p i r => Latin s ∧ (-2 ^ 31 ≤ p ∧ p < 2 ^ 31) ∧ Latin i ∧ Latin r
  | .deliver _ => Latin relayer
  | .transfer s (some a) chain _ _ => Latin s ∧ a.natAbs < 2 ^ 256 ∧ chain < 2 ^ 16
  | .portalSetPaused s _ => Latin s
  | .setPeer s chain _ _ => Latin s ∧ chain < 2 ^ 16
  | .setBridgingPath s chain _ _ => Latin s ∧ chain < 2 ^ 16
  | .transferOwnership s o => Latin s ∧ Latin o
  | .lock s v (some a) => Latin s ∧ (-2 ^ 31 ≤ v ∧ v < 2 ^ 31) ∧ a.natAbs < 2 ^ 256
  | .unlock s v (some a) => Latin s ∧ (-2 ^ 31 ≤ v ∧ v < 2 ^ 31) ∧ a.natAbs < 2 ^ 256
  | .vaultsSetPaused s p => Latin s ∧ (-2 ^ 31 ≤ p ∧ p < 2 ^ 31)
  | _ => False

end Spec
open Spec

theorem MsgType.schema_wf (t : MsgType) : t.schema.WF := by
  cases t <;> (unfold Schema.WF MsgType.schema; decide)

theorem ofBool_fits (b : Bool) : Kind.bool.Fits (.ofBool b) := by
  cases b
  · exact Or.inl rfl
  · exact Or.inr rfl

theorem getBool_ofBool (b : Bool) : (FVal.ofBool b).getBool = b := by cases b <;> rfl

/-- The fields of a message in range are in range for its schema. -/
theorem wireFields_fits {relayer : String} {m : Msg} {t : MsgType} {l : List FVal}
    (hw : wireFields relayer m = some (t, l)) (hf : WireFits relayer m) :
    ∀ e ∈ t.schema, e.2.Fits (Fields.ofList l e.1) := by
  cases m <;> simp only [wireFields, Option.some.injEq, Prod.mk.injEq, reduceCtorEq] at hw
  all_goals
    obtain ⟨rfl, rfl⟩ := hw
    intro e he
    simp only [MsgType.schema, List.mem_cons, List.not_mem_nil, or_false] at he
  · subst he; trivial
  · rcases he with rfl | rfl
    · trivial
    · exact ofBool_fits _
  · rcases he with rfl | rfl | rfl | rfl
    · trivial
    · exact hf.2.1
    · trivial
    · trivial
  · rcases he with rfl | rfl <;> trivial
  · rename_i s a chain token recipient
    cases a with
    | none => exact hf.elim
    | some a =>
      obtain ⟨_, ha, hc⟩ := hf
      rcases he with rfl | rfl | rfl | rfl | rfl
      · trivial
      · exact ha
      · exact ⟨Int.natCast_nonneg _, by exact_mod_cast hc⟩
      · trivial
      · trivial
  · rcases he with rfl | rfl
    · trivial
    · exact ofBool_fits _
  · rcases he with rfl | rfl | rfl | rfl
    · trivial
    · exact ⟨Int.natCast_nonneg _, by exact_mod_cast hf.2⟩
    · trivial
    · trivial
  · rcases he with rfl | rfl | rfl | rfl
    · trivial
    · exact ⟨Int.natCast_nonneg _, by exact_mod_cast hf.2⟩
    · trivial
    · exact ofBool_fits _
  · rcases he with rfl | rfl <;> trivial
  · rename_i s v a
    cases a with
    | none => exact hf.elim
    | some a =>
      rcases he with rfl | rfl | rfl
      · trivial
      · exact hf.2.1
      · exact hf.2.2
  · rename_i s v a
    cases a with
    | none => exact hf.elim
    | some a =>
      rcases he with rfl | rfl | rfl
      · trivial
      · exact hf.2.1
      · exact hf.2.2
  · rcases he with rfl | rfl
    · trivial
    · exact hf.2

/-- The fields read back make up the message. -/
theorem toMsg_wireFields {relayer : String} {m : Msg} {t : MsgType} {l : List FVal}
    (hw : wireFields relayer m = some (t, l)) (hf : WireFits relayer m) (f : Fields)
    (hm : ∀ e ∈ t.schema, f e.1 = Fields.ofList l e.1) : t.toMsg f = m := by
  have get : ∀ (n : Nat) (k : Kind), (n, k) ∈ t.schema → f n = Fields.ofList l n := fun n k h => hm (n, k) h
  cases m <;> simp only [wireFields, Option.some.injEq, Prod.mk.injEq, reduceCtorEq] at hw
  all_goals obtain ⟨rfl, rfl⟩ := hw
  · rw [MsgType.toMsg, get 1 .bytes (by simp [MsgType.schema])]
    exact congrArg Msg.claimYield (str_ascii hf)
  · rw [MsgType.toMsg, get 1 .bytes (by simp [MsgType.schema]), get 2 .bool (by simp [MsgType.schema])]
    show Msg.setPaused (str (ascii _)) (FVal.ofBool _).getBool = _
    rw [str_ascii hf, getBool_ofBool]
  · rw [MsgType.toMsg, get 1 .bytes (by simp [MsgType.schema]), get 2 .i32 (by simp [MsgType.schema]),
      get 3 .bytes (by simp [MsgType.schema]), get 4 .bytes (by simp [MsgType.schema])]
    show Msg.setYieldRecipient (str (ascii _)) _ (str (ascii _)) (str (ascii _)) = _
    rw [str_ascii hf.1, str_ascii hf.2.2.1, str_ascii hf.2.2.2]
    rfl
  · rw [MsgType.toMsg, get 2 .bytes (by simp [MsgType.schema])]
    rfl
  · rename_i s a chain token recipient
    cases a with
    | none => exact hf.elim
    | some a =>
      rw [MsgType.toMsg, get 1 .bytes (by simp [MsgType.schema]), get 2 .int (by simp [MsgType.schema]),
        get 3 .u16 (by simp [MsgType.schema]), get 4 .bytes (by simp [MsgType.schema]),
        get 5 .bytes (by simp [MsgType.schema])]
      show Msg.transfer (str (ascii _)) _ _ _ _ = _
      rw [str_ascii hf.1]
      rfl
  · rw [MsgType.toMsg, get 1 .bytes (by simp [MsgType.schema]), get 2 .bool (by simp [MsgType.schema])]
    show Msg.portalSetPaused (str (ascii _)) (FVal.ofBool _).getBool = _
    rw [str_ascii hf, getBool_ofBool]
  · rw [MsgType.toMsg, get 1 .bytes (by simp [MsgType.schema]), get 2 .u16 (by simp [MsgType.schema]),
      get 3 .bytes (by simp [MsgType.schema]), get 4 .bytes (by simp [MsgType.schema])]
    show Msg.setPeer (str (ascii _)) _ _ _ = _
    rw [str_ascii hf.1]
    rfl
  · rw [MsgType.toMsg, get 1 .bytes (by simp [MsgType.schema]), get 2 .u16 (by simp [MsgType.schema]),
      get 3 .bytes (by simp [MsgType.schema]), get 4 .bool (by simp [MsgType.schema])]
    show Msg.setBridgingPath (str (ascii _)) _ _ (FVal.ofBool _).getBool = _
    rw [str_ascii hf.1, getBool_ofBool]
    rfl
  · rw [MsgType.toMsg, get 1 .bytes (by simp [MsgType.schema]), get 2 .bytes (by simp [MsgType.schema])]
    show Msg.transferOwnership (str (ascii _)) (str (ascii _)) = _
    rw [str_ascii hf.1, str_ascii hf.2]
  · rename_i s v a
    cases a with
    | none => exact hf.elim
    | some a =>
      rw [MsgType.toMsg, get 1 .bytes (by simp [MsgType.schema]), get 2 .i32 (by simp [MsgType.schema]),
        get 3 .int (by simp [MsgType.schema])]
      show Msg.lock (str (ascii _)) _ _ = _
      rw [str_ascii hf.1]
      rfl
  · rename_i s v a
    cases a with
    | none => exact hf.elim
    | some a =>
      rw [MsgType.toMsg, get 1 .bytes (by simp [MsgType.schema]), get 2 .i32 (by simp [MsgType.schema]),
        get 3 .int (by simp [MsgType.schema])]
      show Msg.unlock (str (ascii _)) _ _ = _
      rw [str_ascii hf.1]
      rfl
  · rw [MsgType.toMsg, get 1 .bytes (by simp [MsgType.schema]), get 2 .i32 (by simp [MsgType.schema])]
    show Msg.vaultsSetPaused (str (ascii _)) _ = _
    rw [str_ascii hf.1]
    rfl

/-- C75: the handler receives exactly the message that was written. -/
theorem C75_roundtrip (T : IntText) (relayer : String) (m : Msg) (t : MsgType) (l : List FVal)
    (hw : wireFields relayer m = some (t, l)) (hf : WireFits relayer m) (hlen : (encodeFields t l).length < 2 ^ 63) :
    decodeMsg T t (encodeFields t l) = .ok m := by
  obtain ⟨f, e, hm⟩ := unmarshal_marshal T (MsgType.schema_wf t) (wireFields_fits hw hf) hlen
  unfold decodeMsg encodeFields
  rw [e]
  simp only [PRes.ok_bind]
  rw [toMsg_wireFields hw hf f hm]

/-- C75: two different messages never have the same bytes, so a signature on one is no signature on the other. -/
theorem C75_injective (relayer relayer' : String) (m m' : Msg) (t : MsgType) (l l' : List FVal)
    (hw : wireFields relayer m = some (t, l)) (hw' : wireFields relayer' m' = some (t, l'))
    (hf : WireFits relayer m) (hf' : WireFits relayer' m') (hlen : (encodeFields t l).length < 2 ^ 63)
    (h : encodeFields t l = encodeFields t l') : m = m' := by
  have h1 := C75_roundtrip decimal relayer m t l hw hf hlen
  have h2 := C75_roundtrip decimal relayer' m' t l' hw' hf' (by rw [← h]; exact hlen)
  rw [h, h2] at h1
  injection h1 with h1
  exact h1.symm

/-- C75: an amount left out on the wire reaches the handler as nil, not as zero. -/
theorem C75_missing_amount (T : IntText) (s : String) (v : Int) (hs : Latin s) (hv : -2 ^ 31 ≤ v ∧ v < 2 ^ 31)
    (hlen : (marshal [(1, .bytes), (2, .i32)] (Fields.ofList [.bs (ascii s), .num v])).length < 2 ^ 63) :
    decodeMsg T .lock (marshal [(1, .bytes), (2, .i32)] (Fields.ofList [.bs (ascii s), .num v])) =
      .ok (.lock s v none) := by
  obtain ⟨m', h1, h2, h3⟩ := unmarshalLoop_marshal (parsePayload T) MsgType.lock.schema (MsgType.schema_wf .lock)
    (Fields.ofList [.bs (ascii s), .num v, .int (some 0)])
    (fun e he hw old => parsePayload_payload T hw (by
      simp only [MsgType.schema, List.mem_cons, List.not_mem_nil, or_false] at he
      rcases he with rfl | rfl | rfl
      · trivial
      · trivial
      · show Int.natAbs 0 < 2 ^ 256; decide) old)
    [(1, .bytes), (2, .i32)] (by decide) (by decide)
    (by
      intro e he
      simp only [List.mem_cons, List.not_mem_nil, or_false] at he
      rcases he with rfl | rfl <;> trivial) []
    ((marshal [(1, .bytes), (2, .i32)] (Fields.ofList [.bs (ascii s), .num v])).length + 1) MsgType.lock.schema.zero
    (by
      intro e he
      simp only [List.mem_cons, List.not_mem_nil, or_false] at he
      rcases he with rfl | rfl <;> rfl)
    (by rw [List.nil_append]; exact hlen) (Nat.lt_succ_self _)
  have e : unmarshal T MsgType.lock.schema (marshal [(1, .bytes), (2, .i32)] (Fields.ofList [.bs (ascii s), .num v])) =
      .ok m' := h1
  unfold decodeMsg
  rw [e]
  simp only [PRes.ok_bind]
  rw [MsgType.toMsg, show m' 1 = .bs (ascii s) from h2 (1, .bytes) (by simp),
    show m' 2 = .num v from (h2 (2, .i32) (by simp)).trans (Kind.Fits.readAs (k := .i32) (v := .num v) hv),
    show m' 3 = .int none from h3 3 (by decide)]
  show PRes.ok (Msg.lock (str (ascii s)) v none) = _
  rw [str_ascii hs]

/-- C75, what happens outside the range: the chain id of a transfer is a 32-bit number on the wire; whatever its
upper half, the handler receives the lower 16 bits and no error is reported. -/
theorem C75_chain_truncated (T : IntText) (s : String) (a : Int) (n : Nat) (token recipient : Bytes)
    (hs : Latin s) (ha : a.natAbs < 2 ^ 256) (hn : n < 2 ^ 32)
    (hlen : (encodeFields .transfer [.bs (ascii s), .int (some a), .num n, .bs token, .bs recipient]).length < 2 ^ 63) :
    decodeMsg T .transfer (encodeFields .transfer [.bs (ascii s), .int (some a), .num n, .bs token, .bs recipient]) =
      .ok (.transfer s (some a) (n % 65536) token recipient) := by
  obtain ⟨m, e, h2⟩ := unmarshal_marshal_readAs T (MsgType.schema_wf .transfer)
    (v := Fields.ofList [.bs (ascii s), .int (some a), .num n, .bs token, .bs recipient])
    (by
      intro e he
      simp only [MsgType.schema, List.mem_cons, List.not_mem_nil, or_false] at he
      rcases he with rfl | rfl | rfl | rfl | rfl
      · trivial
      · exact ha
      · trivial
      · trivial
      · trivial) hlen
  unfold decodeMsg encodeFields
  rw [e]
  simp only [PRes.ok_bind]
  rw [MsgType.toMsg, show m 1 = .bs (ascii s) from h2 (1, .bytes) (by simp [MsgType.schema]),
    show m 2 = .int (some a) from h2 (2, .int) (by simp [MsgType.schema]),
    show m 3 = .num (Kind.u16.conv (toUint64 n)) from h2 (3, .u16) (by simp [MsgType.schema]),
    show m 4 = .bs token from h2 (4, .bytes) (by simp [MsgType.schema]),
    show m 5 = .bs recipient from h2 (5, .bytes) (by simp [MsgType.schema])]
  show PRes.ok (Msg.transfer (str (ascii s)) (some a) (((toUint64 n % 2 ^ 16 : Nat) : Int)).toNat token recipient) = _
  rw [str_ascii hs]
  have : toUint64 (n : Int) = n := by unfold toUint64; omega
  rw [this, Int.toNat_natCast]

/-- C75: so two transfers that name different chains can be the same to the handler: 65538 is taken for 2. -/
theorem C75_chain_collision : ∃ (l l' : List FVal) (m : Msg), l ≠ l' ∧
    decodeMsg decimal .transfer (encodeFields .transfer l) = .ok m ∧
    decodeMsg decimal .transfer (encodeFields .transfer l') = .ok m ∧
    encodeFields .transfer l ≠ encodeFields .transfer l' :=
  ⟨[.bs [97], .int (some 5), .num 65538, .bs [1], .bs [2]], [.bs [97], .int (some 5), .num 2, .bs [1], .bs [2]],
    .transfer "a" (some 5) 2 [1] [2], by decide, by decide +kernel, by decide +kernel, by decide +kernel⟩

/-! Examples. -/

example : decodeMsg decimal .transfer (encodeFields .transfer
    [.bs (ascii "noble1user"), .int (some 1000000), .num 2, .bs [1, 2], .bs [3]]) =
      .ok (.transfer "noble1user" (some 1000000) 2 [1, 2] [3]) :=
  C75_roundtrip decimal "" (.transfer "noble1user" (some 1000000) 2 [1, 2] [3]) .transfer _ rfl
    ⟨by decide, by decide, by decide⟩ (by decide +kernel)

example : decodeMsg decimal .unlock (encodeFields .unlock [.bs (ascii "noble1user"), .num 2, .int (some 77)]) =
      .ok (.unlock "noble1user" 2 (some 77)) :=
  C75_roundtrip decimal "" (.unlock "noble1user" 2 (some 77)) .unlock _ rfl ⟨by decide, by decide, by decide⟩ (by decide +kernel)

example : decodeMsg decimal .lock [] = .ok (.lock "" 0 none) := by decide +kernel

end Dollar
