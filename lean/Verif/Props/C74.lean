import Verif.Props.C73

/-
C74: arbitrary bytes never crash the decoder of a message or of a stored value, and fields of a later version
are passed over.
-/
namespace Dollar
open Proto

/-- C74: whatever bytes a transaction carries, decoding a message of any type gives a message or an error; it never
indexes outside the bytes, never loops forever, never panics.  (A Go slice is shorter than `2^63` bytes.) -/
theorem C74_messages (T : IntText) (t : MsgType) (b : Bytes) (hb : b.length < 2 ^ 63) : decodeMsg T t b ≠ .panic := by
  unfold decodeMsg
  have h := unmarshal_noPanic T t.schema b hb
  cases e : unmarshal T t.schema b with
  | ok m => rw [PRes.ok_bind]; exact fun h => nomatch h
  | err => exact fun h => nomatch h
  | panic => exact absurd e h

/-- C74: the same for the values in the store. -/
theorem C74_values (T : IntText) (b : Bytes) (hb : b.length < 2 ^ 63) :
    decReward T b ≠ .panic ∧ decPosition T b ≠ .panic ∧ decVStats T b ≠ .panic ∧ decStats T b ≠ .panic ∧
      decPeer T b ≠ .panic := by
  refine ⟨?_, ?_, ?_, ?_, ?_⟩
  · unfold decReward
    have h := unmarshal_noPanic T rewardSchema b hb
    cases e : unmarshal T rewardSchema b with
    | ok m => rw [PRes.ok_bind]; exact fun h => nomatch h
    | err => exact fun h => nomatch h
    | panic => exact absurd e h
  · unfold decPosition
    have h := unmarshal_noPanic T positionSchema b hb
    cases e : unmarshal T positionSchema b with
    | ok m => rw [PRes.ok_bind]; exact fun h => nomatch h
    | err => exact fun h => nomatch h
    | panic => exact absurd e h
  · unfold decVStats
    have h := unmarshal_noPanic T vstatsSchema b hb
    cases e : unmarshal T vstatsSchema b with
    | ok m => rw [PRes.ok_bind]; exact fun h => nomatch h
    | err => exact fun h => nomatch h
    | panic => exact absurd e h
  · unfold decStats
    have h := unmarshal_noPanic T statsSchema b hb
    cases e : unmarshal T statsSchema b with
    | ok m => rw [PRes.ok_bind]; exact fun h => nomatch h
    | err => exact fun h => nomatch h
    | panic => exact absurd e h
  · unfold decPeer
    have h := unmarshal_noPanic T peerSchema b hb
    cases e : unmarshal T peerSchema b with
    | ok m => rw [PRes.ok_bind]; exact fun h => nomatch h
    | err => exact fun h => nomatch h
    | panic => exact absurd e h

/-- C74: a value written by a version that knows more fields (`extra`, anywhere among the others) is read as if they
were absent. -/
theorem C74_unknown_fields (T : IntText) (sch more : Schema) (hs : sch.WF) (hm : more.WF)
    (hsub : ∀ e ∈ sch, e ∈ more) (hnew : ∀ e ∈ more, e ∈ sch ∨ sch.kind e.1 = none) (v : Fields)
    (hf : ∀ e ∈ more, e.2.Fits (v e.1)) (hlen : (marshal more v).length < 2 ^ 63) :
    ∃ m, unmarshal T sch (marshal more v) = .ok m ∧ ∀ e ∈ sch, m e.1 = v e.1 := by
  obtain ⟨m', h1, h2, _⟩ := unmarshalLoop_more (parsePayload T) sch hs v
    (fun e he hw old => parsePayload_payload T hw (hf e (hsub e he)).writable old) more
    (fun e he => (hnew e he).imp id fun h => ⟨h, hm.1 e he⟩) hm.2 (fun e he => (hf e he).writable) []
    ((marshal more v).length + 1) sch.zero
    (fun e _ he => by
      unfold Schema.zero
      rw [kind_of_mem hs.2 (show (e.1, e.2) ∈ sch from he)])
    (by rw [List.nil_append]; exact hlen) (by omega)
  exact ⟨m', by rw [List.nil_append] at h1; exact h1, fun e he => (h2 e (hsub e he) he).trans (hf e (hsub e he)).readAs⟩

/-- C74: bytes whose first field ends a group that was not begun, has the number 0 or comes in another form than the
field of that number has, are refused. -/
theorem C74_bad_tags (T : IntText) (sch : Schema) (n wt : Nat) (hw : wt < 8) (hn : n < 2 ^ 28) (rest : Bytes)
    (h : wt = 4 ∨ n = 0 ∨ ∃ k, sch.kind n = some k ∧ k.wire ≠ wt) :
    unmarshal T sch (tag n wt ++ rest) = .err := by
  have hpos := varint_length_pos (n * 8 + wt)
  have hr := readVarint_varint [] rest (v := n * 8 + wt) (by omega)
  have hlen : ¬ ((tag n wt ++ rest).length : Int) ≤ 0 := by
    have : 0 < (tag n wt).length := hpos
    simp only [List.length_append]; push_cast; omega
  unfold unmarshal unmarshalLoop
  rw [if_neg hlen, show readVarint (tag n wt ++ rest) 0 = _ from hr]
  simp only [PRes.ok_bind]
  have e1 : (n * 8 + wt) &&& 7 = wt := by
    rw [show (7 : Nat) = 2 ^ 3 - 1 from rfl, Nat.and_two_pow_sub_one_eq_mod]; omega
  have e2 : (n * 8 + wt) >>> 3 = n := by
    rw [Nat.shiftRight_eq_div_pow]; omega
  have e3 : toInt32 n = n := by
    unfold toInt32
    rw [if_pos (by omega)]
    congr 1; omega
  rw [e1, e2, e3]
  by_cases h4 : wt = 4
  · rw [if_pos h4]
  rw [if_neg h4]
  by_cases h0 : n = 0
  · rw [if_pos (by omega)]
  rw [if_neg (by omega)]
  obtain ⟨k, hk, hne⟩ := (h.resolve_left h4).resolve_left h0
  rw [hk]
  exact if_pos (Ne.symm hne)

example : decodeMsg decimal .claimYield [0x02, 0x01, 0x61, 0x0a, 0x01, 0x61] = .err := by decide +kernel
example : decodeMsg decimal .claimYield [0x0c] = .err := by decide +kernel
example : decodeMsg decimal .claimYield [0x08, 0x01] = .err := by decide +kernel

/-! Examples: truncated and hostile bytes are errors; a peer with a third field between the two known ones is read. -/

example : decodeMsg decimal .transfer [0x0a] = .err := by decide +kernel
example : decodeMsg decimal .transfer [0x0a, 0xff, 0xff, 0xff, 0xff, 0xff, 0xff, 0xff, 0xff, 0xff, 0x01] = .err := by
  decide +kernel
/-- A length that overflows the index when added to it. -/
example : decodeMsg decimal .transfer [0x0a, 0xff, 0xff, 0xff, 0xff, 0xff, 0xff, 0xff, 0xff, 0x7f] = .err := by
  decide +kernel
/-- Nested groups that are never closed. -/
example : decodeMsg decimal .transfer [0x33, 0x33, 0x33] = .err := by decide +kernel
/-- An unknown group is passed over. -/
example : decodeMsg decimal .claimYield [0x33, 0x08, 0x01, 0x34, 0x0a, 0x01, 0x61] = .ok (.claimYield "a") := by
  decide +kernel

example : ∃ m, unmarshal decimal peerSchema
    (marshal [(1, .bytes), (7, .int), (2, .bytes)] fun n => if n = 1 then .bs [1] else if n = 7 then .int (some 9) else .bs [2, 3])
      = .ok m ∧ ∀ e ∈ peerSchema, m e.1 = (if e.1 = 1 then .bs [1] else if e.1 = 7 then .int (some 9) else .bs [2, 3]) :=
  C74_unknown_fields decimal peerSchema _ peerSchema_wf (by unfold Schema.WF; decide) (by decide) (by decide) _
    (by
      intro e he
      simp only [List.mem_cons, List.not_mem_nil, or_false] at he
      rcases he with rfl | rfl | rfl
      · trivial
      · show Int.natAbs 9 < 2 ^ 256; decide
      · trivial)
    (by decide +kernel)

end Dollar
