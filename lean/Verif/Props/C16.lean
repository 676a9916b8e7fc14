import Verif.Lemmas.Codec

/-
C16: manager messages survive encoding and parsing; the parser accepts nothing else.
-/
namespace Dollar

/-- The wire format: 32-byte id, 32-byte sender, 2-byte big-endian length, payload. -/
theorem C16_wire_format (m : ManagerMessage Bytes) (hi : m.id.length = 32) (hs : m.sender.length = 32) :
    (encodeManager m).take 32 = m.id ∧ ((encodeManager m).drop 32).take 32 = m.sender ∧
      beNat (((encodeManager m).drop 64).take 2) = m.payload.length % 65536 ∧
      (encodeManager m).drop 66 = m.payload := by
  unfold encodeManager
  refine ⟨?_, ?_, ?_, ?_⟩
  · rw [List.append_assoc, List.append_assoc, ← hi, List.take_left]
  · rw [List.append_assoc, List.append_assoc, ← hi, List.drop_left, hi, ← hs, List.take_left]
  · rw [List.append_assoc, show 64 = (m.id ++ m.sender).length by simp [hi, hs], List.drop_left]
    rw [List.take_left' (toBE_length 2 _), beNat_toBE_mod]
  · rw [show 66 = (m.id ++ m.sender ++ toBE 2 m.payload.length).length by simp [hi, hs], List.drop_left]

/-- Parsing an encoded message returns the same fields, whatever lies behind the slice. -/
theorem C16_round_trip (m : ManagerMessage Bytes) (tail : Bytes) (hi : m.id.length = 32)
    (hs : m.sender.length = 32) (hp : m.payload.length < 65536) :
    ∃ r, parseManager (Sl.ofBytes (encodeManager m) tail) = .ok r ∧ r.bytes = m := by
  have hlen : (encodeManager m).length = 66 + m.payload.length := by
    unfold encodeManager; simp [hi, hs]; omega
  have harr : (Sl.ofBytes (encodeManager m) tail).arr = encodeManager m ++ tail := rfl
  have hl : (Sl.ofBytes (encodeManager m) tail).len = 66 + m.payload.length := hlen
  have hal : (encodeManager m ++ tail).length = 66 + m.payload.length + tail.length := by
    rw [List.length_append, hlen]
  have e1 : ((encodeManager m ++ tail).drop 0).take 32 = m.id := by
    rw [List.drop_zero, List.take_append_of_le_length (by omega)]
    exact (C16_wire_format m hi hs).1
  have e2 : ((encodeManager m ++ tail).drop 32).take 32 = m.sender := by
    rw [List.drop_append_of_le_length (by omega), List.take_append_of_le_length (by
      rw [List.length_drop]; omega)]
    exact (C16_wire_format m hi hs).2.1
  have e3 : beNat (((encodeManager m ++ tail).drop 64).take 2) = m.payload.length := by
    rw [List.drop_append_of_le_length (by omega), List.take_append_of_le_length (by
      rw [List.length_drop]; omega)]
    rw [(C16_wire_format m hi hs).2.2.1]; omega
  have e4 : ((encodeManager m ++ tail).drop 66).take m.payload.length = m.payload := by
    rw [List.drop_append_of_le_length (by omega), (C16_wire_format m hi hs).2.2.2, List.take_left]
  refine ⟨⟨⟨(encodeManager m ++ tail).drop 0, 32⟩, ⟨(encodeManager m ++ tail).drop 32, 32⟩,
    ⟨(encodeManager m ++ tail).drop 66, m.payload.length⟩⟩, ?_, ?_⟩
  · unfold parseManager
    rw [if_neg (by omega)]
    rw [Sl.slice_eq (by omega) (by rw [harr]; omega), Sl.slice_eq (by omega) (by rw [harr]; omega),
      Sl.slice_eq (by omega) (by rw [harr]; omega), Sl.sliceFrom_eq (by omega)]
    simp only [PRes.ofSlice_some, PRes.ok_bind, harr, hl]
    have : 66 + m.payload.length - 66 = m.payload.length := by omega
    rw [this, if_neg]
    intro hn
    exact hn e3.symm
  · unfold ManagerMessage.bytes Sl.bytes
    simp only
    rw [e1, e2, e4]

/-- Whatever the parser accepts is exactly the encoding of the parsed fields. -/
theorem C16_accepts_only_encodings (bz : Sl) (hw : bz.WF) (r : ManagerMessage Sl)
    (h : parseManager bz = .ok r) :
    bz.bytes = encodeManager r.bytes ∧ r.bytes.id.length = 32 ∧ r.bytes.sender.length = 32 ∧
      r.bytes.payload.length < 65536 := by
  unfold parseManager at h
  split at h
  · cases h
  next hlen =>
  simp only [PRes.bind_ok, PRes.ofSlice_ok] at h
  obtain ⟨i, h1, se, h2, l, h3, p, h4, h⟩ := h
  obtain ⟨_, h1b, rfl⟩ := Sl.slice_some h1
  obtain ⟨_, h2b, rfl⟩ := Sl.slice_some h2
  obtain ⟨_, h3b, rfl⟩ := Sl.slice_some h3
  rw [Sl.sliceFrom_eq (by omega)] at h4
  cases h4
  split at h
  · cases h
  next hl =>
  cases h
  have hw' : bz.len ≤ bz.arr.length := hw
  have hpl : bz.len - 66 = beNat (cut bz.arr 64 66) := by
    simpa [Sl.bytes, cut] using hl
  have hl2 : (cut bz.arr 64 66).length = 2 := by rw [cut_length _ h3b]
  have hbound := beNat_lt (cut bz.arr 64 66)
  rw [hl2] at hbound
  have hlp : ((bz.arr.drop 66).take (bz.len - 66)).length = bz.len - 66 := by
    rw [List.length_take, List.length_drop]; omega
  refine ⟨?_, ?_, ?_, ?_⟩
  · show bz.arr.take bz.len = cut bz.arr 0 32 ++ cut bz.arr 32 64 ++
      toBE 2 (cut bz.arr 66 bz.len).length ++ cut bz.arr 66 bz.len
    have hlp' : (cut bz.arr 66 bz.len).length = bz.len - 66 := hlp
    rw [hlp', hpl, toBE_beNat_two hl2]
    rw [take_take_drop bz.arr 66 bz.len (by omega), take_take_drop bz.arr 64 66 (by omega),
      take_take_drop bz.arr 32 64 (by omega), take_take_drop bz.arr 0 32 (by omega)]
    simp
  · exact cut_length (a := 0) (b := 32) bz.arr h1b
  · exact cut_length (a := 32) (b := 64) bz.arr h2b
  · show ((bz.arr.drop 66).take (bz.len - 66)).length < 65536
    rw [hlp, hpl]
    exact hbound

/-- Two different messages never have the same encoding. -/
theorem C16_encoding_injective (m n : ManagerMessage Bytes) (h : encodeManager m = encodeManager n)
    (hm : m.id.length = 32 ∧ m.sender.length = 32) (hn : n.id.length = 32 ∧ n.sender.length = 32) :
    m = n := by
  have a := C16_wire_format m hm.1 hm.2
  have b := C16_wire_format n hn.1 hn.2
  rw [h] at a
  cases m; cases n
  simp only [ManagerMessage.mk.injEq]
  exact ⟨a.1.symm.trans b.1, a.2.1.symm.trans b.2.1, a.2.2.2.symm.trans b.2.2.2⟩

/-- The parser never panics. -/
theorem C16_no_panic (bz : Sl) (hw : bz.WF) : parseManager bz ≠ .panic := by
  intro h
  unfold parseManager at h
  have hw' : bz.len ≤ bz.arr.length := hw
  split at h
  · cases h
  next hlen =>
  rw [Sl.slice_eq (by omega) (by omega), Sl.slice_eq (by omega) (by omega),
    Sl.slice_eq (by omega) (by omega), Sl.sliceFrom_eq (by omega)] at h
  simp only [PRes.ofSlice_some, PRes.ok_bind] at h
  split at h <;> cases h

-- A concrete message, and inputs that are refused.
example : ((List.replicate 32 (1 : UInt8)).length = 32 ∧ ([7, 8, 9] : Bytes).length < 65536) ∧
    parseManager (Sl.ofBytes (encodeManager ⟨List.replicate 32 1, List.replicate 32 2, [7, 8, 9]⟩) [5]) ≠ .err ∧
    parseManager (Sl.ofBytes (List.replicate 65 0) []) = .err ∧
    parseManager (Sl.ofBytes (encodeManager ⟨List.replicate 32 1, List.replicate 32 2, [7]⟩ ++ [3]) []) = .err := by
  decide

end Dollar
