import Verif.Lemmas.Codec

/-
C17: transceiver messages survive encoding and parsing, whatever lies behind the slice.
-/
namespace Dollar

/-- Field sizes of a transceiver message that can be encoded. -/
structure TransceiverMessage.Sized (m : TransceiverMessage Bytes) : Prop where
  source : m.sourceManager.length = 32
  recipient : m.recipientManager.length = 32
  manager : m.managerPayload.length < 65536
  transceiver : m.transceiverPayload.length < 65536

/-- A slice whose backing array starts with an encoded message is parsed to that message: the
bytes after the message, inside or outside the slice, do not matter. -/
theorem C17_prefix_parses (bz : Sl) (m : TransceiverMessage Bytes) (hm : m.Sized) (rest : Bytes)
    (h : bz.arr = encodeTransceiver m ++ rest) : ∃ r, parseTransceiver bz = .ok r ∧ r.bytes = m := by
  obtain ⟨h1, h2, h3, h4⟩ := hm
  have e3 : beNat (toBE 2 m.managerPayload.length) = m.managerPayload.length :=
    beNat_toBE 2 _ h3
  have e4 : beNat (toBE 2 m.transceiverPayload.length) = m.transceiverPayload.length :=
    beNat_toBE 2 _ h4
  unfold encodeTransceiver at h
  have hp : transceiverPrefix.length = 4 := rfl
  obtain ⟨p, gp, bp⟩ := Sl.slice_mid (s := bz) (x := []) (y := transceiverPrefix) (a := 0) (b := 4)
    (by rw [h]; simp only [List.append_assoc, List.nil_append]; rfl) rfl rfl
  obtain ⟨sm, gs, bs⟩ := Sl.slice_mid (s := bz) (x := transceiverPrefix) (y := m.sourceManager)
    (a := 4) (b := 36) (by rw [h]; simp only [List.append_assoc]; rfl) rfl (by omega)
  obtain ⟨rm, gr, br⟩ := Sl.slice_mid (s := bz) (x := transceiverPrefix ++ m.sourceManager)
    (y := m.recipientManager) (a := 36) (b := 68)
    (by rw [h]; simp only [List.append_assoc]; rfl) (by simp [hp, h1]) (by omega)
  obtain ⟨l1, g1, b1⟩ := Sl.slice_mid (s := bz)
    (x := transceiverPrefix ++ m.sourceManager ++ m.recipientManager)
    (y := toBE 2 m.managerPayload.length) (a := 68) (b := 70)
    (by rw [h]; simp only [List.append_assoc]; rfl) (by simp [hp, h1, h2]) (by simp)
  obtain ⟨mp, gm, bm⟩ := Sl.slice_mid (s := bz)
    (x := transceiverPrefix ++ m.sourceManager ++ m.recipientManager ++ toBE 2 m.managerPayload.length)
    (y := m.managerPayload) (a := 70) (b := 70 + m.managerPayload.length)
    (by rw [h]; simp only [List.append_assoc]; rfl) (by simp [hp, h1, h2]) rfl
  obtain ⟨l2, g2, b2⟩ := Sl.slice_mid (s := bz)
    (x := transceiverPrefix ++ m.sourceManager ++ m.recipientManager ++ toBE 2 m.managerPayload.length ++
      m.managerPayload)
    (y := toBE 2 m.transceiverPayload.length) (a := 70 + m.managerPayload.length)
    (b := 70 + m.managerPayload.length + 2)
    (by rw [h]; simp only [List.append_assoc]; rfl) (by simp [hp, h1, h2]; omega) (by simp)
  obtain ⟨tp, gt, bt⟩ := Sl.slice_mid (s := bz)
    (x := transceiverPrefix ++ m.sourceManager ++ m.recipientManager ++ toBE 2 m.managerPayload.length ++
      m.managerPayload ++ toBE 2 m.transceiverPayload.length)
    (y := m.transceiverPayload) (z := rest) (a := 70 + m.managerPayload.length + 2)
    (b := 70 + m.managerPayload.length + 2 + m.transceiverPayload.length)
    (by rw [h]) (by simp [hp, h1, h2]; omega) rfl
  refine ⟨⟨sm, rm, mp, tp⟩, ?_, ?_⟩
  · unfold parseTransceiver
    rw [gp]
    simp only [PRes.ofSlice_some, PRes.ok_bind]
    rw [if_neg (by rw [bp]; simp)]
    rw [gs, gr, g1]
    simp only [PRes.ofSlice_some, PRes.ok_bind, b1, e3]
    rw [gm, g2]
    simp only [PRes.ofSlice_some, PRes.ok_bind, b2, e4]
    rw [gt]
    rfl
  · unfold TransceiverMessage.bytes
    simp only [bs, br, bm, bt]

/-- Parsing an encoded message returns the same fields for every capacity of the slice. -/
theorem C17_round_trip (m : TransceiverMessage Bytes) (hm : m.Sized) (tail : Bytes) :
    ∃ r, parseTransceiver (Sl.ofBytes (encodeTransceiver m) tail) = .ok r ∧ r.bytes = m :=
  C17_prefix_parses _ m hm tail rfl

/-- Whatever is accepted starts with the encoding of the parsed fields. -/
theorem C17_accepts_only_prefix (bz : Sl) (r : TransceiverMessage Sl) (h : parseTransceiver bz = .ok r) :
    r.bytes.Sized ∧ ∃ rest, bz.arr = encodeTransceiver r.bytes ++ rest := by
  unfold parseTransceiver at h
  simp only [PRes.bind_ok, PRes.ofSlice_ok] at h
  obtain ⟨p, hp, h⟩ := h
  split at h
  · cases h
  next hpre =>
  simp only [PRes.bind_ok, PRes.ofSlice_ok] at h
  obtain ⟨a, ha, b, hb, l1, h1, mp, hm, l2, h2, tp, ht, h⟩ := h
  cases h
  have hpre : p.bytes = transceiverPrefix := by simpa using hpre
  have ep := Sl.slice_bytes hp
  have ea := Sl.slice_bytes ha
  have eb := Sl.slice_bytes hb
  have e1 := Sl.slice_bytes h1
  have em := Sl.slice_bytes hm
  have e2 := Sl.slice_bytes h2
  have et := Sl.slice_bytes ht
  have la := (Sl.slice_some ha).2.1
  have lb := (Sl.slice_some hb).2.1
  have l1' := (Sl.slice_some h1).2.1
  have lm := (Sl.slice_some hm).2.1
  have l2' := (Sl.slice_some h2).2.1
  have lt := (Sl.slice_some ht).2.1
  have n1 : l1.bytes.length = 2 := by rw [e1, cut_length _ l1']
  have n2 : l2.bytes.length = 2 := by rw [e2, cut_length _ l2']; omega
  have nm : mp.bytes.length = beNat l1.bytes := by rw [em, cut_length _ lm]; omega
  have nt : tp.bytes.length = beNat l2.bytes := by rw [et, cut_length _ lt]; omega
  have m1 := beNat_lt l1.bytes
  have m2 := beNat_lt l2.bytes
  rw [n1] at m1
  rw [n2] at m2
  refine ⟨⟨?_, ?_, ?_, ?_⟩, bz.arr.drop (70 + beNat l1.bytes + 2 + beNat l2.bytes), ?_⟩
  · show a.bytes.length = 32
    rw [ea, cut_length _ la]
  · show b.bytes.length = 32
    rw [eb, cut_length _ lb]
  · show mp.bytes.length < 65536
    rw [nm]; exact m1
  · show tp.bytes.length < 65536
    rw [nt]; exact m2
  · show bz.arr = (transceiverPrefix ++ a.bytes ++ b.bytes ++ toBE 2 mp.bytes.length ++ mp.bytes ++
      toBE 2 tp.bytes.length ++ tp.bytes) ++ _
    rw [nm, nt, toBE_beNat_two n1, toBE_beNat_two n2, ← hpre, ep, ea, eb, em, et]
    have t := take_take_drop bz.arr
    conv_lhs => rw [← List.take_append_drop (70 + beNat l1.bytes + 2 + beNat l2.bytes) bz.arr]
    rw [t (70 + beNat l1.bytes + 2) (70 + beNat l1.bytes + 2 + beNat l2.bytes) (by omega),
      t (70 + beNat l1.bytes) (70 + beNat l1.bytes + 2) (by omega),
      t 70 (70 + beNat l1.bytes) (by omega), t 68 70 (by omega), t 36 68 (by omega), t 4 36 (by omega),
      t 0 4 (by omega)]
    rw [e1, e2]
    rw [List.take_zero, List.nil_append]
    rw [e1]

/-- A message with another prefix is refused with an error. -/
theorem C17_wrong_prefix (bz : Sl) (h4 : 4 ≤ bz.arr.length) (h : bz.arr.take 4 ≠ transceiverPrefix) :
    parseTransceiver bz = .err := by
  unfold parseTransceiver
  rw [Sl.slice_eq (by omega) h4]
  simp only [PRes.ofSlice_some, PRes.ok_bind]
  rw [if_pos (by simpa [Sl.bytes] using h)]

/-- Encoding determines the message. -/
theorem C17_encoding_injective (m n : TransceiverMessage Bytes) (hm : m.Sized) (hn : n.Sized)
    (h : encodeTransceiver m = encodeTransceiver n) : m = n := by
  obtain ⟨r, h1, h2⟩ := C17_round_trip m hm []
  obtain ⟨r', h1', h2'⟩ := C17_round_trip n hn []
  rw [h, h1'] at h1
  cases h1
  rw [← h2, ← h2']

-- A concrete message with hidden capacity behind it.
example : (⟨List.replicate 32 1, List.replicate 32 2, [7, 8, 9], [4]⟩ : TransceiverMessage Bytes).Sized ∧
    (∃ r, parseTransceiver (Sl.ofBytes
      (encodeTransceiver ⟨List.replicate 32 1, List.replicate 32 2, [7, 8, 9], [4]⟩) [5, 6]) = .ok r ∧
      r.bytes.managerPayload = [7, 8, 9] ∧ r.bytes.transceiverPayload = [4]) := by
  refine ⟨⟨rfl, rfl, by decide, by decide⟩, ?_⟩
  obtain ⟨r, h1, h2⟩ := C17_round_trip ⟨List.replicate 32 1, List.replicate 32 2, [7, 8, 9], [4]⟩
    ⟨rfl, rfl, by decide, by decide⟩ [5, 6]
  exact ⟨r, h1, by rw [h2], by rw [h2]⟩

end Dollar
