import Verif.Lemmas.Codec

/-
C18: native token transfers, additional payloads and index payloads survive encoding and parsing.
-/
namespace Dollar

/-- Field sizes of a native token transfer that can be encoded. -/
structure NativeTokenTransfer.Sized (t : NativeTokenTransfer Bytes) : Prop where
  amount : t.amount < 2 ^ 64
  source : t.sourceToken.length = 32
  recipient : t.recipient.length = 32
  chain : t.toChain < 2 ^ 16
  additional : t.additional.length < 65536

/-- The fixed part of an encoded transfer. -/
def nttHead (t : NativeTokenTransfer Bytes) : Bytes :=
  nttPrefix ++ [6] ++ toBE 8 t.amount ++ t.sourceToken ++ t.recipient ++ toBE 2 t.toChain

theorem nttHead_length {t : NativeTokenTransfer Bytes} (h : t.Sized) : (nttHead t).length = 79 := by
  unfold nttHead nttPrefix
  simp [h.source, h.recipient]

/-- Every encoding of a transfer is accepted and read back, whatever the decimals byte says, and an empty additional
payload may be left out or be given with its length. -/
theorem C18_ntt_complete (t : NativeTokenTransfer Bytes) (h : t.Sized) (d : UInt8) (present : Bool)
    (hpr : present = false → t.additional = []) (tail : Bytes) :
    ∃ r, parseNtt (Sl.ofBytes (nttPrefix ++ [d] ++ toBE 8 t.amount ++ t.sourceToken ++ t.recipient ++
        toBE 2 t.toChain ++ (if present then toBE 2 t.additional.length ++ t.additional else [])) tail) = .ok r ∧
      r.bytes = t := by
  have hp : nttPrefix.length = 4 := rfl
  obtain ⟨hd, ehd⟩ : ∃ x, x = nttPrefix ++ [d] ++ toBE 8 t.amount ++ t.sourceToken ++ t.recipient ++
    toBE 2 t.toChain := ⟨_, rfl⟩
  have hh : hd.length = 79 := by rw [ehd]; unfold nttPrefix; simp [h.source, h.recipient]
  rw [← ehd]
  generalize hadd : (if present then toBE 2 t.additional.length ++ t.additional else []) = add
  have harr : (Sl.ofBytes (hd ++ add) tail).arr = hd ++ (add ++ tail) := by
    show (hd ++ add) ++ tail = _
    rw [List.append_assoc]
  have hlen : (Sl.ofBytes (hd ++ add) tail).len = 79 + add.length := by
    show (hd ++ add).length = _
    rw [List.length_append, hh]
  generalize Sl.ofBytes (hd ++ add) tail = bz at harr hlen
  have harr2 := harr
  rw [ehd] at harr2
  obtain ⟨p, gp, bp⟩ := Sl.slice_mid (s := bz) (x := []) (y := nttPrefix) (a := 0) (b := 4)
    (by rw [harr2]; simp only [List.append_assoc, List.nil_append]; rfl) rfl rfl
  obtain ⟨am, ga, ba⟩ := Sl.slice_mid (s := bz) (x := nttPrefix ++ [d]) (y := toBE 8 t.amount)
    (a := 5) (b := 13) (by rw [harr2]; simp only [List.append_assoc]; rfl) rfl (by simp)
  obtain ⟨so, gs, bs⟩ := Sl.slice_mid (s := bz) (x := nttPrefix ++ [d] ++ toBE 8 t.amount)
    (y := t.sourceToken) (a := 13) (b := 45)
    (by rw [harr2]; simp only [List.append_assoc]; rfl) (by simp [hp]) (by rw [h.source])
  obtain ⟨re, gr, br⟩ := Sl.slice_mid (s := bz)
    (x := nttPrefix ++ [d] ++ toBE 8 t.amount ++ t.sourceToken)
    (y := t.recipient) (a := 45) (b := 77)
    (by rw [harr2]; simp only [List.append_assoc]; rfl) (by simp [hp, h.source]) (by rw [h.recipient])
  obtain ⟨ch, gc, bc⟩ := Sl.slice_mid (s := bz)
    (x := nttPrefix ++ [d] ++ toBE 8 t.amount ++ t.sourceToken ++ t.recipient)
    (y := toBE 2 t.toChain) (z := add ++ tail) (a := 77) (b := 79)
    (by rw [harr2]) (by simp [hp, h.source, h.recipient]) (by simp)
  have e1 : beNat (toBE 8 t.amount) = t.amount := beNat_toBE 8 _ h.amount
  have e2 : beNat (toBE 2 t.toChain) = t.toChain := beNat_toBE 2 _ h.chain
  have hadd' : ∃ r, parseAdditionalOf bz = .ok r ∧ r.bytes = t.additional := by
    unfold parseAdditionalOf
    cases present with
    | true =>
      rw [if_pos rfl] at hadd
      subst hadd
      have hl2 : bz.len = 81 + t.additional.length := by
        rw [hlen]; simp; omega
      rw [if_pos (by omega), if_neg (by omega)]
      obtain ⟨l, gl, bl⟩ := Sl.slice_mid (s := bz) (x := hd) (y := toBE 2 t.additional.length)
        (a := 79) (b := 81) (by rw [harr]; simp only [List.append_assoc]; rfl) hh (by simp)
      rw [gl, Sl.sliceFrom_eq (by omega)]
      simp only [PRes.ofSlice_some, PRes.ok_bind]
      have e3 : beNat (toBE 2 t.additional.length) = t.additional.length :=
        beNat_toBE 2 _ h.additional
      rw [if_neg (by rw [bl, e3]; simp only [ne_eq, Decidable.not_not]; omega)]
      refine ⟨_, rfl, ?_⟩
      show (bz.arr.drop 81).take (bz.len - 81) = _
      rw [hl2, harr]
      have hx : (hd ++ toBE 2 t.additional.length).length = 81 := by simp [hh]
      rw [← List.append_assoc, ← List.append_assoc, List.append_assoc, List.drop_left' hx,
        Nat.add_sub_cancel_left, List.take_left]
    | false =>
      have hn := hpr rfl
      rw [if_neg (by simp)] at hadd
      subst hadd
      rw [if_neg (by rw [hlen]; simp)]
      exact ⟨_, rfl, hn.symm⟩
  obtain ⟨ad, gad, bad⟩ := hadd'
  refine ⟨⟨t.amount, so, re, t.toChain, ad⟩, ?_, ?_⟩
  · unfold parseNtt
    rw [if_neg (by omega), gp]
    simp only [PRes.ofSlice_some, PRes.ok_bind]
    rw [if_neg (by rw [bp]; simp), ga, gs, gr, gc, gad]
    simp only [PRes.ofSlice_some, PRes.ok_bind, ba, bc, e1, e2]
  · unfold NativeTokenTransfer.bytes
    simp only [bs, br, bad]

/-- Parsing an encoded transfer returns the same fields for every capacity of the slice. -/
theorem C18_ntt_round_trip (t : NativeTokenTransfer Bytes) (h : t.Sized) (tail : Bytes) :
    ∃ r, parseNtt (Sl.ofBytes (encodeNtt t) tail) = .ok r ∧ r.bytes = t := by
  have e := C18_ntt_complete t h 6 (decide (0 < t.additional.length))
    (fun hn => List.eq_nil_of_length_eq_zero (by simpa using hn)) tail
  simpa only [decide_eq_true_eq, encodeNtt] using e

/-- The transfer parser never panics. -/
theorem C18_ntt_no_panic (bz : Sl) (hw : bz.WF) : parseNtt bz ≠ .panic := by
  intro h
  have hw' : bz.len ≤ bz.arr.length := hw
  unfold parseNtt at h
  split at h
  · cases h
  rw [Sl.slice_eq (by omega) (by omega)] at h
  simp only [PRes.ofSlice_some, PRes.ok_bind] at h
  split at h
  · cases h
  rw [Sl.slice_eq (by omega) (by omega), Sl.slice_eq (by omega) (by omega),
    Sl.slice_eq (by omega) (by omega), Sl.slice_eq (by omega) (by omega)] at h
  simp only [PRes.ofSlice_some, PRes.ok_bind, PRes.bind_panic] at h
  rcases h with h | ⟨_, _, h⟩
  · unfold parseAdditionalOf at h
    split at h
    · split at h
      · cases h
      rw [Sl.slice_eq (by omega) (by omega), Sl.sliceFrom_eq (by omega)] at h
      simp only [PRes.ofSlice_some, PRes.ok_bind] at h
      split at h <;> cases h
    · cases h
  · cases h

/-- An accepted transfer starts with the magic bytes; the decimals byte is ignored; the remaining
bytes are the big-endian amount, source token, recipient, chain and the additional payload,
preceded by its length unless it is absent. -/
theorem C18_ntt_accepts (bz : Sl) (hw : bz.WF) (r : NativeTokenTransfer Sl) (h : parseNtt bz = .ok r) :
    r.bytes.Sized ∧ ∃ d : UInt8, bz.bytes = nttPrefix ++ [d] ++ toBE 8 r.amount ++ r.sourceToken.bytes ++
      r.recipient.bytes ++ toBE 2 r.toChain ++
      (if 79 < bz.len then toBE 2 r.additional.bytes.length ++ r.additional.bytes else []) := by
  have hw' : bz.len ≤ bz.arr.length := hw
  unfold parseNtt at h
  split at h
  · cases h
  next hlen =>
  simp only [PRes.bind_ok, PRes.ofSlice_ok] at h
  obtain ⟨p, hp, h⟩ := h
  split at h
  · cases h
  next hpre =>
  simp only [PRes.bind_ok, PRes.ofSlice_ok] at h
  obtain ⟨a, ha, so, hs, re, hr, ch, hc, ad, had, h⟩ := h
  cases h
  have hpre : p.bytes = nttPrefix := by simpa using hpre
  have ep := Sl.slice_bytes hp
  have ea := Sl.slice_bytes ha
  have es := Sl.slice_bytes hs
  have er := Sl.slice_bytes hr
  have ec := Sl.slice_bytes hc
  have na : a.bytes.length = 8 := by rw [ea, cut_length _ (by omega)]
  have nc : ch.bytes.length = 2 := by rw [ec, cut_length _ (by omega)]
  have ns : so.bytes.length = 32 := by rw [es, cut_length _ (by omega)]
  have nr : re.bytes.length = 32 := by rw [er, cut_length _ (by omega)]
  have ba := beNat_lt a.bytes
  have bc := beNat_lt ch.bytes
  rw [na] at ba
  rw [nc] at bc
  have hd : ∃ d : UInt8, cut bz.arr 4 5 = [d] := by
    have : (cut bz.arr 4 5).length = 1 := cut_length _ (by omega)
    match cut bz.arr 4 5, this with
    | [d], _ => exact ⟨d, rfl⟩
  obtain ⟨d, hd⟩ := hd
  have hadd : ad.bytes.length < 65536 ∧
      cut bz.arr 79 bz.len = (if 79 < bz.len then toBE 2 ad.bytes.length ++ ad.bytes else []) := by
    unfold parseAdditionalOf at had
    split at had
    · next h79 =>
      split at had
      · cases had
      next h81 =>
      rw [Sl.slice_eq (by omega) (by omega), Sl.sliceFrom_eq (by omega)] at had
      simp only [PRes.ofSlice_some, PRes.ok_bind] at had
      split at had
      · cases had
      next hl =>
      cases had
      have hl : bz.len - 81 = beNat (cut bz.arr 79 81) := by simpa [Sl.bytes, cut] using hl
      have n2 : (cut bz.arr 79 81).length = 2 := cut_length _ (by omega)
      have n3 := beNat_lt (cut bz.arr 79 81)
      rw [n2] at n3
      have nb : (cut bz.arr 81 bz.len).length = bz.len - 81 := cut_length _ (by omega)
      have eb : (⟨bz.arr.drop 81, bz.len - 81⟩ : Sl).bytes = cut bz.arr 81 bz.len := rfl
      rw [eb, nb, hl, if_pos h79, toBE_beNat_two n2]
      refine ⟨n3, ?_⟩
      have t1 := take_take_drop bz.arr 79 bz.len (by omega)
      have t2 := take_take_drop bz.arr 81 bz.len (by omega)
      have t3 := take_take_drop bz.arr 79 81 (by omega)
      rw [t1, t3, List.append_assoc] at t2
      exact List.append_cancel_left t2
    · next h79 =>
      cases had
      rw [if_neg h79]
      refine ⟨by decide, ?_⟩
      unfold cut
      rw [show bz.len - 79 = 0 by omega, List.take_zero]
  refine ⟨⟨ba, ns, nr, bc, hadd.1⟩, d, ?_⟩
  show bz.arr.take bz.len = _
  have t := take_take_drop bz.arr
  rw [t 79 bz.len (by omega), t 77 79 (by omega), t 45 77 (by omega), t 13 45 (by omega),
    t 5 13 (by omega), t 4 5 (by omega), t 0 4 (by omega)]
  have e8 : toBE 8 (beNat a.bytes) = a.bytes := by rw [← na]; exact toBE_beNat _
  rw [List.take_zero, List.nil_append, ← ep, hpre, hd, ← ea, ← es, ← er, ← ec, hadd.2]
  simp only
  rw [e8, toBE_beNat_two nc]

/-- The additional payload of a transfer: any 64-bit index and any 32-byte token come back. -/
theorem C18_additional_round_trip (i : Int) (token tail : Bytes) (h1 : -2 ^ 63 ≤ i) (h2 : i < 2 ^ 63)
    (ht : token.length = 32) :
    decodeAdditional (Sl.ofBytes (encodeAdditional i token) tail) = .ok (i, token) := by
  have harr : (Sl.ofBytes (encodeAdditional i token) tail).arr = toBE 8 (toUint64 i) ++ token ++ tail := rfl
  have hlen : (Sl.ofBytes (encodeAdditional i token) tail).len = 40 := by
    show (toBE 8 (toUint64 i) ++ token).length = 40
    simp [ht]
  generalize Sl.ofBytes (encodeAdditional i token) tail = bz at harr hlen
  obtain ⟨a, ga, ba⟩ := Sl.slice_mid (s := bz) (x := []) (y := toBE 8 (toUint64 i)) (a := 0) (b := 8)
    (by rw [harr, List.append_assoc, List.nil_append]) rfl (by simp)
  obtain ⟨b, gb, bb⟩ := Sl.slice_mid (s := bz) (x := toBE 8 (toUint64 i)) (y := token) (a := 8) (b := 40)
    harr (by simp) (by omega)
  unfold decodeAdditional
  rw [if_neg (by omega), ga, gb]
  simp only [PRes.ofSlice_some, PRes.ok_bind, ba, bb]
  rw [beNat_toBE 8 _ (toUint64_lt i), toInt64_toUint64 i h1 h2]

/-- The additional-payload decoder never panics. -/
theorem C18_additional_no_panic (bz : Sl) (hw : bz.WF) : decodeAdditional bz ≠ .panic := by
  intro h
  have hw' : bz.len ≤ bz.arr.length := hw
  unfold decodeAdditional at h
  split at h
  · cases h
  rw [Sl.slice_eq (by omega) (by omega), Sl.slice_eq (by omega) (by omega)] at h
  cases h

/-- An index payload: any 64-bit index and 16-bit chain come back. -/
theorem C18_index_round_trip (i : Int) (chain : Nat) (tail : Bytes) (h1 : -2 ^ 63 ≤ i) (h2 : i < 2 ^ 63)
    (hc : chain < 2 ^ 16) : decodeIndex (Sl.ofBytes (encodeIndex i chain) tail) = .ok (i, chain) := by
  have harr : (Sl.ofBytes (encodeIndex i chain) tail).arr =
    indexPrefix ++ toBE 8 (toUint64 i) ++ toBE 2 chain ++ tail := rfl
  generalize Sl.ofBytes (encodeIndex i chain) tail = bz at harr
  obtain ⟨a, ga, ba⟩ := Sl.slice_mid (s := bz) (x := indexPrefix) (y := toBE 8 (toUint64 i)) (a := 4) (b := 12)
    (by rw [harr]; simp only [List.append_assoc]; rfl) rfl (by simp)
  obtain ⟨b, gb, bb⟩ := Sl.slice_mid (s := bz) (x := indexPrefix ++ toBE 8 (toUint64 i)) (y := toBE 2 chain)
    (a := 12) (b := 14) harr (by simp [indexPrefix]) (by simp)
  unfold decodeIndex
  rw [ga, gb]
  simp only [PRes.ofSlice_some, PRes.ok_bind, ba, bb]
  rw [beNat_toBE 8 _ (toUint64_lt i), toInt64_toUint64 i h1 h2, beNat_toBE 2 _ hc]

/-- The payload type is recognised from the encoding. -/
theorem C18_payload_type (t : NativeTokenTransfer Bytes) (i : Int) (chain : Nat) (tail : Bytes) :
    payloadType (Sl.ofBytes (encodeNtt t) tail) = .ok .token ∧
      payloadType (Sl.ofBytes (encodeIndex i chain) tail) = .ok .index := by
  have key : ∀ (p rest : Bytes), p.length = 4 → payloadType (Sl.ofBytes (p ++ rest) tail) =
      if p = nttPrefix then .ok .token else if p = indexPrefix then .ok .index else .ok .unknown := by
    intro p rest hp
    obtain ⟨r, g, b⟩ := Sl.slice_mid (s := Sl.ofBytes (p ++ rest) tail) (x := []) (y := p) (a := 0) (b := 4)
      (z := rest ++ tail) (by show p ++ rest ++ tail = _; rw [List.append_assoc, List.nil_append]) rfl (by omega)
    unfold payloadType
    have hl : (Sl.ofBytes (p ++ rest) tail).len = 4 + rest.length := by
      show (p ++ rest).length = _
      rw [List.length_append, hp]
    rw [if_neg (by omega), g]
    simp only [PRes.ofSlice_some, PRes.ok_bind, b]
  constructor
  · unfold encodeNtt
    simp only [List.append_assoc]
    rw [key _ _ rfl, if_pos rfl]
  · unfold encodeIndex
    simp only [List.append_assoc]
    rw [key _ _ rfl, if_neg (by decide), if_pos rfl]

/-- The additional-payload decoder reads the first forty bytes of every payload that has them, whatever follows, and
refuses every shorter one. -/
theorem C18_additional_exact (bz : Sl) (hw : bz.WF) :
    decodeAdditional bz = if 40 ≤ bz.bytes.length
      then .ok (toInt64 (beNat (bz.bytes.take 8)), (bz.bytes.drop 8).take 32) else .err := by
  have hw' : bz.len ≤ bz.arr.length := hw
  have hl : bz.bytes.length = bz.len := by simp [Sl.bytes, hw']
  unfold decodeAdditional
  rw [hl]
  by_cases h : bz.len < 40
  · rw [if_pos h, if_neg (by omega)]
  · rw [if_neg h, if_pos (by omega), Sl.slice_eq (by omega) (by omega), Sl.slice_eq (by omega) (by omega)]
    simp only [PRes.ofSlice_some, PRes.ok_bind]
    have e1 : (bz.bytes.take 8) = (⟨bz.arr.drop 0, 8 - 0⟩ : Sl).bytes := by
      simp [Sl.bytes, List.take_take]; omega
    have e2 : ((bz.bytes.drop 8).take 32) = (⟨bz.arr.drop 8, 40 - 8⟩ : Sl).bytes := by
      simp [Sl.bytes, List.drop_take, List.take_take]; omega
    rw [e1, e2]

/-- The type of every payload is decided by its first four bytes; a payload that has fewer is unknown. -/
theorem C18_payload_type_exact (bz : Sl) (hw : bz.WF) :
    payloadType bz = .ok (if bz.bytes.take 4 = [0x99, 0x4e, 0x54, 0x54] then .token
      else if bz.bytes.take 4 = [0x4d, 0x30, 0x49, 0x54] then .index else .unknown) := by
  have hw' : bz.len ≤ bz.arr.length := hw
  have hl : bz.bytes.length = bz.len := by simp [Sl.bytes, hw']
  unfold payloadType
  by_cases h : bz.len < 4
  · have hn : (bz.bytes.take 4).length ≠ 4 := by rw [List.length_take]; omega
    rw [if_pos h, if_neg (fun e => hn (by rw [e]; rfl)), if_neg (fun e => hn (by rw [e]; rfl))]
  · rw [if_neg h, Sl.slice_eq (by omega) (by omega)]
    simp only [PRes.ofSlice_some, PRes.ok_bind]
    have e1 : (⟨bz.arr.drop 0, 4 - 0⟩ : Sl).bytes = bz.bytes.take 4 := by
      simp [Sl.bytes, List.take_take]; omega
    rw [e1]
    unfold nttPrefix indexPrefix
    split
    · rfl
    · split <;> rfl

-- Concrete values: a negative index, the largest amount, and a refused short transfer.
example : (⟨2 ^ 64 - 1, List.replicate 32 1, List.replicate 32 2, 65535, [9]⟩ :
    NativeTokenTransfer Bytes).Sized ∧
    parseNtt (Sl.ofBytes (List.replicate 78 0) [1, 2, 3]) = .err ∧
    decodeAdditional (Sl.ofBytes (encodeAdditional (-5) (List.replicate 32 7)) []) =
      .ok (-5, List.replicate 32 7) ∧
    decodeIndex (Sl.ofBytes (encodeIndex 1100000000000 4009) []) = .ok (1100000000000, 4009) := by
  refine ⟨⟨by decide, rfl, rfl, by decide, by decide⟩, by decide, ?_, ?_⟩
  · exact C18_additional_round_trip _ _ _ (by decide) (by decide) rfl
  · exact C18_index_round_trip _ _ _ (by decide) (by decide) (by decide)

end Dollar
