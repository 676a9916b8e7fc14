import Verif.Model.Proto2
import Verif.Lemmas.Proto

/-
Lemmas about the protobuf code of messages with slices and maps (Model/Proto2).
-/
namespace Dollar.Proto

/-! ### Reading never panics -/

theorem readLen_spec (b : Bytes) (hb : b.length < 2 ^ 63) (j : Int) (h0 : 0 ≤ j) :
    readLen b j = .err ∨ ∃ s t, readLen b j = .ok (s, t) ∧ j < s ∧ s ≤ t ∧ t ≤ b.length := by
  unfold readLen
  rcases readVarint_spec b j h0 with h | ⟨n, j', h, h2, h3, h4⟩
  · rw [h]; exact .inl rfl
  rw [h]
  simp only [PRes.ok_bind]
  by_cases hn : toInt64 n < 0
  · rw [if_pos hn]; exact .inl rfl
  rw [if_neg hn]
  by_cases hw : wrap64 (j' + toInt64 n) < 0
  · rw [if_pos hw]; exact .inl rfl
  rw [if_neg hw]
  by_cases hl : (b.length : Int) < wrap64 (j' + toInt64 n)
  · rw [if_pos hl]; exact .inl rfl
  rw [if_neg hl]
  have hv := toInt64_lt n h4
  have e := wrap64_nonneg (x := j' + toInt64 n) (by omega) (by omega) (by omega)
  rw [e] at hl ⊢
  exact .inr ⟨_, _, rfl, h2, by omega, by omega⟩

theorem sub_length {b p : Bytes} {i j : Int} (h : sub b i j = .ok p) : p.length ≤ b.length := by
  unfold sub at h
  split at h
  · cases h
    rw [List.length_take, List.length_drop]; omega
  · cases h

theorem parseElem_noPanic (T : IntText) (e : Elem) (p : Bytes) (h : p.length < 2 ^ 63) : parseElem T e p ≠ .panic := by
  unfold parseElem
  cases e with
  | bytes => exact fun h => nomatch h
  | msg sch =>
    simp only
    have := unmarshal_noPanic T sch p h
    cases e : unmarshal T sch p with
    | ok m => exact fun h => nomatch h
    | err => exact fun h => nomatch h
    | panic => exact absurd e this

theorem readKey_spec (kk : KeyKind) (b : Bytes) (hb : b.length < 2 ^ 63) (old : FVal) (j : Int) (h0 : 0 ≤ j) :
    readKey kk b old j = .err ∨ ∃ v j', readKey kk b old j = .ok (v, j') ∧ j < j' ∧ j' ≤ b.length := by
  cases kk with
  | str =>
    unfold readKey
    rcases readLen_spec b hb j h0 with h | ⟨s, t, h, h1, h2, h3⟩
    · simp only [h]; exact .inl rfl
    · simp only [h, PRes.ok_bind]
      rw [sub_ok (by omega) h2 h3]
      exact .inr ⟨_, _, rfl, by omega, h3⟩
  | u16 =>
    unfold readKey
    rcases readVarint_spec b j h0 with h | ⟨n, j', h, h2, h3, h4⟩
    · simp only [h]; exact .inl rfl
    · simp only [h, PRes.ok_bind]
      exact .inr ⟨_, _, rfl, h2, h3⟩

theorem skipEntry_spec (b : Bytes) (hb : b.length < 2 ^ 63) (i post : Int) (h0 : 0 ≤ i) (h1 : i ≤ b.length) :
    skipEntry b i post = .err ∨ ∃ j, skipEntry b i post = .ok j ∧ i < j ∧ j ≤ post := by
  unfold skipEntry
  rw [sub_ok h0 h1 (by omega)]
  simp only [PRes.ok_bind]
  generalize hr : (b.drop i.toNat).take ((b.length : Int) - i).toNat = r
  have hlr : r.length ≤ b.length := by rw [← hr, List.length_take, List.length_drop]; omega
  rcases skip_spec r (by omega) with h | ⟨n, h, hn0, hn1⟩
  · rw [h]; exact .inl rfl
  rw [h]
  simp only [PRes.ok_bind]
  by_cases hn : n < 0 ∨ wrap64 (i + n) < 0
  · rw [if_pos hn]; exact .inl rfl
  rw [if_neg hn]
  by_cases hl : post < wrap64 (i + n)
  · rw [if_pos hl]; exact .inl rfl
  rw [if_neg hl]
  refine .inr ⟨_, rfl, ?_, by omega⟩
  rw [wrap64_nonneg (by omega) (by omega) (by omega)]; omega

theorem readEntry_noPanic (T : IntText) (kk : KeyKind) (e : Elem) (b : Bytes) (hb : b.length < 2 ^ 63) (post : Int)
    (hp : post ≤ b.length) (fuel : Nat) (i : Int) (key : FVal) (val : EVal) (h0 : 0 ≤ i) (hf1 : 0 < fuel)
    (hf : (b.length : Int) < i + fuel) : readEntry T kk e b post fuel i key val ≠ .panic := by
  induction fuel generalizing i key val with
  | zero => omega
  | succ f ih =>
    unfold readEntry
    by_cases hl : i < post
    · rw [if_pos hl]
      rcases readVarint_spec b i h0 with h | ⟨v, j, h, h1, h2, _⟩
      · rw [h]; exact fun h => nomatch h
      rw [h]
      simp only [PRes.ok_bind]
      split
      · rcases readKey_spec kk b hb key j (by omega) with hs | ⟨q, j', hs, h3, h4⟩
        · rw [hs]; exact fun h => nomatch h
        · rw [hs]
          simp only [PRes.ok_bind]
          exact ih j' _ _ (by omega) (by omega) (by push_cast at hf; omega)
      split
      · rcases readLen_spec b hb j (by omega) with hs | ⟨s, t, hs, h3, h4, h5⟩
        · rw [hs]; exact fun h => nomatch h
        · rw [hs]
          simp only [PRes.ok_bind]
          have he := sub_ok (b := b) (i := s) (j := t) (by omega) h4 h5
          have hlen := sub_length he
          rw [he]
          simp only [PRes.ok_bind]
          have := parseElem_noPanic T e _ (lt_of_le_of_lt hlen hb)
          cases hpe : parseElem T e ((b.drop s.toNat).take (t - s).toNat) with
          | ok v =>
            simp only [PRes.ok_bind]
            exact ih t _ _ (by omega) (by omega) (by push_cast at hf; omega)
          | err => exact fun h => nomatch h
          | panic => exact absurd hpe this
      · rcases skipEntry_spec b hb i post h0 (by omega) with hs | ⟨j', hs, h3, h4⟩
        · rw [hs]; exact fun h => nomatch h
        · rw [hs]
          simp only [PRes.ok_bind]
          exact ih j' _ _ (by omega) (by omega) (by push_cast at hf; omega)
    · rw [if_neg hl]; exact fun h => nomatch h

theorem readField2_spec (T : IntText) (b : Bytes) (hb : b.length < 2 ^ 63) (k : Kind2) (old : FVal2) (j : Int)
    (h0 : 0 ≤ j) (h1 : j ≤ b.length) :
    readField2 T b k old j = .err ∨ ∃ v j', readField2 T b k old j = .ok (v, j') ∧ j ≤ j' ∧ j' ≤ b.length := by
  cases k with
  | one k =>
    unfold readField2
    rcases readField_spec (parsePayload T) (fun k p old h => parsePayload_noPanic T k p old h) b hb k old.getOne j h0 h1
      with h | ⟨v, j', h, h2, h3⟩
    · simp only [h]; exact .inl rfl
    · simp only [h]; exact .inr ⟨_, _, rfl, h2, h3⟩
  | rep e =>
    unfold readField2
    rcases readLen_spec b hb j h0 with h | ⟨s, t, h, h2, h3, h4⟩
    · simp only [h]; exact .inl rfl
    · simp only [h, PRes.ok_bind]
      have he := sub_ok (b := b) (i := s) (j := t) (by omega) h3 h4
      have hlen := sub_length he
      rw [he]
      simp only [PRes.ok_bind]
      have := parseElem_noPanic T e _ (lt_of_le_of_lt hlen hb)
      cases hpe : parseElem T e ((b.drop s.toNat).take (t - s).toNat) with
      | ok v => exact .inr ⟨_, _, rfl, by omega, h4⟩
      | err => exact .inl rfl
      | panic => exact absurd hpe this
  | map kk e =>
    unfold readField2
    rcases readLen_spec b hb j h0 with h | ⟨s, t, h, h2, h3, h4⟩
    · simp only [h]; exact .inl rfl
    · simp only [h, PRes.ok_bind]
      have := readEntry_noPanic T kk e b hb t h4 (b.length + 1) s kk.zero e.zero (by omega) (by omega)
        (by push_cast; omega)
      cases hpe : readEntry T kk e b t (b.length + 1) s kk.zero e.zero with
      | ok v => exact .inr ⟨_, _, rfl, by omega, h4⟩
      | err => exact .inl rfl
      | panic => exact absurd hpe this

theorem unmarshalLoop2_noPanic (T : IntText) (sch : Schema2) (b : Bytes)
    (hb : b.length < 2 ^ 63) (fuel : Nat) (i : Int) (m : Fields2) (h0 : 0 ≤ i) (hf1 : 0 < fuel)
    (hf : (b.length : Int) < i + fuel) :
    unmarshalLoop2 T sch b fuel i m ≠ .panic := by
  induction fuel generalizing i m with
  | zero => omega
  | succ f ih =>
    unfold unmarshalLoop2
    by_cases hl : (b.length : Int) ≤ i
    · rw [if_pos hl]; split <;> exact fun h => nomatch h
    rw [if_neg hl]
    rcases readVarint_spec b i h0 with h | ⟨v, j, h, h1, h2, _⟩
    · rw [h]; exact fun h => nomatch h
    rw [h]
    simp only [PRes.ok_bind]
    split
    · exact fun h => nomatch h
    split
    · exact fun h => nomatch h
    split
    · rcases skipField_spec b hb i h0 (by omega) with hs | ⟨j', hs, h3, h4⟩
      · rw [hs]; exact fun h => nomatch h
      · rw [hs]
        simp only [PRes.ok_bind]
        exact ih j' m (by omega) (by omega) (by push_cast at hf; omega)
    · split
      · exact fun h => nomatch h
      · rename_i k _ _
        rcases readField2_spec T b hb k (m (toInt32 (v >>> 3)).toNat) j (by omega) h2 with hs | ⟨q, j', hs, h3, h4⟩
        · rw [hs]; exact fun h => nomatch h
        · rw [hs]
          simp only [PRes.ok_bind]
          exact ih j' _ (by omega) (by omega) (by push_cast at hf; omega)

theorem unmarshal2_noPanic (T : IntText) (sch : Schema2) (b : Bytes) (hb : b.length < 2 ^ 63) :
    unmarshal2 T sch b ≠ .panic :=
  unmarshalLoop2_noPanic T sch b hb _ 0 _ (by omega) (by omega) (by push_cast; omega)

/-! ### What is written is read back -/

theorem readLen_ok (pre p rest : Bytes) (hlen : (pre ++ (varint p.length ++ (p ++ rest))).length < 2 ^ 63) :
    readLen (pre ++ (varint p.length ++ (p ++ rest))) pre.length =
      .ok (pre.length + (varint p.length).length, pre.length + (varint p.length).length + p.length) := by
  unfold readLen
  have hlen' := hlen
  simp only [List.length_append] at hlen'
  rw [readVarint_varint pre (p ++ rest) (show p.length < 2 ^ 64 by omega)]
  simp only [PRes.ok_bind]
  have e : toInt64 p.length = p.length := by unfold toInt64; rw [if_pos (by omega)]
  have ew : wrap64 ((pre.length : Int) + (varint p.length).length + p.length) =
      (pre.length : Int) + (varint p.length).length + p.length := wrap64_of_lt (by omega) (by omega)
  rw [e, ew, if_neg (by omega), if_neg (by omega), if_neg (by simp only [List.length_append]; push_cast; omega)]

theorem sub_mid (pre p rest : Bytes) :
    sub (pre ++ (p ++ rest)) pre.length (pre.length + p.length) = .ok p := by
  rw [sub_ok (by omega) (by omega) (by simp only [List.length_append]; push_cast; omega)]
  rw [show ((pre.length : Int)).toNat = pre.length by omega, List.drop_left,
    show ((pre.length : Int) + p.length - pre.length).toNat = p.length by omega, List.take_left]

/-- An element the encoder is given: bytes, or a message whose fields are in range. -/
def Elem.Fits : Elem → EVal → Prop
  | .bytes, v => ∃ b, v = .bs b
  | .msg sch, v => sch.WF ∧ ∃ m, v = .msg m ∧ ∀ x ∈ sch, x.2.Fits (m x.1)

/-- Two elements with the same contents. -/
def Elem.Same : Elem → EVal → EVal → Prop
  | .bytes, v, w => w = v
  | .msg sch, v, w => ∀ x ∈ sch, w.getMsg x.1 = v.getMsg x.1

theorem parseElem_ok (T : IntText) {e : Elem} {v : EVal} (hf : e.Fits v) (hlen : (elemBytes e v).length < 2 ^ 63) :
    ∃ w, parseElem T e (elemBytes e v) = .ok w ∧ e.Same v w := by
  cases e with
  | bytes =>
    obtain ⟨b, rfl⟩ := hf
    exact ⟨_, rfl, rfl⟩
  | msg sch =>
    obtain ⟨hs, m, rfl, hm⟩ := hf
    obtain ⟨m', h1, h2⟩ := unmarshal_marshal T hs hm hlen
    refine ⟨.msg m', ?_, h2⟩
    show (unmarshal T sch (marshal sch m) >>= fun m => PRes.ok (EVal.msg m)) = _
    rw [h1]; rfl

/-- A key the encoder is given. -/
def KeyKind.Fits : KeyKind → FVal → Prop
  | .str, v => ∃ b, v = .bs b
  | .u16, v => ∃ x : Int, v = .num x ∧ 0 ≤ x ∧ x < 2 ^ 16

theorem readTag (pre rest : Bytes) {n wt : Nat} (hn : n < 2 ^ 28) (hw : wt < 8) :
    readVarint (pre ++ (tag n wt ++ rest)) pre.length = .ok (n * 8 + wt, pre.length + (tag n wt).length) :=
  readVarint_varint pre rest (v := n * 8 + wt) (by omega)

theorem tag_pos (n wt : Nat) : 0 < (tag n wt).length := varint_length_pos _

theorem readEntry_key (T : IntText) (kk : KeyKind) (e : Elem) (pre rest : Bytes) (post : Int) (fuel : Nat) (k : FVal)
    (val : EVal) (hk : kk.Fits k) (hpost : (pre.length : Int) < post)
    (hlen : (pre ++ (keyBytes k ++ rest)).length < 2 ^ 63) :
    ∃ k', readEntry T kk e (pre ++ (keyBytes k ++ rest)) post (fuel + 1) pre.length kk.zero val =
      readEntry T kk e (pre ++ (keyBytes k ++ rest)) post fuel (pre.length + (keyBytes k).length) k' val ∧
      kk.final k' = k := by
  cases kk with
  | str =>
    obtain ⟨p, rfl⟩ := hk
    refine ⟨.bs p, ?_, rfl⟩
    have hkb : keyBytes (.bs p) = tag 1 2 ++ (varint p.length ++ p) := rfl
    rw [hkb] at hlen ⊢
    simp only [List.append_assoc] at hlen ⊢
    conv => lhs; unfold readEntry
    rw [if_pos hpost, readTag pre _ (by norm_num) (by norm_num)]
    simp only [PRes.ok_bind]
    rw [tag_num (by norm_num) (by norm_num), if_pos (show ((1 : Nat) : Int) = 1 from rfl)]
    have h1 := readLen_ok (pre ++ tag 1 2) p rest (by rw [List.append_assoc]; exact hlen)
    have h2 := sub_mid (pre ++ tag 1 2 ++ varint p.length) p rest
    simp only [List.append_assoc, List.length_append] at h1 h2
    push_cast at h1 h2
    unfold readKey
    simp only
    rw [h1]
    simp only [PRes.ok_bind]
    rw [← Int.add_assoc] at h2
    rw [h2]
    simp only [PRes.ok_bind, List.length_append]
    push_cast
    rw [← Int.add_assoc, ← Int.add_assoc]
  | u16 =>
    obtain ⟨x, rfl, hx0, hx1⟩ := hk
    have hu : toUint64 x = x.toNat := by
      unfold toUint64; rw [Int.emod_eq_of_lt hx0 (by omega)]
    refine ⟨.num x, ?_, ?_⟩
    · have hkb : keyBytes (.num x) = tag 1 0 ++ varint (toUint64 x) := rfl
      rw [hkb] at hlen ⊢
      simp only [List.append_assoc] at hlen ⊢
      conv => lhs; unfold readEntry
      rw [if_pos hpost, readTag pre _ (by norm_num) (by norm_num)]
      simp only [PRes.ok_bind]
      rw [tag_num (by norm_num) (by norm_num), if_pos (show ((1 : Nat) : Int) = 1 from rfl)]
      have h1 := readVarint_varint (pre ++ tag 1 0) rest (toUint64_lt x)
      simp only [List.append_assoc, List.length_append] at h1
      push_cast at h1
      unfold readKey
      simp only
      rw [h1]
      simp only [PRes.ok_bind, List.length_append]
      have e1 : (((KeyKind.u16.zero.getNum.toNat ||| toUint64 x % 2 ^ 32 : Nat)) : Int) = x := by
        show ((0 ||| toUint64 x % 2 ^ 32 : Nat) : Int) = x
        rw [Nat.zero_or, hu]; omega
      rw [e1]
      push_cast
      rw [← Int.add_assoc]
    · show FVal.num ((x.toNat % 2 ^ 16 : Nat) : Int) = _
      congr 1; omega

theorem readEntry_val (T : IntText) (kk : KeyKind) (e : Elem) (pre rest : Bytes) (post : Int) (fuel : Nat) (k : FVal)
    (v val : EVal) (hv : e.Fits v) (hpost : (pre.length : Int) < post)
    (hlen : (pre ++ (marshalLen 2 (elemBytes e v) ++ rest)).length < 2 ^ 63) :
    ∃ w, readEntry T kk e (pre ++ (marshalLen 2 (elemBytes e v) ++ rest)) post (fuel + 1) pre.length k val =
      readEntry T kk e (pre ++ (marshalLen 2 (elemBytes e v) ++ rest)) post fuel
        (pre.length + (marshalLen 2 (elemBytes e v)).length) k w ∧ e.Same v w := by
  obtain ⟨w, hw, hs⟩ := parseElem_ok T hv (by
    unfold marshalLen at hlen
    simp only [List.length_append] at hlen; omega)
  refine ⟨w, ?_, hs⟩
  generalize elemBytes e v = p at hlen hw ⊢
  have hkb : marshalLen 2 p = tag 2 2 ++ (varint p.length ++ p) := rfl
  rw [hkb] at hlen ⊢
  simp only [List.append_assoc] at hlen ⊢
  conv => lhs; unfold readEntry
  rw [if_pos hpost, readTag pre _ (by norm_num) (by norm_num)]
  simp only [PRes.ok_bind]
  rw [tag_num (by norm_num) (by norm_num), if_neg (by norm_num), if_pos (show ((2 : Nat) : Int) = 2 from rfl)]
  have h1 := readLen_ok (pre ++ tag 2 2) p rest (by rw [List.append_assoc]; exact hlen)
  have h2 := sub_mid (pre ++ tag 2 2 ++ varint p.length) p rest
  simp only [List.append_assoc, List.length_append] at h1 h2
  push_cast at h1 h2
  rw [h1]
  simp only [PRes.ok_bind]
  rw [← Int.add_assoc] at h2
  rw [h2]
  simp only [PRes.ok_bind]
  rw [hw]
  simp only [PRes.ok_bind, List.length_append]
  push_cast
  rw [← Int.add_assoc, ← Int.add_assoc]

theorem keyBytes_pos (k : FVal) : 0 < (keyBytes k).length := by
  have h0 := tag_pos 1 0
  have h2 := tag_pos 1 2
  unfold keyBytes
  split
  · rw [List.length_append]; omega
  · unfold marshalLen; rw [List.length_append]; omega

theorem marshalLen_pos (n : Nat) (p : Bytes) : 0 < (marshalLen n p).length := by
  have h2 := tag_pos n 2
  unfold marshalLen; rw [List.length_append]; omega

theorem readEntry_ok (T : IntText) (kk : KeyKind) (e : Elem) (pre rest : Bytes) (fuel : Nat) (p : FVal × EVal)
    (hk : kk.Fits p.1) (hv : e.Fits p.2) (hlen : (pre ++ (entryBytes e p ++ rest)).length < 2 ^ 63) (hfuel : 3 ≤ fuel) :
    ∃ k' w, readEntry T kk e (pre ++ (entryBytes e p ++ rest)) (pre.length + (entryBytes e p).length) fuel pre.length
      kk.zero e.zero = .ok (k', w) ∧ kk.final k' = p.1 ∧ e.Same p.2 w := by
  obtain ⟨f, rfl⟩ : ∃ f, fuel = f + 1 + 1 + 1 := ⟨fuel - 3, by omega⟩
  have h1 := keyBytes_pos p.1
  have h2 := marshalLen_pos 2 (elemBytes e p.2)
  have hl : (entryBytes e p).length = (keyBytes p.1).length + (marshalLen 2 (elemBytes e p.2)).length :=
    List.length_append
  have hsp : entryBytes e p ++ rest = keyBytes p.1 ++ (marshalLen 2 (elemBytes e p.2) ++ rest) :=
    List.append_assoc _ _ _
  rw [hsp] at hlen ⊢
  obtain ⟨k', e1, hk'⟩ := readEntry_key T kk e pre (marshalLen 2 (elemBytes e p.2) ++ rest)
    (pre.length + (entryBytes e p).length) (f + 1 + 1) p.1 e.zero hk (by omega) hlen
  obtain ⟨w, e2, hw⟩ := readEntry_val T kk e (pre ++ keyBytes p.1) rest (pre.length + (entryBytes e p).length) (f + 1)
    k' p.2 e.zero hv (by rw [List.length_append]; push_cast; omega) (by rw [List.append_assoc]; exact hlen)
  refine ⟨k', w, ?_, hk', hw⟩
  rw [e1]
  rw [List.append_assoc, List.length_append] at e2
  push_cast at e2
  rw [e2]
  unfold readEntry
  rw [if_neg (by rw [hl]; push_cast; omega)]

/-- A field the encoder is given. -/
def Kind2.Fits : Kind2 → FVal2 → Prop
  | .one k, v => ∃ x, v = .one x ∧ k.Fits x
  | .rep e, v => ∃ l, v = .rep l ∧ ∀ x ∈ l, e.Fits x
  | .map kk e, v => ∃ l, v = .map l ∧ (∀ x ∈ l, kk.Fits x.1 ∧ e.Fits x.2) ∧ (l.map Prod.fst).Nodup

/-- Two fields with the same contents. -/
def Kind2.Same : Kind2 → FVal2 → FVal2 → Prop
  | .one _, v, w => w = v
  | .rep e, v, w => ∃ l, w = .rep l ∧ List.Forall₂ e.Same v.getRep l
  | .map _ e, v, w => ∃ l, w = .map l ∧ List.Forall₂ (fun x y => y.1 = x.1 ∧ e.Same x.2 y.2) v.getMap l

/-- A schema the generator accepts. -/
def Schema2.WF (sch : Schema2) : Prop := (∀ e ∈ sch, 0 < e.1 ∧ e.1 < 2 ^ 28) ∧ (sch.map Prod.fst).Nodup

theorem kind2_of_mem {sch : Schema2} (h : (sch.map Prod.fst).Nodup) {n : Nat} {k : Kind2} (hm : (n, k) ∈ sch) :
    sch.kind n = some k := by
  unfold Schema2.kind
  induction sch with
  | nil => cases hm
  | cons e t ih =>
    rw [List.map_cons, List.nodup_cons] at h
    by_cases he : ((e.1 : Int) = n)
    · rw [List.find?_cons_of_pos (by simpa using he)]
      rcases List.mem_cons.1 hm with rfl | hm
      · rfl
      · exact absurd (List.mem_map_of_mem (f := Prod.fst) hm) (by
          have : e.1 = n := by omega
          rw [← this]; exact h.1)
    · rw [List.find?_cons_of_neg (by simpa using he)]
      rcases List.mem_cons.1 hm with rfl | hm
      · exact absurd rfl he
      · exact ih h.2 hm

/-- A message with one field replaced. -/
def upd2 (m : Fields2) (n : Nat) (v : FVal2) : Fields2 := fun q => if q = n then v else m q

theorem upd2_self (m : Fields2) (n : Nat) (v : FVal2) : upd2 m n v n = v := if_pos rfl
theorem upd2_ne (m : Fields2) {n q : Nat} (v : FVal2) (h : q ≠ n) : upd2 m n v q = m q := if_neg h
theorem upd2_upd2 (m : Fields2) (n : Nat) (v w : FVal2) : upd2 (upd2 m n v) n w = upd2 m n w := by
  funext q; unfold upd2; split <;> rfl
theorem upd2_id (m : Fields2) (n : Nat) : upd2 m n (m n) = m := by
  funext q; unfold upd2; split
  · rename_i h; rw [h]
  · rfl

theorem loop2_tag (T : IntText) (sch : Schema2) (pre rest : Bytes)
    (fuel n wt : Nat) (k : Kind2) (m : Fields2) (hk : sch.kind n = some k) (hn0 : 0 < n) (hn : n < 2 ^ 28)
    (hw : k.wire = wt) :
    unmarshalLoop2 T sch (pre ++ (tag n wt ++ rest)) (fuel + 1) pre.length m =
      (readField2 T (pre ++ (tag n wt ++ rest)) k (m n) (pre.length + (tag n wt).length) >>= fun r =>
        unmarshalLoop2 T sch (pre ++ (tag n wt ++ rest)) fuel r.2 (upd2 m n r.1)) := by
  have hwc : k.wire = 0 ∨ k.wire = 2 := by
    cases k with
    | one k => exact wire_cases k
    | _ => exact .inr rfl
  have hw8 : wt < 8 := by omega
  have hw4 : wt ≠ 4 := by omega
  have hlen : ¬ ((pre ++ (tag n wt ++ rest)).length : Int) ≤ pre.length := by
    have := tag_pos n wt
    simp only [List.length_append]; push_cast; omega
  conv => lhs; unfold unmarshalLoop2
  rw [if_neg hlen]
  rw [readTag pre rest hn hw8]
  simp only [PRes.ok_bind]
  rw [tag_wire hw8, if_neg hw4, tag_num hn hw8, if_neg (by omega), hk]
  simp only
  rw [if_neg (by rw [hw]; simp)]
  rfl

theorem loop2_rep (T : IntText) (sch : Schema2) (pre rest : Bytes) (fuel n : Nat) (e : Elem) (v : EVal) (m : Fields2)
    (hk : sch.kind n = some (.rep e)) (hn0 : 0 < n) (hn : n < 2 ^ 28) (hv : e.Fits v)
    (hlen : (pre ++ (marshalLen n (elemBytes e v) ++ rest)).length < 2 ^ 63) :
    ∃ w, unmarshalLoop2 T sch (pre ++ (marshalLen n (elemBytes e v) ++ rest)) (fuel + 1) pre.length m =
      unmarshalLoop2 T sch (pre ++ (marshalLen n (elemBytes e v) ++ rest)) fuel
        (pre.length + (marshalLen n (elemBytes e v)).length) (upd2 m n (.rep ((m n).getRep ++ [w]))) ∧ e.Same v w := by
  obtain ⟨w, hw, hs⟩ := parseElem_ok T hv (by
    unfold marshalLen at hlen
    simp only [List.length_append] at hlen; omega)
  refine ⟨w, ?_, hs⟩
  generalize elemBytes e v = p at hlen hw ⊢
  have hkb : marshalLen n p = tag n 2 ++ (varint p.length ++ p) := rfl
  rw [hkb] at hlen ⊢
  simp only [List.append_assoc] at hlen ⊢
  rw [loop2_tag T sch pre _ fuel n 2 _ m hk hn0 hn rfl]
  have h1 := readLen_ok (pre ++ tag n 2) p rest (by rw [List.append_assoc]; exact hlen)
  have h2 := sub_mid (pre ++ tag n 2 ++ varint p.length) p rest
  simp only [List.append_assoc, List.length_append] at h1 h2
  push_cast at h1 h2
  unfold readField2
  simp only
  rw [h1]
  simp only [PRes.ok_bind]
  rw [← Int.add_assoc] at h2
  rw [h2]
  simp only [PRes.ok_bind]
  rw [hw]
  simp only [PRes.ok_bind, List.length_append]
  push_cast
  rw [← Int.add_assoc, ← Int.add_assoc]

theorem loop2_map (T : IntText) (sch : Schema2) (pre rest : Bytes) (fuel n : Nat) (kk : KeyKind) (e : Elem)
    (x : FVal × EVal) (m : Fields2) (hk : sch.kind n = some (.map kk e)) (hn0 : 0 < n) (hn : n < 2 ^ 28)
    (hx1 : kk.Fits x.1) (hx2 : e.Fits x.2)
    (hlen : (pre ++ (marshalLen n (entryBytes e x) ++ rest)).length < 2 ^ 63) :
    ∃ w, unmarshalLoop2 T sch (pre ++ (marshalLen n (entryBytes e x) ++ rest)) (fuel + 1) pre.length m =
      unmarshalLoop2 T sch (pre ++ (marshalLen n (entryBytes e x) ++ rest)) fuel
        (pre.length + (marshalLen n (entryBytes e x)).length) (upd2 m n (.map (mapPut (m n).getMap x.1 w))) ∧
      e.Same x.2 w := by
  have hkb : marshalLen n (entryBytes e x) = tag n 2 ++ (varint (entryBytes e x).length ++ entryBytes e x) := rfl
  have hep : 2 ≤ (entryBytes e x).length := by
    have h1 := keyBytes_pos x.1
    have h2 := marshalLen_pos 2 (elemBytes e x.2)
    have hl : (entryBytes e x).length = (keyBytes x.1).length + (marshalLen 2 (elemBytes e x.2)).length :=
      List.length_append
    omega
  rw [hkb] at hlen ⊢
  simp only [List.append_assoc] at hlen ⊢
  obtain ⟨k', w, he, hk', hw⟩ := readEntry_ok T kk e (pre ++ tag n 2 ++ varint (entryBytes e x).length) rest
    ((pre ++ (tag n 2 ++ (varint (entryBytes e x).length ++ (entryBytes e x ++ rest)))).length + 1) x hx1 hx2
    (by simp only [List.append_assoc]; exact hlen) (by simp only [List.length_append]; omega)
  refine ⟨w, ?_, hw⟩
  rw [loop2_tag T sch pre _ fuel n 2 _ m hk hn0 hn rfl]
  have h1 := readLen_ok (pre ++ tag n 2) (entryBytes e x) rest (by rw [List.append_assoc]; exact hlen)
  simp only [List.append_assoc] at h1 he
  rw [List.length_append (as := pre)] at h1
  rw [List.length_append (as := pre) (bs := tag n 2 ++ varint (entryBytes e x).length), List.length_append (as := tag n 2)] at he
  push_cast at h1 he
  unfold readField2
  simp only
  rw [h1]
  simp only [PRes.ok_bind]
  rw [← Int.add_assoc] at he
  rw [he]
  simp only [PRes.ok_bind, List.length_append]
  rw [hk']
  push_cast
  rw [← Int.add_assoc, ← Int.add_assoc]

theorem loop2_one (T : IntText) (sch : Schema2) (pre rest : Bytes) (fuel n : Nat) (k : Kind) (v : FVal) (m : Fields2)
    (hk : sch.kind n = some (.one k)) (hn0 : 0 < n) (hn : n < 2 ^ 28) (hf : k.Fits v) (hne : marshalField n v ≠ [])
    (hlen : (pre ++ (marshalField n v ++ rest)).length < 2 ^ 63) :
    unmarshalLoop2 T sch (pre ++ (marshalField n v ++ rest)) (fuel + 1) pre.length m =
      unmarshalLoop2 T sch (pre ++ (marshalField n v ++ rest)) fuel (pre.length + (marshalField n v).length)
        (upd2 m n (.one v)) := by
  rcases wire_cases k with hw | hw
  · obtain ⟨x, rfl⟩ := writable_num hw hf.writable
    have hx : x ≠ 0 := fun e => hne (if_pos e)
    rw [marshalField_num n hx, List.append_assoc, loop2_tag T sch pre _ fuel n 0 _ m hk hn0 hn hw]
    have := readField_num (parsePayload T) (pre ++ tag n 0) rest k (m n).getOne x hw
    rw [List.append_assoc, List.length_append] at this
    push_cast at this
    unfold readField2
    simp only
    rw [this]
    simp only [PRes.ok_bind, List.length_append]
    rw [conv_toUint64 hw hf]
    push_cast
    rw [← Int.add_assoc]
  · have e := marshalField_len n hw hf.writable hne
    rw [e] at hlen ⊢
    rw [List.append_assoc, List.append_assoc] at hlen ⊢
    rw [loop2_tag T sch pre _ fuel n 2 _ m hk hn0 hn hw]
    have := readField_len (parsePayload T) (pre ++ tag n 2) (payload v) rest k (m n).getOne (k.readAs v) hw
      (parsePayload_payload T hw hf.writable _) (by rw [List.append_assoc]; exact hlen)
    rw [List.append_assoc, List.length_append] at this
    push_cast at this
    unfold readField2
    simp only
    rw [this]
    simp only [PRes.ok_bind, List.length_append]
    rw [hf.readAs]
    push_cast
    rw [← Int.add_assoc, ← Int.add_assoc]

/-- Reading the elements of a slice. -/
theorem loop2_rep_list (T : IntText) (sch : Schema2) (n : Nat) (e : Elem) (hk : sch.kind n = some (.rep e)) (hn0 : 0 < n)
    (hn : n < 2 ^ 28) (l : List EVal) (hf : ∀ x ∈ l, e.Fits x) (pre rest : Bytes) (fuel : Nat) (m : Fields2)
    (acc : List EVal) (hm : m n = .rep acc)
    (hlen : (pre ++ ((l.flatMap fun x => marshalLen n (elemBytes e x)) ++ rest)).length < 2 ^ 63)
    (hfuel : (l.flatMap fun x => marshalLen n (elemBytes e x)).length ≤ fuel) :
    ∃ fuel' l', fuel ≤ fuel' + (l.flatMap fun x => marshalLen n (elemBytes e x)).length ∧
      unmarshalLoop2 T sch (pre ++ ((l.flatMap fun x => marshalLen n (elemBytes e x)) ++ rest)) fuel pre.length m =
        unmarshalLoop2 T sch (pre ++ ((l.flatMap fun x => marshalLen n (elemBytes e x)) ++ rest)) fuel'
          (pre.length + (l.flatMap fun x => marshalLen n (elemBytes e x)).length) (upd2 m n (.rep (acc ++ l'))) ∧
      List.Forall₂ e.Same l l' := by
  induction l generalizing pre fuel m acc with
  | nil =>
    refine ⟨fuel, [], by simp, ?_, .nil⟩
    rw [List.append_nil, ← hm, upd2_id]
    simp
  | cons x t ih =>
    rw [List.flatMap_cons, List.append_assoc] at hlen ⊢
    rw [List.flatMap_cons, List.length_append] at hfuel
    have hpos := marshalLen_pos n (elemBytes e x)
    obtain ⟨f, rfl⟩ : ∃ f, fuel = f + 1 := ⟨fuel - 1, by omega⟩
    obtain ⟨w, e1, hw⟩ := loop2_rep T sch pre ((t.flatMap fun x => marshalLen n (elemBytes e x)) ++ rest) f n e x m hk hn0
      hn (hf x List.mem_cons_self) hlen
    obtain ⟨fuel', l', h1, e2, h3⟩ := ih (fun y hy => hf y (List.mem_cons_of_mem _ hy)) (pre ++ marshalLen n (elemBytes e x))
      f (upd2 m n (.rep ((m n).getRep ++ [w]))) (acc ++ [w]) (by rw [upd2_self, hm]; rfl)
      (by rw [List.append_assoc]; exact hlen) (by omega)
    refine ⟨fuel', w :: l', by rw [List.length_append]; omega, ?_, .cons hw h3⟩
    rw [e1]
    rw [List.append_assoc, List.length_append] at e2
    push_cast at e2
    rw [e2, upd2_upd2, List.append_assoc, List.length_append]
    push_cast
    rw [← Int.add_assoc]
    rfl

theorem mapPut_new {l : List (FVal × EVal)} {k : FVal} (h : ∀ e ∈ l, e.1 ≠ k) (v : EVal) : mapPut l k v = l ++ [(k, v)] := by
  unfold mapPut
  rw [List.filter_eq_self.2 fun e he => by simpa using h e he]

/-- Reading the entries of a map. -/
theorem loop2_map_list (T : IntText) (sch : Schema2) (n : Nat) (kk : KeyKind) (e : Elem)
    (hk : sch.kind n = some (.map kk e)) (hn0 : 0 < n) (hn : n < 2 ^ 28) (l : List (FVal × EVal))
    (hf : ∀ x ∈ l, kk.Fits x.1 ∧ e.Fits x.2) (hnd : (l.map Prod.fst).Nodup) (pre rest : Bytes) (fuel : Nat) (m : Fields2)
    (acc : List (FVal × EVal)) (hm : m n = .map acc) (hacc : ∀ y ∈ acc, ∀ x ∈ l, y.1 ≠ x.1)
    (hlen : (pre ++ ((l.flatMap fun x => marshalLen n (entryBytes e x)) ++ rest)).length < 2 ^ 63)
    (hfuel : (l.flatMap fun x => marshalLen n (entryBytes e x)).length ≤ fuel) :
    ∃ fuel' l', fuel ≤ fuel' + (l.flatMap fun x => marshalLen n (entryBytes e x)).length ∧
      unmarshalLoop2 T sch (pre ++ ((l.flatMap fun x => marshalLen n (entryBytes e x)) ++ rest)) fuel pre.length m =
        unmarshalLoop2 T sch (pre ++ ((l.flatMap fun x => marshalLen n (entryBytes e x)) ++ rest)) fuel'
          (pre.length + (l.flatMap fun x => marshalLen n (entryBytes e x)).length) (upd2 m n (.map (acc ++ l'))) ∧
      List.Forall₂ (fun x y => y.1 = x.1 ∧ e.Same x.2 y.2) l l' := by
  induction l generalizing pre fuel m acc with
  | nil =>
    refine ⟨fuel, [], by simp, ?_, .nil⟩
    rw [List.append_nil, ← hm, upd2_id]
    simp
  | cons x t ih =>
    rw [List.flatMap_cons, List.append_assoc] at hlen ⊢
    rw [List.flatMap_cons, List.length_append] at hfuel
    rw [List.map_cons, List.nodup_cons] at hnd
    have hpos := marshalLen_pos n (entryBytes e x)
    obtain ⟨f, rfl⟩ : ∃ f, fuel = f + 1 := ⟨fuel - 1, by omega⟩
    obtain ⟨w, e1, hw⟩ := loop2_map T sch pre ((t.flatMap fun x => marshalLen n (entryBytes e x)) ++ rest) f n kk e x m hk
      hn0 hn (hf x List.mem_cons_self).1 (hf x List.mem_cons_self).2 hlen
    have hput : mapPut (m n).getMap x.1 w = acc ++ [(x.1, w)] := by
      rw [hm]; exact mapPut_new (fun y hy => hacc y hy x List.mem_cons_self) w
    obtain ⟨fuel', l', h1, e2, h3⟩ := ih (fun y hy => hf y (List.mem_cons_of_mem _ hy)) hnd.2
      (pre ++ marshalLen n (entryBytes e x))
      f (upd2 m n (.map (mapPut (m n).getMap x.1 w))) (acc ++ [(x.1, w)]) (by rw [upd2_self, hput])
      (by
        intro y hy z hz
        rcases List.mem_append.1 hy with hy | hy
        · exact hacc y hy z (List.mem_cons_of_mem _ hz)
        · rw [List.mem_singleton.1 hy]
          exact fun h => hnd.1 (by
            show x.1 ∈ _
            rw [show x.1 = z.1 from h]
            exact List.mem_map_of_mem hz))
      (by rw [List.append_assoc]; exact hlen) (by omega)
    refine ⟨fuel', (x.1, w) :: l', by rw [List.length_append]; omega, ?_, .cons ⟨rfl, hw⟩ h3⟩
    rw [e1]
    rw [List.append_assoc, List.length_append] at e2
    push_cast at e2
    rw [e2, upd2_upd2, List.append_assoc, List.length_append]
    push_cast
    rw [← Int.add_assoc]
    rfl

/-- Reading one field. -/
theorem loop2_field (T : IntText) (sch : Schema2) (n : Nat) (k : Kind2) (hk : sch.kind n = some k) (hn0 : 0 < n)
    (hn : n < 2 ^ 28) (v : FVal2) (hf : k.Fits v) (pre rest : Bytes) (fuel : Nat) (m : Fields2) (hm : m n = k.zero)
    (hlen : (pre ++ (marshalField2 n k v ++ rest)).length < 2 ^ 63) (hfuel : (marshalField2 n k v).length ≤ fuel) :
    ∃ fuel' w, fuel ≤ fuel' + (marshalField2 n k v).length ∧
      unmarshalLoop2 T sch (pre ++ (marshalField2 n k v ++ rest)) fuel pre.length m =
        unmarshalLoop2 T sch (pre ++ (marshalField2 n k v ++ rest)) fuel'
          (pre.length + (marshalField2 n k v).length) (upd2 m n w) ∧ k.Same v w := by
  cases k with
  | one k =>
    obtain ⟨x, rfl, hx⟩ := hf
    have e0 : marshalField2 n (.one k) (.one x) = marshalField n x := rfl
    rw [e0] at hlen hfuel ⊢
    by_cases hnil : marshalField n x = []
    · refine ⟨fuel, .one x, by omega, ?_, rfl⟩
      have hz : m n = .one x := by
        rw [hm, ← hx.readAs, marshalField_nil hx.writable hnil]; rfl
      rw [← hz, upd2_id, hnil]
      simp
    · have hpos : 0 < (marshalField n x).length := List.length_pos_iff.2 hnil
      obtain ⟨f, rfl⟩ : ∃ f, fuel = f + 1 := ⟨fuel - 1, by omega⟩
      exact ⟨f, .one x, by omega, loop2_one T sch pre rest f n k x m hk hn0 hn hx hnil hlen, rfl⟩
  | rep e =>
    obtain ⟨l, rfl, hl⟩ := hf
    obtain ⟨fuel', l', h1, h2, h3⟩ := loop2_rep_list T sch n e hk hn0 hn l hl pre rest fuel m [] hm hlen hfuel
    exact ⟨fuel', .rep l', h1, h2, l', rfl, h3⟩
  | map kk e =>
    obtain ⟨l, rfl, hl, hnd⟩ := hf
    obtain ⟨fuel', l', h1, h2, h3⟩ := loop2_map_list T sch n kk e hk hn0 hn l hl hnd pre rest fuel m [] hm
      (fun y hy => nomatch hy) hlen hfuel
    exact ⟨fuel', .map l', h1, h2, l', rfl, h3⟩

/-- Reading what was written, from some field on. -/
theorem loop2_marshal (T : IntText) (sch : Schema2) (hs : sch.WF) (v : Fields2) (sch2 : Schema2)
    (hsub : ∀ e ∈ sch2, e ∈ sch) (hnd : (sch2.map Prod.fst).Nodup) (hfit : ∀ e ∈ sch2, e.2.Fits (v e.1))
    (pre : Bytes) (fuel : Nat) (m : Fields2) (hz : ∀ e ∈ sch2, m e.1 = e.2.zero)
    (hlen : (pre ++ marshal2 sch2 v).length < 2 ^ 63) (hfuel : (marshal2 sch2 v).length < fuel) :
    ∃ m', unmarshalLoop2 T sch (pre ++ marshal2 sch2 v) fuel pre.length m = .ok m' ∧
      (∀ e ∈ sch2, e.2.Same (v e.1) (m' e.1)) ∧ ∀ q, q ∉ sch2.map Prod.fst → m' q = m q := by
  induction sch2 generalizing pre fuel m with
  | nil =>
    obtain ⟨f, rfl⟩ : ∃ f, fuel = f + 1 := ⟨fuel - 1, by simp [marshal2] at hfuel; omega⟩
    refine ⟨m, ?_, fun e he => (by cases he), fun _ _ => rfl⟩
    unfold unmarshalLoop2
    rw [if_pos (by simp [marshal2]), if_neg (by simp [marshal2])]
  | cons e t ih =>
    obtain ⟨n, k⟩ := e
    rw [List.map_cons, List.nodup_cons] at hnd
    have hmem := hsub (n, k) List.mem_cons_self
    have hf := hfit (n, k) List.mem_cons_self
    have hsplit : marshal2 ((n, k) :: t) v = marshalField2 n k (v n) ++ marshal2 t v := rfl
    have htail : ∀ e ∈ t, e.1 ≠ n := fun e he h => hnd.1 (by
      have := List.mem_map_of_mem (f := Prod.fst) he
      rwa [h] at this)
    rw [hsplit] at hlen hfuel ⊢
    rw [List.length_append] at hfuel
    obtain ⟨f, w, h1, h2, h3⟩ := loop2_field T sch n k (kind2_of_mem hs.2 hmem) (hs.1 _ hmem).1 (hs.1 _ hmem).2 (v n) hf
      pre (marshal2 t v) fuel m (hz (n, k) List.mem_cons_self) hlen (by omega)
    obtain ⟨m', g1, g2, g3⟩ := ih (fun e he => hsub e (List.mem_cons_of_mem _ he)) hnd.2
      (fun e he => hfit e (List.mem_cons_of_mem _ he)) (pre ++ marshalField2 n k (v n)) f (upd2 m n w)
      (fun e he => by rw [upd2_ne _ _ (htail e he)]; exact hz e (List.mem_cons_of_mem _ he))
      (by rw [List.append_assoc]; exact hlen) (by omega)
    rw [List.append_assoc, List.length_append] at g1
    push_cast at g1
    refine ⟨m', h2.trans g1, fun e he => ?_, fun q hq => ?_⟩
    · rcases List.mem_cons.1 he with rfl | he
      · rw [g3 n hnd.1, upd2_self]; exact h3
      · exact g2 e he
    · rw [g3 q fun h => hq (List.mem_cons_of_mem _ h), upd2_ne _ _ fun h : q = n => hq (by rw [h]; exact List.mem_cons_self)]

/-- A message whose fields are in range is read back from its encoding. -/
theorem unmarshal2_marshal2 (T : IntText) {sch : Schema2} (hs : sch.WF) {v : Fields2}
    (hf : ∀ e ∈ sch, e.2.Fits (v e.1)) (hlen : (marshal2 sch v).length < 2 ^ 63) :
    ∃ m, unmarshal2 T sch (marshal2 sch v) = .ok m ∧ ∀ e ∈ sch, e.2.Same (v e.1) (m e.1) := by
  obtain ⟨m', h1, h2, _⟩ := loop2_marshal T sch hs v sch (fun _ h => h) hs.2 hf []
    ((marshal2 sch v).length + 1) sch.zero
    (fun e he => by
      unfold Schema2.zero
      rw [kind2_of_mem hs.2 (show (e.1, e.2) ∈ sch from he)])
    (by rw [List.nil_append]; exact hlen) (by omega)
  exact ⟨m', by rw [List.nil_append] at h1; exact h1, h2⟩

/-! ### Sizes -/

theorem marshalLen_length {n : Nat} (hn : n < 16) (p : Bytes) (h : p.length < 2 ^ 64) :
    (marshalLen n p).length = 1 + p.length + sov p.length := by
  unfold marshalLen
  rw [List.length_append, List.length_append, tag_length hn (by norm_num), varint_length h]; omega

theorem sizeElem_eq {e : Elem} (he : ∀ sch, e = .msg sch → ∀ x ∈ sch, x.1 < 16) (v : EVal)
    (h : (elemBytes e v).length < 2 ^ 63) : sizeElem e v = (elemBytes e v).length := by
  cases e with
  | bytes => rfl
  | msg sch => exact (marshal_length (he sch rfl) _ h).symm

theorem sizeEntry_eq {e : Elem} (he : ∀ sch, e = .msg sch → ∀ x ∈ sch, x.1 < 16) (p : FVal × EVal)
    (h : (entryBytes e p).length < 2 ^ 63) : sizeEntry e p = (entryBytes e p).length := by
  unfold sizeEntry
  have hl : (entryBytes e p).length = (keyBytes p.1).length + (marshalLen 2 (elemBytes e p.2)).length :=
    List.length_append
  have hm : (elemBytes e p.2).length < 2 ^ 63 := by
    have : (marshalLen 2 (elemBytes e p.2)).length = (tag 2 2).length + ((varint (elemBytes e p.2).length).length +
      (elemBytes e p.2).length) := by unfold marshalLen; rw [List.length_append, List.length_append]
    omega
  have hk : (keyBytes p.1).length = 1 + sizeKey p.1 := by
    unfold keyBytes sizeKey
    split
    · rw [List.length_append, tag_length (by norm_num) (by norm_num), varint_length (toUint64_lt _)]
    · rename_i hne
      have hb : p.1.getBytes.length < 2 ^ 64 := by
        have : (keyBytes p.1).length = (marshalLen 1 p.1.getBytes).length := by
          cases hp : p.1 <;> first | rfl | exact absurd hp (hne _)
        have h2 : (marshalLen 1 p.1.getBytes).length = (tag 1 2).length + ((varint p.1.getBytes.length).length +
          p.1.getBytes.length) := by unfold marshalLen; rw [List.length_append, List.length_append]
        omega
      rw [marshalLen_length (by norm_num) _ hb]; omega
  rw [sizeElem_eq he _ hm, hl, hk, marshalLen_length (by norm_num) _ (by omega)]; omega

/-- The numbers of the fields of the messages in a field. -/
def Kind2.small : Kind2 → Prop
  | .one _ => True
  | .rep e | .map _ e => ∀ sch, e = .msg sch → ∀ x ∈ sch, x.1 < 16

theorem flatMap_length_sum {α : Type} (l : List α) (f : α → Bytes) (g : α → Nat) (h : (l.flatMap f).length < 2 ^ 63)
    (hfg : ∀ x ∈ l, (f x).length < 2 ^ 63 → (f x).length = g x) : (l.flatMap f).length = (l.map g).sum := by
  induction l with
  | nil => rfl
  | cons x t ih =>
    rw [List.flatMap_cons, List.length_append] at h
    rw [List.flatMap_cons, List.length_append, List.map_cons, List.sum_cons,
      ih (by omega) fun y hy => hfg y (List.mem_cons_of_mem _ hy), hfg x List.mem_cons_self (by omega)]

theorem inner_length (n : Nat) (p : Bytes) : p.length ≤ (marshalLen n p).length := by
  unfold marshalLen
  rw [List.length_append, List.length_append]; omega

theorem marshalField2_length {n : Nat} (hn : n < 16) {k : Kind2} (hk : k.small) (v : FVal2)
    (h : (marshalField2 n k v).length < 2 ^ 63) : (marshalField2 n k v).length = sizeField2 k v := by
  cases k with
  | one k => exact marshalField_length hn _ h
  | rep e =>
    refine flatMap_length_sum _ _ _ h fun x _ hx => ?_
    have hin := inner_length n (elemBytes e x)
    rw [marshalLen_length hn _ (by omega), sizeElem_eq hk x (by omega)]
  | map kk e =>
    refine flatMap_length_sum _ _ _ h fun x _ hx => ?_
    have hin := inner_length n (entryBytes e x)
    rw [marshalLen_length hn _ (by omega), sizeEntry_eq hk x (by omega)]; omega

/-- The length of an encoding is what `Size` announces. -/
theorem marshal2_length {sch : Schema2} (hn : ∀ e ∈ sch, e.1 < 16 ∧ e.2.small) (v : Fields2)
    (h : (marshal2 sch v).length < 2 ^ 63) : (marshal2 sch v).length = size2 sch v :=
  flatMap_length_sum _ _ _ h fun e he hx => marshalField2_length (hn e he).1 (hn e he).2 _ hx

theorem map_of_forall₂ {α β γ : Type} {R : α → β → Prop} {l : List α} {l' : List β} (h : List.Forall₂ R l l')
    (f : β → γ) (g : α → γ) (hfg : ∀ x ∈ l, ∀ y, R x y → f y = g x) : l'.map f = l.map g := by
  induction h with
  | nil => rfl
  | cons hxy _ ih =>
    rw [List.map_cons, List.map_cons, hfg _ List.mem_cons_self _ hxy,
      ih fun x hx y hy => hfg x (List.mem_cons_of_mem _ hx) y hy]

end Dollar.Proto
