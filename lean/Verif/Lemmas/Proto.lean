import Verif.Model.Proto
import Mathlib.Tactic.Ring
import Mathlib.Tactic.Linarith
import Mathlib.Data.Nat.Log

/-
Lemmas about the protobuf template: bounds, absence of panics, and round trips.
-/
namespace Dollar.Proto

theorem wrap64_of_lt {x : Int} (h0 : 0 ≤ x) (h1 : x < 2 ^ 63) : wrap64 x = x :=
  toInt64_toUint64 x (by omega) h1

theorem wrap64_nonneg {x : Int} (h0 : 0 ≤ x) (h1 : x < 2 ^ 64) (h : 0 ≤ wrap64 x) : wrap64 x = x := by
  unfold wrap64 toInt64 toUint64 at *
  rw [Int.emod_eq_of_lt h0 h1] at *
  split at h <;> rename_i hh
  · rw [if_pos hh]; omega
  · omega

theorem toInt64_lt (n : Nat) (h : n < 2 ^ 64) : toInt64 n < 2 ^ 63 := by
  unfold toInt64; split <;> omega

theorem wrap64_lt (x : Int) : wrap64 x < 2 ^ 63 := by
  refine toInt64_lt _ ?_
  unfold toUint64
  have := Int.emod_lt_of_pos x (show (0 : Int) < 2 ^ 64 by norm_num)
  omega

/-! ### Reading varints: bounds -/

theorem byteAt_ok {b : Bytes} {i : Int} (h0 : 0 ≤ i) (h1 : i < b.length) : ∃ x, byteAt b i = .ok x := by
  unfold byteAt
  rw [if_neg (by omega)]
  have : i.toNat < b.length := by omega
  rw [List.getElem?_eq_getElem this]
  exact ⟨_, rfl⟩

theorem readLoop_spec (b : Bytes) (n shift : Nat) (i : Int) (acc : Nat) (h0 : 0 ≤ i) (hacc : acc < 2 ^ 64) :
    readLoop b n shift i acc = .err ∨
      ∃ v j, readLoop b n shift i acc = .ok (v, j) ∧ i < j ∧ j ≤ b.length ∧ v < 2 ^ 64 := by
  induction n generalizing shift i acc with
  | zero => exact .inl rfl
  | succ n ih =>
    unfold readLoop
    by_cases hl : (b.length : Int) ≤ i
    · rw [if_pos hl]; exact .inl rfl
    rw [if_neg hl]
    obtain ⟨x, hx⟩ := byteAt_ok (b := b) h0 (by omega)
    rw [hx, PRes.ok_bind]
    have hlt : (acc ||| ((x.toNat &&& 0x7f) <<< shift) % 2 ^ 64) < 2 ^ 64 :=
      Nat.or_lt_two_pow hacc (Nat.mod_lt _ (by norm_num))
    by_cases h8 : x.toNat < 0x80
    · exact .inr ⟨_, i + 1, if_pos h8, by omega, by omega, hlt⟩
    · simp only [if_neg h8]
      rcases ih (shift + 7) (i + 1) _ (by omega) hlt with h | ⟨v, j, h, h1, h2, h3⟩
      · exact .inl h
      · exact .inr ⟨v, j, h, by omega, h2, h3⟩

theorem readVarint_spec (b : Bytes) (i : Int) (h0 : 0 ≤ i) :
    readVarint b i = .err ∨
      ∃ v j, readVarint b i = .ok (v, j) ∧ i < j ∧ j ≤ b.length ∧ v < 2 ^ 64 :=
  readLoop_spec b 10 0 i 0 h0 (by norm_num)

/-! ### Skipping -/

theorem skipBody_spec (b : Bytes) (hb : b.length < 2 ^ 63) (wt : Nat) (j : Int) (d : Nat) (h0 : 0 ≤ j)
    (h1 : j ≤ b.length) :
    skipBody b wt j d = .err ∨ ∃ j' d', skipBody b wt j d = .ok (j', d') ∧ (0 ≤ j' → j ≤ j' ∧ j' < 2 ^ 63) := by
  unfold skipBody
  split
  · rcases readVarint_spec b j h0 with h | ⟨v, j', h, h2, h3, _⟩
    · rw [h]; exact .inl rfl
    · rw [h]; exact .inr ⟨_, _, rfl, fun _ => ⟨by omega, by omega⟩⟩
  · refine .inr ⟨_, _, rfl, fun hh => ?_⟩
    have hw := wrap64_lt (j + 8)
    rw [wrap64_nonneg (by omega) (by omega) hh] at hw ⊢; constructor <;> omega
  · rcases readVarint_spec b j h0 with h | ⟨v, j', h, h2, h3, h4⟩
    · rw [h]; exact .inl rfl
    · rw [h]
      have hv := toInt64_lt v h4
      simp only [PRes.ok_bind]
      by_cases hn : toInt64 v < 0
      · rw [if_pos hn]; exact .inl rfl
      · rw [if_neg hn]
        refine .inr ⟨_, _, rfl, fun hh => ?_⟩
        have hw := wrap64_lt (j' + toInt64 v)
        rw [wrap64_nonneg (by omega) (by omega) hh] at hw ⊢; constructor <;> omega
  · exact .inr ⟨_, _, rfl, fun _ => ⟨by omega, by omega⟩⟩
  · split
    · exact .inl rfl
    · exact .inr ⟨_, _, rfl, fun _ => ⟨by omega, by omega⟩⟩
  · refine .inr ⟨_, _, rfl, fun hh => ?_⟩
    have hw := wrap64_lt (j + 4)
    rw [wrap64_nonneg (by omega) (by omega) hh] at hw ⊢; constructor <;> omega
  · exact .inl rfl

theorem skipLoop_spec (b : Bytes) (hb : b.length < 2 ^ 63) (fuel : Nat) (i : Int) (d : Nat) (h0 : 0 ≤ i)
    (hf1 : 0 < fuel) (hf : (b.length : Int) < i + fuel) :
    skipLoop b fuel i d = .err ∨ ∃ j, skipLoop b fuel i d = .ok j ∧ i < j ∧ j < 2 ^ 63 := by
  induction fuel generalizing i d with
  | zero => omega
  | succ f ih =>
    unfold skipLoop
    by_cases hl : (b.length : Int) ≤ i
    · rw [if_pos hl]; exact .inl rfl
    rw [if_neg hl]
    rcases readVarint_spec b i h0 with h | ⟨v, j, h, h1, h2, _⟩
    · rw [h]; exact .inl rfl
    rw [h]
    simp only [PRes.ok_bind]
    rcases skipBody_spec b hb (v &&& 7) j d (by omega) h2 with hs | ⟨j', d', hs, hj⟩
    · rw [hs]; exact .inl rfl
    rw [hs]
    simp only [PRes.ok_bind]
    by_cases hn : j' < 0
    · rw [if_pos hn]; exact .inl rfl
    rw [if_neg hn]
    have := hj (by omega)
    by_cases hd : d' = 0
    · rw [if_pos hd]; exact .inr ⟨j', rfl, by omega, this.2⟩
    rw [if_neg hd]
    rcases ih j' d' (by omega) (by omega) (by push_cast at hf; omega) with h | ⟨q, h, h3, h4⟩
    · exact .inl h
    · exact .inr ⟨q, h, by omega, h4⟩

theorem skip_spec (b : Bytes) (hb : b.length < 2 ^ 63) :
    skip b = .err ∨ ∃ j, skip b = .ok j ∧ 0 < j ∧ j < 2 ^ 63 := by
  refine skipLoop_spec b hb _ 0 0 (by omega) (by omega) ?_
  push_cast; omega

theorem sub_ok {b : Bytes} {i j : Int} (h0 : 0 ≤ i) (h1 : i ≤ j) (h2 : j ≤ b.length) :
    sub b i j = .ok ((b.drop i.toNat).take (j - i).toNat) := by
  unfold sub; rw [if_pos ⟨h0, h1, h2⟩]

theorem skipField_spec (b : Bytes) (hb : b.length < 2 ^ 63) (i : Int) (h0 : 0 ≤ i) (h1 : i ≤ b.length) :
    skipField b i = .err ∨ ∃ j, skipField b i = .ok j ∧ i < j ∧ j ≤ b.length := by
  unfold skipField
  rw [sub_ok h0 h1 (by omega)]
  simp only [PRes.ok_bind]
  generalize hr : (b.drop i.toNat).take ((b.length : Int) - i).toNat = r
  have hlr : r.length ≤ b.length := by rw [← hr, List.length_take, List.length_drop]; omega
  rcases skip_spec r (by omega) with h | ⟨n, h, hn0, hn1⟩
  · rw [h]; exact .inl rfl
  rw [h]
  simp only [PRes.ok_bind]
  by_cases hn : n < 0 ∨ wrap64 (i + n) < 0
  · rw [if_pos hn]; exact .inl rfl
  rw [if_neg hn]
  by_cases hl : (b.length : Int) < wrap64 (i + n)
  · rw [if_pos hl]; exact .inl rfl
  rw [if_neg hl]
  refine .inr ⟨_, rfl, ?_, by omega⟩
  rw [wrap64_nonneg (by omega) (by omega) (by omega)]; omega

/-! ### Unmarshal never panics -/

theorem readField_spec (parse : Kind → Bytes → FVal → PRes FVal)
    (hp : ∀ k p old, p.length < 2 ^ 63 → parse k p old ≠ .panic) (b : Bytes) (hb : b.length < 2 ^ 63) (k : Kind)
    (old : FVal) (j : Int) (h0 : 0 ≤ j) (h1 : j ≤ b.length) :
    readField parse b k old j = .err ∨ ∃ v j', readField parse b k old j = .ok (v, j') ∧ j ≤ j' ∧ j' ≤ b.length := by
  unfold readField
  rcases readVarint_spec b j h0 with h | ⟨n, j', h, h2, h3, h4⟩
  · rw [h]; split <;> exact .inl rfl
  rw [h]
  split
  · exact .inr ⟨_, _, rfl, by omega, h3⟩
  simp only [PRes.ok_bind]
  by_cases hn : toInt64 n < 0
  · rw [if_pos hn]; exact .inl rfl
  rw [if_neg hn]
  by_cases hw : wrap64 (j' + toInt64 n) < 0
  · rw [if_pos hw]; exact .inl rfl
  rw [if_neg hw]
  by_cases hl : (b.length : Int) < wrap64 (j' + toInt64 n)
  · rw [if_pos hl]; exact .inl rfl
  rw [if_neg hl]
  have hv := toInt64_lt n h4
  have e := wrap64_nonneg (x := j' + toInt64 n) (by omega) (by omega) (by omega)
  rw [e] at hl ⊢
  rw [sub_ok (by omega) (by omega) (by omega)]
  simp only [PRes.ok_bind]
  generalize hr : (b.drop j'.toNat).take (j' + toInt64 n - j').toNat = r
  have hlr : r.length ≤ b.length := by rw [← hr, List.length_take, List.length_drop]; omega
  have := hp k r old (by omega)
  cases hpr : parse k r old with
  | ok v => exact .inr ⟨v, _, rfl, by omega, by omega⟩
  | err => exact .inl rfl
  | panic => exact absurd hpr this

theorem unmarshalLoop_noPanic (parse : Kind → Bytes → FVal → PRes FVal)
    (hp : ∀ k p old, p.length < 2 ^ 63 → parse k p old ≠ .panic) (sch : Schema) (b : Bytes)
    (hb : b.length < 2 ^ 63) (fuel : Nat) (i : Int) (m : Fields) (h0 : 0 ≤ i) (hf1 : 0 < fuel)
    (hf : (b.length : Int) < i + fuel) :
    unmarshalLoop parse sch b fuel i m ≠ .panic := by
  induction fuel generalizing i m with
  | zero => omega
  | succ f ih =>
    unfold unmarshalLoop
    by_cases hl : (b.length : Int) ≤ i
    · rw [if_pos hl]; split <;> exact fun h => nomatch h
    rw [if_neg hl]
    rcases readVarint_spec b i h0 with h | ⟨v, j, h, h1, h2, _⟩
    · rw [h]; exact fun h => nomatch h
    rw [h]
    simp only [PRes.ok_bind]
    split
    · exact fun h => nomatch h
    split
    · exact fun h => nomatch h
    split
    · rcases skipField_spec b hb i h0 (by omega) with hs | ⟨j', hs, h3, h4⟩
      · rw [hs]; exact fun h => nomatch h
      · rw [hs]
        simp only [PRes.ok_bind]
        exact ih j' m (by omega) (by omega) (by push_cast at hf; omega)
    · split
      · exact fun h => nomatch h
      · rename_i k _ _
        rcases readField_spec parse hp b hb k (m (toInt32 (v >>> 3)).toNat) j (by omega) h2 with hs | ⟨q, j', hs, h3, h4⟩
        · rw [hs]; exact fun h => nomatch h
        · rw [hs]
          simp only [PRes.ok_bind]
          exact ih j' _ (by omega) (by omega) (by push_cast at hf; omega)

theorem parsePayload_noPanic (T : IntText) (k : Kind) (p : Bytes) (old : FVal) (h : p.length < 2 ^ 63) :
    parsePayload T k p old ≠ .panic := by
  unfold parsePayload
  cases k with
  | time =>
    simp only
    unfold readTime
    have := unmarshalLoop_noPanic noParse (fun _ _ _ _ => by unfold noParse; exact fun h => nomatch h)
      timestampSchema p h (p.length + 1) 0 timestampSchema.zero (by omega) (by omega) (by push_cast; omega)
    cases hr : unmarshalLoop noParse timestampSchema p (p.length + 1) 0 timestampSchema.zero with
    | ok m => simp only [PRes.ok_bind]; split <;> exact fun h => nomatch h
    | err => exact fun h => nomatch h
    | panic => exact absurd hr this
  | int =>
    simp only
    split
    · exact fun h => nomatch h
    · split
      · exact fun h => nomatch h
      · split <;> exact fun h => nomatch h
  | _ => exact fun h => nomatch h

theorem unmarshal_noPanic (T : IntText) (sch : Schema) (b : Bytes) (hb : b.length < 2 ^ 63) :
    unmarshal T sch b ≠ .panic :=
  unmarshalLoop_noPanic _ (fun k p old h => parsePayload_noPanic T k p old h) sch b hb _ 0 _ (by omega) (by omega)
    (by push_cast; omega)

/-! ### Varints: what is written is read back -/

theorem byteAt_append (pre : Bytes) (x : UInt8) (rest : Bytes) : byteAt (pre ++ x :: rest) pre.length = .ok x := by
  unfold byteAt
  rw [if_neg (by omega)]
  simp

theorem or_shift {acc a shift : Nat} (h : acc < 2 ^ shift) (h64 : a * 2 ^ shift < 2 ^ 64) :
    acc ||| (a <<< shift) % 2 ^ 64 = acc + a * 2 ^ shift := by
  rw [Nat.mod_eq_of_lt (by rwa [Nat.shiftLeft_eq]), Nat.or_comm, ← Nat.shiftLeft_add_eq_or_of_lt h, Nat.shiftLeft_eq,
    Nat.add_comm]

theorem and7f (x : Nat) : x &&& 0x7f = x % 128 := Nat.and_two_pow_sub_one_eq_mod x 7

theorem readLoop_varint (n : Nat) (pre rest : Bytes) (v shift acc : Nat) (hv : v < 128 ^ (n + 1))
    (hacc : acc < 2 ^ shift) (h64 : v * 2 ^ shift < 2 ^ 64) :
    readLoop (pre ++ (varintN n v ++ rest)) (n + 1) shift pre.length acc =
      .ok (acc + v * 2 ^ shift, pre.length + (varintN n v).length) := by
  induction n generalizing pre v shift acc with
  | zero =>
    have hv : v < 128 := by omega
    unfold readLoop varintN
    have e : (UInt8.ofNat v).toNat = v := by simp; omega
    rw [if_neg (by simp), List.singleton_append, byteAt_append]
    simp only [PRes.ok_bind]
    rw [e, and7f, Nat.mod_eq_of_lt hv, or_shift hacc h64,
      if_pos (show v < 0x80 from hv)]
    simp
  | succ n ih =>
    unfold readLoop varintN
    by_cases h128 : 128 ≤ v
    · rw [if_pos h128]
      have e : (UInt8.ofNat (v % 128 + 128)).toNat = v % 128 + 128 := by simp; omega
      have hmod : v % 128 * 2 ^ shift < 2 ^ 64 :=
        lt_of_le_of_lt (Nat.mul_le_mul_right _ (Nat.mod_le _ _)) h64
      rw [if_neg (by simp; omega), List.cons_append, byteAt_append]
      simp only [PRes.ok_bind]
      rw [e, and7f, show (v % 128 + 128) % 128 = v % 128 by omega, or_shift hacc hmod,
        if_neg (show ¬ (v % 128 + 128 < 0x80) by omega)]
      have hp : (2 : Nat) ^ (shift + 7) = 128 * 2 ^ shift := by rw [Nat.pow_add]; ring
      have h1 : acc + v % 128 * 2 ^ shift < 2 ^ (shift + 7) := by
        rw [hp]
        have : v % 128 * 2 ^ shift ≤ 127 * 2 ^ shift := Nat.mul_le_mul_right _ (by omega)
        omega
      have hdm : v % 128 * 2 ^ shift + v / 128 * (128 * 2 ^ shift) = v * 2 ^ shift := by
        rw [← Nat.mul_assoc, ← Nat.add_mul]; congr 1; omega
      have h2 : v / 128 * 2 ^ (shift + 7) < 2 ^ 64 := by
        rw [hp]; omega
      have := ih (pre ++ [UInt8.ofNat (v % 128 + 128)]) (v / 128) (shift + 7) (acc + v % 128 * 2 ^ shift)
        (by rw [Nat.pow_succ] at hv; omega) h1 h2
      rw [List.append_assoc, List.singleton_append, List.length_append, List.length_singleton] at this
      push_cast at this
      rw [this, hp]
      congr 1
      refine Prod.ext ?_ ?_
      · simp only; omega
      · simp only [List.length_cons]; push_cast; omega
    · rw [if_neg h128]
      have hv : v < 128 := by omega
      have e : (UInt8.ofNat v).toNat = v := by simp; omega
      rw [if_neg (by simp), List.singleton_append, byteAt_append]
      simp only [PRes.ok_bind]
      rw [e, and7f, Nat.mod_eq_of_lt hv, or_shift hacc h64,
        if_pos (show v < 0x80 from hv)]
      simp

theorem readVarint_varint (pre rest : Bytes) {v : Nat} (hv : v < 2 ^ 64) :
    readVarint (pre ++ (varint v ++ rest)) pre.length = .ok (v, pre.length + (varint v).length) := by
  have := readLoop_varint 9 pre rest v 0 0 (lt_trans hv (by norm_num)) (by norm_num) (by simpa using hv)
  simpa [readVarint, varint] using this

theorem varintN_ne_nil (n v : Nat) : varintN n v ≠ [] := by
  cases n <;> unfold varintN
  · exact List.cons_ne_nil _ _
  · split <;> exact List.cons_ne_nil _ _

theorem varint_length_pos (v : Nat) : 0 < (varint v).length :=
  List.length_pos_iff.2 (varintN_ne_nil 9 v)

/-! ### Fields in range -/

/-- The value is one the Go type of the field can hold (and a time the format can hold). -/
def Kind.Fits : Kind → FVal → Prop
  | .u64, .num x => 0 ≤ x ∧ x < 2 ^ 64
  | .u16, .num x => 0 ≤ x ∧ x < 2 ^ 16
  | .i64, .num x => -2 ^ 63 ≤ x ∧ x < 2 ^ 63
  | .i32, .num x => -2 ^ 31 ≤ x ∧ x < 2 ^ 31
  | .bool, .num x => x = 0 ∨ x = 1
  | .bytes, .bs _ => True
  | .int, .int (some x) => x.natAbs < 2 ^ 256
  | .time, .time s ns => timeOk s ns = true
  | _, _ => False

theorem conv_toUint64 {k : Kind} {x : Int} (hk : k.wire = 0) (h : k.Fits (.num x)) :
    k.conv (toUint64 x) = x := by
  cases k with
  | u64 =>
    obtain ⟨h0, h1⟩ := h
    show ((toUint64 x : Nat) : Int) = x
    unfold toUint64; rw [Int.emod_eq_of_lt h0 h1]; omega
  | u16 =>
    obtain ⟨h0, h1⟩ := h
    show ((toUint64 x % 2 ^ 16 : Nat) : Int) = x
    unfold toUint64; rw [Int.emod_eq_of_lt h0 (by omega)]; omega
  | i64 => exact toInt64_toUint64 x h.1 h.2
  | i32 =>
    obtain ⟨h0, h1⟩ := h
    show toInt32 (toUint64 x) = x
    unfold toInt32 toUint64
    split <;> omega
  | bool =>
    show (if toUint64 x = 0 then (0 : Int) else 1) = x
    rcases h with rfl | rfl <;> decide
  | _ => cases hk

theorem toUint64_lt (x : Int) : toUint64 x < 2 ^ 64 := by
  unfold toUint64
  have := Int.emod_lt_of_pos x (show (0 : Int) < 2 ^ 64 by norm_num)
  omega

/-! ### Fields: what is written is read back -/

theorem tag_wire {n wt : Nat} (hw : wt < 8) : (n * 8 + wt) &&& 7 = wt := by
  have : (n * 8 + wt) &&& 7 = (n * 8 + wt) % 8 := Nat.and_two_pow_sub_one_eq_mod _ 3
  omega

theorem tag_num {n wt : Nat} (hn : n < 2 ^ 28) (hw : wt < 8) : toInt32 ((n * 8 + wt) >>> 3) = n := by
  rw [Nat.shiftRight_eq_div_pow, show (n * 8 + wt) / 2 ^ 3 = n by omega]
  unfold toInt32
  rw [if_pos (by omega)]; omega

theorem unmarshalLoop_tag (parse : Kind → Bytes → FVal → PRes FVal) (sch : Schema) (pre rest : Bytes)
    (fuel n wt : Nat) (k : Kind) (m : Fields) (hk : sch.kind n = some k) (hn0 : 0 < n) (hn : n < 2 ^ 28)
    (hw : k.wire = wt) :
    unmarshalLoop parse sch (pre ++ (tag n wt ++ rest)) (fuel + 1) pre.length m =
      (readField parse (pre ++ (tag n wt ++ rest)) k (m n) (pre.length + (tag n wt).length) >>= fun r =>
        unmarshalLoop parse sch (pre ++ (tag n wt ++ rest)) fuel r.2 fun q => if q = n then r.1 else m q) := by
  have hw8 : wt < 8 := by rw [← hw]; cases k <;> decide
  have hw4 : wt ≠ 4 := by rw [← hw]; cases k <;> decide
  have hpos := varint_length_pos (n * 8 + wt)
  have hr := readVarint_varint pre rest (v := n * 8 + wt) (by omega)
  have hlen : ¬ ((pre ++ (tag n wt ++ rest)).length : Int) ≤ pre.length := by
    have : 0 < (tag n wt).length := hpos
    simp only [List.length_append]; push_cast; omega
  conv => lhs; unfold unmarshalLoop
  rw [if_neg hlen]
  rw [show readVarint (pre ++ (tag n wt ++ rest)) pre.length = _ from hr]
  simp only [PRes.ok_bind]
  rw [tag_wire hw8, if_neg hw4, tag_num hn hw8, if_neg (by omega), hk]
  simp only
  rw [if_neg (by rw [hw]; simp)]
  rfl

theorem readField_num (parse : Kind → Bytes → FVal → PRes FVal) (pre rest : Bytes) (k : Kind) (old : FVal) (x : Int)
    (hk : k.wire = 0) :
    readField parse (pre ++ (varint (toUint64 x) ++ rest)) k old pre.length =
      .ok (.num (k.conv (toUint64 x)), pre.length + (varint (toUint64 x)).length) := by
  unfold readField
  rw [if_pos hk, readVarint_varint pre rest (toUint64_lt x)]
  rfl

/-- A value the encoder can write in a field of this kind: a number of any size up to 64 bits (only the low
bits may survive), any bytes, an integer of at most 256 bits, a time in the bounds of timestamps. -/
def Kind.Writable : Kind → FVal → Prop
  | .u64, .num _ | .u16, .num _ | .i64, .num _ | .i32, .num _ | .bool, .num _ => True
  | .bytes, .bs _ => True
  | .int, .int x => (x.getD 0).natAbs < 2 ^ 256
  | .time, .time s ns => timeOk s ns = true
  | _, _ => False

/-- What a written value is read as: a number is cut to the width of the field, a nil integer becomes zero. -/
def Kind.readAs : Kind → FVal → FVal
  | k, .num x => .num (k.conv (toUint64 x))
  | _, .int x => .int (some (x.getD 0))
  | _, v => v

theorem Kind.Fits.writable {k : Kind} {v : FVal} (h : k.Fits v) : k.Writable v := by
  cases k <;> cases v <;> first | exact h.elim | trivial | exact h | skip
  rename_i x
  cases x with
  | none => exact h.elim
  | some x => exact h

theorem Kind.Fits.readAs {k : Kind} {v : FVal} (h : k.Fits v) : k.readAs v = v := by
  cases v with
  | num x =>
    show FVal.num (k.conv (toUint64 x)) = _
    rw [conv_toUint64 (by cases k <;> first | rfl | exact h.elim) h]
  | int x =>
    cases k <;> first | exact h.elim | skip
    cases x with
    | none => exact h.elim
    | some x => rfl
  | bs b => rfl
  | time s ns => rfl

theorem readField_len (parse : Kind → Bytes → FVal → PRes FVal) (pre p rest : Bytes) (k : Kind) (old v : FVal)
    (hk : k.wire = 2) (hp : parse k p old = .ok v) (hlen : (pre ++ (varint p.length ++ (p ++ rest))).length < 2 ^ 63) :
    readField parse (pre ++ (varint p.length ++ (p ++ rest))) k old pre.length =
      .ok (v, pre.length + (varint p.length).length + p.length) := by
  unfold readField
  have hlen' := hlen
  simp only [List.length_append] at hlen'
  rw [if_neg (by rw [hk]; decide), readVarint_varint pre (p ++ rest) (show p.length < 2 ^ 64 by omega)]
  simp only [PRes.ok_bind]
  have e : toInt64 p.length = p.length := by unfold toInt64; rw [if_pos (by omega)]
  have ew : wrap64 ((pre.length : Int) + (varint p.length).length + p.length) =
      (pre.length : Int) + (varint p.length).length + p.length := wrap64_of_lt (by omega) (by omega)
  rw [e, ew, if_neg (by omega), if_neg (by omega), if_neg (by simp only [List.length_append]; push_cast; omega),
    sub_ok (by omega) (by omega) (by simp only [List.length_append]; push_cast; omega)]
  have hd : ((pre ++ (varint p.length ++ (p ++ rest))).drop ((pre.length : Int) + (varint p.length).length).toNat).take
      ((pre.length : Int) + (varint p.length).length + p.length - (pre.length + (varint p.length).length)).toNat = p := by
    rw [show ((pre.length : Int) + (varint p.length).length).toNat = (pre ++ varint p.length).length by
        rw [List.length_append]; omega,
      show ((pre.length : Int) + (varint p.length).length + p.length - (pre.length + (varint p.length).length)).toNat =
        p.length by omega, ← List.append_assoc, List.drop_left, List.take_left]
  rw [hd]
  simp only [PRes.ok_bind]
  rw [hp]
  rfl

/-- The payload of a length-delimited field. -/
def payload : FVal → Bytes
  | .num _ => []
  | .bs b => b
  | .int x => decText (x.getD 0)
  | .time s ns => marshalTime s ns

theorem marshalField_num (n : Nat) {x : Int} (h : x ≠ 0) :
    marshalField n (.num x) = tag n 0 ++ varint (toUint64 x) := if_neg h

theorem marshalField_len {k : Kind} {v : FVal} (n : Nat) (hk : k.wire = 2) (hf : k.Writable v)
    (hne : marshalField n v ≠ []) : marshalField n v = tag n 2 ++ (varint (payload v).length ++ payload v) := by
  cases k <;> cases hk <;> cases v <;> first | exact hf.elim | skip
  · rename_i b
    by_cases hb : b = []
    · exact absurd (if_pos hb : marshalField n (.bs b) = []) hne
    · exact (if_neg hb : marshalField n (.bs b) = marshalLen n b)
  · rfl
  · rfl

theorem wire_cases (k : Kind) : k.wire = 0 ∨ k.wire = 2 := by cases k <;> simp [Kind.wire]

theorem writable_num {k : Kind} {v : FVal} (hk : k.wire = 0) (hf : k.Writable v) : ∃ x, v = .num x := by
  cases k <;> cases hk <;> cases v <;> first | exact ⟨_, rfl⟩ | exact hf.elim

theorem unmarshalLoop_field (parse : Kind → Bytes → FVal → PRes FVal) (sch : Schema) (pre rest : Bytes)
    (fuel n : Nat) (k : Kind) (v : FVal) (m : Fields) (hk : sch.kind n = some k) (hn0 : 0 < n) (hn : n < 2 ^ 28)
    (hf : k.Writable v) (hne : marshalField n v ≠ [])
    (hp : k.wire = 2 → ∀ old, parse k (payload v) old = .ok (k.readAs v))
    (hlen : (pre ++ (marshalField n v ++ rest)).length < 2 ^ 63) :
    unmarshalLoop parse sch (pre ++ (marshalField n v ++ rest)) (fuel + 1) pre.length m =
      unmarshalLoop parse sch (pre ++ (marshalField n v ++ rest)) fuel (pre.length + (marshalField n v).length)
        fun q => if q = n then k.readAs v else m q := by
  rcases wire_cases k with hw | hw
  · obtain ⟨x, rfl⟩ := writable_num hw hf
    have hx : x ≠ 0 := fun e => hne (if_pos e)
    rw [marshalField_num n hx, List.append_assoc, unmarshalLoop_tag parse sch pre _ fuel n 0 k m hk hn0 hn hw]
    have := readField_num parse (pre ++ tag n 0) rest k (m n) x hw
    rw [List.append_assoc, List.length_append] at this
    push_cast at this
    rw [this]
    simp only [PRes.ok_bind, List.length_append]
    push_cast
    rw [← Int.add_assoc]
    rfl
  · have e := marshalField_len n hw hf hne
    rw [e] at hlen ⊢
    rw [List.append_assoc, List.append_assoc] at hlen ⊢
    rw [unmarshalLoop_tag parse sch pre _ fuel n 2 k m hk hn0 hn hw]
    have := readField_len parse (pre ++ tag n 2) (payload v) rest k (m n) (k.readAs v) hw (hp hw _)
      (by rw [List.append_assoc]; exact hlen)
    rw [List.append_assoc, List.length_append] at this
    push_cast at this
    rw [this]
    simp only [PRes.ok_bind, List.length_append]
    push_cast
    rw [← Int.add_assoc, ← Int.add_assoc]

theorem marshalField_nil {k : Kind} {v : FVal} {n : Nat} (hf : k.Writable v) (h : marshalField n v = []) :
    k.readAs v = k.zero := by
  have htag : ∀ wt (l : Bytes), tag n wt ++ l ≠ [] := fun wt l e =>
    varintN_ne_nil 9 _ (List.append_eq_nil_iff.1 e).1
  rcases wire_cases k with hw | hw
  · obtain ⟨x, rfl⟩ := writable_num hw hf
    by_cases hx : x = 0
    · subst hx; cases k <;> first | rfl | cases hw
    · rw [marshalField_num n hx] at h; exact absurd h (htag _ _)
  · cases k <;> cases hw <;> cases v <;> first | exact hf.elim | skip
    · rename_i b
      by_cases hb : b = []
      · rw [hb]; rfl
      · exact absurd ((if_neg hb : marshalField n (.bs b) = marshalLen n b).symm.trans h) (htag _ _)
    · exact absurd h (htag _ _)
    · exact absurd h (htag _ _)

/-- A schema the generator accepts: field numbers are positive, not too large, and distinct. -/
def Schema.WF (sch : Schema) : Prop := (∀ e ∈ sch, 0 < e.1 ∧ e.1 < 2 ^ 28) ∧ (sch.map Prod.fst).Nodup

theorem kind_of_mem {sch : Schema} (h : (sch.map Prod.fst).Nodup) {n : Nat} {k : Kind} (hm : (n, k) ∈ sch) :
    sch.kind n = some k := by
  unfold Schema.kind
  induction sch with
  | nil => cases hm
  | cons e t ih =>
    rw [List.map_cons, List.nodup_cons] at h
    by_cases he : ((e.1 : Int) = n)
    · rw [List.find?_cons_of_pos (by simpa using he)]
      rcases List.mem_cons.1 hm with rfl | hm
      · rfl
      · exact absurd (List.mem_map_of_mem (f := Prod.fst) hm) (by
          have : e.1 = n := by omega
          rw [← this]; exact h.1)
    · rw [List.find?_cons_of_neg (by simpa using he)]
      rcases List.mem_cons.1 hm with rfl | hm
      · exact absurd rfl he
      · exact ih h.2 hm

/-- Reading what was written, from some field on. -/
theorem unmarshalLoop_marshal (parse : Kind → Bytes → FVal → PRes FVal) (sch : Schema) (hs : sch.WF) (v : Fields)
    (hp : ∀ e ∈ sch, e.2.wire = 2 → ∀ old, parse e.2 (payload (v e.1)) old = .ok (e.2.readAs (v e.1))) (sch2 : Schema)
    (hsub : ∀ e ∈ sch2, e ∈ sch) (hnd : (sch2.map Prod.fst).Nodup) (hfit : ∀ e ∈ sch2, e.2.Writable (v e.1))
    (pre : Bytes) (fuel : Nat) (m : Fields) (hz : ∀ e ∈ sch2, m e.1 = e.2.zero)
    (hlen : (pre ++ marshal sch2 v).length < 2 ^ 63) (hfuel : (marshal sch2 v).length < fuel) :
    ∃ m', unmarshalLoop parse sch (pre ++ marshal sch2 v) fuel pre.length m = .ok m' ∧
      (∀ e ∈ sch2, m' e.1 = e.2.readAs (v e.1)) ∧ ∀ q, q ∉ sch2.map Prod.fst → m' q = m q := by
  induction sch2 generalizing pre fuel m with
  | nil =>
    obtain ⟨f, rfl⟩ : ∃ f, fuel = f + 1 := ⟨fuel - 1, by simp [marshal] at hfuel; omega⟩
    refine ⟨m, ?_, fun e he => (by cases he), fun _ _ => rfl⟩
    unfold unmarshalLoop
    rw [if_pos (by simp [marshal]), if_neg (by simp [marshal])]
  | cons e t ih =>
    obtain ⟨n, k⟩ := e
    rw [List.map_cons, List.nodup_cons] at hnd
    have hmem := hsub (n, k) List.mem_cons_self
    have hf := hfit (n, k) List.mem_cons_self
    have hsplit : marshal ((n, k) :: t) v = marshalField n (v n) ++ marshal t v := rfl
    have htail : ∀ e ∈ t, e.1 ≠ n := fun e he h => hnd.1 (by
      have := List.mem_map_of_mem (f := Prod.fst) he
      rwa [h] at this)
    rw [hsplit] at hlen hfuel ⊢
    by_cases hnil : marshalField n (v n) = []
    · rw [hnil, List.nil_append] at hlen hfuel ⊢
      obtain ⟨m', h1, h2, h3⟩ := ih (fun e he => hsub e (List.mem_cons_of_mem _ he)) hnd.2
        (fun e he => hfit e (List.mem_cons_of_mem _ he)) pre fuel m (fun e he => hz e (List.mem_cons_of_mem _ he))
        hlen hfuel
      refine ⟨m', h1, fun e he => ?_, fun q hq => h3 q fun h => hq (List.mem_cons_of_mem _ h)⟩
      rcases List.mem_cons.1 he with rfl | he
      · rw [h3 n hnd.1, hz (n, k) List.mem_cons_self]
        exact (marshalField_nil hf hnil).symm
      · exact h2 e he
    · have hpos : 0 < (marshalField n (v n)).length := List.length_pos_iff.2 hnil
      obtain ⟨f, rfl⟩ : ∃ f, fuel = f + 1 := ⟨fuel - 1, by omega⟩
      rw [unmarshalLoop_field parse sch pre (marshal t v) f n k (v n) m (kind_of_mem hs.2 hmem) (hs.1 _ hmem).1
        (hs.1 _ hmem).2 hf hnil (hp _ hmem) hlen]
      have hlen2 : ((pre ++ marshalField n (v n)) ++ marshal t v).length < 2 ^ 63 := by
        rw [List.append_assoc]; exact hlen
      have hf2 : (marshal t v).length < f := by
        rw [List.length_append] at hfuel; omega
      obtain ⟨m', h1, h2, h3⟩ := ih (fun e he => hsub e (List.mem_cons_of_mem _ he)) hnd.2
        (fun e he => hfit e (List.mem_cons_of_mem _ he)) (pre ++ marshalField n (v n)) f
        (fun q => if q = n then k.readAs (v n) else m q)
        (fun e he => by rw [if_neg (htail e he)]; exact hz e (List.mem_cons_of_mem _ he)) hlen2 hf2
      rw [List.append_assoc, List.length_append] at h1
      push_cast at h1
      refine ⟨m', h1, fun e he => ?_, fun q hq => ?_⟩
      · rcases List.mem_cons.1 he with rfl | he
        · rw [h3 n hnd.1, if_pos rfl]
        · exact h2 e he
      · rw [h3 q fun h => hq (List.mem_cons_of_mem _ h), if_neg fun h : q = n => hq (by rw [h]; exact List.mem_cons_self)]

/-! ### Times -/

theorem timestampSchema_wf : timestampSchema.WF := by
  constructor
  · intro e he
    simp only [timestampSchema, List.mem_cons, List.not_mem_nil, or_false] at he
    rcases he with rfl | rfl <;> decide
  · decide

theorem varintN_length_le (n v : Nat) : (varintN n v).length ≤ n + 1 := by
  induction n generalizing v with
  | zero => exact le_refl _
  | succ n ih =>
    unfold varintN
    split
    · rw [List.length_cons]; have := ih (v / 128); omega
    · simp

theorem varint_length_le (v : Nat) : (varint v).length ≤ 10 := varintN_length_le 9 v

theorem marshalTime_length (s ns : Int) : (marshalTime s ns).length ≤ 40 := by
  have h : ∀ n (x : Int), (marshalNum n x).length ≤ 20 := by
    intro n x
    unfold marshalNum tag
    split
    · simp
    · rw [List.length_append]
      have := varint_length_le (n * 8 + 0)
      have := varint_length_le (toUint64 x)
      omega
  unfold marshalTime
  rw [List.length_append]
  have := h 1 s
  have := h 2 ns
  omega

theorem readTime_marshalTime {s ns : Int} (h : timeOk s ns = true) : readTime (marshalTime s ns) = .ok (.time s ns) := by
  have hb : -62135596800 ≤ s ∧ s < 253402300800 ∧ 0 ≤ ns ∧ ns < 1000000000 := by
    unfold timeOk at h; exact of_decide_eq_true h
  let v : Fields := fun n => if n = 1 then .num s else .num ns
  have hv : marshal timestampSchema v = marshalTime s ns := by
    show marshalNum 1 s ++ (marshalNum 2 ns ++ []) = _
    rw [List.append_nil]; rfl
  have hl := marshalTime_length s ns
  obtain ⟨m', h1, h2, _⟩ := unmarshalLoop_marshal noParse timestampSchema timestampSchema_wf v
    (by
      intro e he
      simp only [timestampSchema, List.mem_cons, List.not_mem_nil, or_false] at he
      rcases he with rfl | rfl <;> exact fun h => nomatch h)
    timestampSchema (fun _ h => h) timestampSchema_wf.2
    (by
      intro e he
      simp only [timestampSchema, List.mem_cons, List.not_mem_nil, or_false] at he
      rcases he with rfl | rfl <;> trivial)
    [] ((marshalTime s ns).length + 1) timestampSchema.zero
    (by
      intro e he
      simp only [timestampSchema, List.mem_cons, List.not_mem_nil, or_false] at he
      rcases he with rfl | rfl <;> rfl)
    (by rw [List.nil_append, hv]; omega) (by rw [hv]; omega)
  rw [List.nil_append, hv] at h1
  unfold readTime
  rw [show unmarshalLoop noParse timestampSchema (marshalTime s ns) ((marshalTime s ns).length + 1) 0
    timestampSchema.zero = .ok m' from h1]
  simp only [PRes.ok_bind]
  have e1 : m' 1 = .num s := (h2 (1, .i64) (by simp [timestampSchema])).trans
    (Kind.Fits.readAs (k := .i64) (v := .num s) (show -2 ^ 63 ≤ s ∧ s < 2 ^ 63 by omega))
  have e2 : m' 2 = .num ns := (h2 (2, .i32) (by simp [timestampSchema])).trans
    (Kind.Fits.readAs (k := .i32) (v := .num ns) (show -2 ^ 31 ≤ ns ∧ ns < 2 ^ 31 by omega))
  rw [e1, e2]
  show (if timeOk s ns = true then _ else _) = _
  rw [if_pos h]
  rfl

theorem digits_ne_nil (f n : Nat) : digits f n ≠ [] := by
  cases f <;> unfold digits
  · exact List.cons_ne_nil _ _
  · split
    · exact List.cons_ne_nil _ _
    · exact List.append_ne_nil_of_right_ne_nil _ (List.cons_ne_nil _ _)

theorem decText_ne_nil (x : Int) : decText x ≠ [] := by
  unfold decText; split
  · exact List.cons_ne_nil _ _
  · exact digits_ne_nil _ _

theorem parsePayload_payload (T : IntText) {k : Kind} {v : FVal} (hk : k.wire = 2) (hf : k.Writable v) (old : FVal) :
    parsePayload T k (payload v) old = .ok (k.readAs v) := by
  cases k <;> cases hk <;> cases v <;> first | exact hf.elim | skip
  · rfl
  · rename_i x
    show (if decText (x.getD 0) = [] then _ else _) = _
    rw [if_neg (decText_ne_nil _), show T.read (payload (.int x)) = some (x.getD 0) from T.read_dec _]
    exact if_pos hf
  · exact readTime_marshalTime hf

/-- What is read from the encoding of a message. -/
theorem unmarshal_marshal_readAs (T : IntText) {sch : Schema} (hs : sch.WF) {v : Fields}
    (hf : ∀ e ∈ sch, e.2.Writable (v e.1)) (hlen : (marshal sch v).length < 2 ^ 63) :
    ∃ m, unmarshal T sch (marshal sch v) = .ok m ∧ ∀ e ∈ sch, m e.1 = e.2.readAs (v e.1) := by
  obtain ⟨m', h1, h2, _⟩ := unmarshalLoop_marshal (parsePayload T) sch hs v
    (fun e he hw old => parsePayload_payload T hw (hf e he) old) sch (fun _ h => h) hs.2 hf []
    ((marshal sch v).length + 1) sch.zero
    (fun e he => by
      unfold Schema.zero
      rw [kind_of_mem hs.2 (show (e.1, e.2) ∈ sch from he)])
    (by rw [List.nil_append]; exact hlen) (by omega)
  exact ⟨m', by rw [List.nil_append] at h1; exact h1, h2⟩

/-- A message whose fields are in range is read back from its encoding. -/
theorem unmarshal_marshal (T : IntText) {sch : Schema} (hs : sch.WF) {v : Fields}
    (hf : ∀ e ∈ sch, e.2.Fits (v e.1)) (hlen : (marshal sch v).length < 2 ^ 63) :
    ∃ m, unmarshal T sch (marshal sch v) = .ok m ∧ ∀ e ∈ sch, m e.1 = v e.1 := by
  obtain ⟨m, h1, h2⟩ := unmarshal_marshal_readAs T hs (fun e he => (hf e he).writable) hlen
  exact ⟨m, h1, fun e he => (h2 e he).trans (hf e he).readAs⟩

/-! ### Sizes -/

theorem or_one_div (v : Nat) : (v ||| 1) / 2 = v / 2 := by
  rw [← Nat.shiftRight_one, ← Nat.shiftRight_one, Nat.shiftRight_or_distrib]
  simp

theorem log2_or_one (v : Nat) (h : v ≠ 0) : (v ||| 1).log2 = v.log2 := by
  by_cases h1 : v = 1
  · rw [h1, Nat.or_self]
  have h2 : 2 ≤ v := by omega
  have h3 : 2 ≤ v ||| 1 := le_trans h2 Nat.left_le_or
  rw [Nat.log2_def (v ||| 1), Nat.log2_def v, if_pos h3, if_pos h2, or_one_div]

theorem log2_div128 (v : Nat) (h : 128 ≤ v) : v.log2 = (v / 128).log2 + 7 := by
  rw [Nat.log2_eq_log_two, Nat.log2_eq_log_two, show (128 : Nat) = 2 ^ 7 from rfl, Nat.log_div_base_pow]
  have : 7 ≤ Nat.log 2 v := Nat.le_log_of_pow_le (by norm_num) h
  omega

theorem sov_lt128 {v : Nat} (h : v < 128) : sov v = 1 := by
  unfold sov
  have h1 : (v ||| 1) < 2 ^ 7 := Nat.or_lt_two_pow h (by norm_num)
  have h2 : (v ||| 1) ≠ 0 := by
    have : 1 ≤ v ||| 1 := Nat.right_le_or
    omega
  have : (v ||| 1).log2 < 7 := (Nat.log2_lt h2).2 h1
  omega

theorem sov_div128 {v : Nat} (h : 128 ≤ v) : sov v = sov (v / 128) + 1 := by
  unfold sov
  rw [log2_or_one v (by omega), log2_or_one (v / 128) (by omega), log2_div128 v h]
  omega

theorem varintN_length (n v : Nat) (h : v < 128 ^ (n + 1)) : (varintN n v).length = sov v := by
  induction n generalizing v with
  | zero => rw [sov_lt128 (by omega)]; rfl
  | succ n ih =>
    unfold varintN
    split
    · rename_i hv
      rw [List.length_cons, ih _ (by rw [Nat.pow_succ] at h; omega), sov_div128 hv]
    · rw [sov_lt128 (by omega)]; rfl

theorem varint_length {v : Nat} (h : v < 2 ^ 64) : (varint v).length = sov v :=
  varintN_length 9 v (lt_trans h (by norm_num))

theorem tag_length {n wt : Nat} (hn : n < 16) (hw : wt < 8) : (tag n wt).length = 1 := by
  unfold tag; rw [varint_length (by omega), sov_lt128 (by omega)]

theorem marshalField_length {n : Nat} (hn : n < 16) (v : FVal) (h : (marshalField n v).length < 2 ^ 63) :
    (marshalField n v).length = sizeField v := by
  have len : ∀ b : Bytes, (marshalLen n b).length < 2 ^ 63 → (marshalLen n b).length = 1 + b.length + sov b.length := by
    intro b hb
    unfold marshalLen at hb ⊢
    rw [List.length_append, List.length_append] at hb ⊢
    rw [tag_length hn (by omega), varint_length (by omega)]
    omega
  cases v with
  | num x =>
    show (marshalNum n x).length = if x = 0 then 0 else _
    unfold marshalNum
    split
    · rfl
    · rw [List.length_append, tag_length hn (by omega), varint_length (toUint64_lt x)]
  | bs b =>
    by_cases hb : b = []
    · subst hb; rfl
    · have e1 : marshalField n (.bs b) = marshalLen n b := if_neg hb
      have e2 : sizeField (.bs b) = 1 + b.length + sov b.length := if_neg hb
      rw [e1, e2]
      exact len b (by rw [← e1]; exact h)
  | int x => exact len _ h
  | time s ns => exact len _ h

theorem marshal_length {sch : Schema} (hn : ∀ e ∈ sch, e.1 < 16) (v : Fields) (h : (marshal sch v).length < 2 ^ 63) :
    (marshal sch v).length = size sch v := by
  induction sch with
  | nil => rfl
  | cons e t ih =>
    have e1 : marshal (e :: t) v = marshalField e.1 (v e.1) ++ marshal t v := rfl
    rw [e1, List.length_append] at h ⊢
    have e2 : size (e :: t) v = sizeField (v e.1) + size t v := by
      unfold size; rw [List.map_cons, List.sum_cons]
    rw [e2, marshalField_length (hn e List.mem_cons_self) _ (by omega),
      ih (fun x hx => hn x (List.mem_cons_of_mem _ hx)) (by omega)]

end Dollar.Proto
