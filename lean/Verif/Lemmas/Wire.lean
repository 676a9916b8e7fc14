import Verif.Lemmas.Proto
import Verif.Lemmas.Codec
import Verif.Lemmas.GoInt
import Verif.Model.Wire

/-
Lemmas about the schemas: decimal text, unknown fields, strings.
-/
namespace Dollar.Proto

/-! ### Decimal text -/

/-- The parser of Go (`Lemmas/GoInt`). -/
def decimal : IntText := GoInt.goText

theorem digits_length (f n k : Nat) (hk : 0 < k) (h : n < 10 ^ k) : (digits f n).length ≤ k := by
  induction f generalizing n k with
  | zero => exact hk
  | succ f ih =>
    unfold digits
    split
    · exact hk
    · rename_i h10
      obtain ⟨j, rfl⟩ : ∃ j, k = j + 1 := ⟨k - 1, by omega⟩
      have hj : 0 < j := by
        rcases Nat.eq_zero_or_pos j with rfl | hj
        · simp only [Nat.zero_add, Nat.pow_one] at h; omega
        · exact hj
      have : n / 10 < 10 ^ j := by
        rw [Nat.pow_succ] at h
        exact Nat.div_lt_of_lt_mul (by omega)
      rw [List.length_append]
      have := ih (n / 10) j hj this
      simp only [List.length_cons, List.length_nil]
      omega

theorem decText_length {x : Int} (h : x.natAbs < 2 ^ 256) : (decText x).length ≤ 79 := by
  have := digits_length x.natAbs x.natAbs 78 (by omega) (by
    refine Nat.lt_of_lt_of_le h ?_
    decide)
  unfold decText
  split
  · rw [List.length_cons]; omega
  · omega

/-! ### Strings -/

/-- A string of characters with codes below 256. -/
def Latin (s : String) : Prop := ∀ ch ∈ s.toList, ch.toNat < 256

instance (s : String) : Decidable (Latin s) := inferInstanceAs (Decidable (∀ ch ∈ s.toList, ch.toNat < 256))

theorem str_ascii {s : String} (h : Latin s) : str (ascii s) = s := by
  unfold str ascii
  rw [List.map_map]
  have : (List.map ((fun x : UInt8 => Char.ofNat x.toNat) ∘ fun ch : Char => UInt8.ofNat ch.toNat) s.toList) = s.toList := by
    conv => rhs; rw [← List.map_id s.toList]
    refine List.map_congr_left fun ch hc => ?_
    have h2 := h ch hc
    show Char.ofNat (UInt8.ofNat ch.toNat).toNat = ch
    rw [UInt8.toNat_ofNat', Nat.mod_eq_of_lt (by omega)]
    exact Char.ofNat_toNat ch
  rw [this]
  exact String.ofList_toList

/-! ### Field lengths -/

theorem tag_length_le (n wt : Nat) : (tag n wt).length ≤ 10 := varint_length_le _

theorem marshalNum_length_le (n : Nat) (x : Int) : (marshalNum n x).length ≤ 20 := by
  unfold marshalNum
  split
  · simp
  · rw [List.length_append]
    have := tag_length_le n 0
    have := varint_length_le (toUint64 x)
    omega

theorem marshalInt_length_le (n : Nat) {x : Int} (h : x.natAbs < 2 ^ 256) :
    (marshalField n (.int (some x))).length ≤ 99 := by
  show (tag n 2 ++ (varint (decText x).length ++ decText x)).length ≤ 99
  rw [List.length_append, List.length_append]
  have := tag_length_le n 2
  have := varint_length_le (decText x).length
  have := decText_length h
  omega

theorem marshalTimeField_length_le (n : Nat) (s ns : Int) : (marshalField n (.time s ns)).length ≤ 60 := by
  show (tag n 2 ++ (varint (marshalTime s ns).length ++ marshalTime s ns)).length ≤ 60
  rw [List.length_append, List.length_append]
  have := tag_length_le n 2
  have := varint_length_le (marshalTime s ns).length
  have := marshalTime_length s ns
  omega

/-! ### Unknown fields -/

theorem readVarint_at (pre rest : Bytes) {v : Nat} (hv : v < 2 ^ 64) {i : Int} (hi : i = pre.length) :
    readVarint (pre ++ (varint v ++ rest)) i = .ok (v, i + (varint v).length) := by
  subst hi; exact readVarint_varint pre rest hv

theorem skip_field {k : Kind} {v : FVal} {n : Nat} (hn : n < 2 ^ 28) (hf : k.Writable v) (hne : marshalField n v ≠ [])
    (rest : Bytes) (hlen : (marshalField n v ++ rest).length < 2 ^ 63) :
    skip (marshalField n v ++ rest) = .ok (marshalField n v).length := by
  have hpos : 0 < (marshalField n v).length := List.length_pos_iff.2 hne
  unfold skip skipLoop
  rw [if_neg (by rw [List.length_append]; push_cast; omega)]
  rcases wire_cases k with hw | hw
  · obtain ⟨x, rfl⟩ := writable_num hw hf
    have hx : x ≠ 0 := fun e => hne (if_pos e)
    rw [marshalField_num n hx, List.append_assoc]
    have h1 : readVarint (tag n 0 ++ (varint (toUint64 x) ++ rest)) 0 = .ok (n * 8 + 0, 0 + (tag n 0).length) :=
      readVarint_at [] _ (v := n * 8 + 0) (by omega) rfl
    rw [h1]
    simp only [PRes.ok_bind]
    rw [tag_wire (by omega)]
    have h2 : readVarint (tag n 0 ++ (varint (toUint64 x) ++ rest)) (0 + (tag n 0).length) =
        .ok (toUint64 x, 0 + (tag n 0).length + (varint (toUint64 x)).length) :=
      readVarint_at (tag n 0) rest (toUint64_lt x) (by omega)
    unfold skipBody
    simp only
    rw [h2]
    simp only [PRes.ok_bind]
    rw [if_neg (by omega)]
    simp
  · have e := marshalField_len n hw hf hne
    rw [e] at hlen ⊢
    simp only [List.length_append] at hlen
    rw [List.append_assoc, List.append_assoc]
    have h1 : readVarint (tag n 2 ++ (varint (payload v).length ++ (payload v ++ rest))) 0 =
        .ok (n * 8 + 2, 0 + (tag n 2).length) := readVarint_at [] _ (v := n * 8 + 2) (by omega) rfl
    rw [h1]
    simp only [PRes.ok_bind]
    rw [tag_wire (by omega)]
    have h2 : readVarint (tag n 2 ++ (varint (payload v).length ++ (payload v ++ rest))) (0 + (tag n 2).length) =
        .ok ((payload v).length, 0 + (tag n 2).length + (varint (payload v).length).length) :=
      readVarint_at (tag n 2) _ (by omega) (by omega)
    unfold skipBody
    simp only
    rw [h2]
    simp only [PRes.ok_bind]
    have e64 : toInt64 (payload v).length = (payload v).length := by unfold toInt64; rw [if_pos (by omega)]
    rw [e64, if_neg (by omega)]
    simp only [PRes.ok_bind]
    rw [wrap64_of_lt (by omega) (by omega), if_neg (by omega)]
    simp [Int.add_assoc]

theorem skipField_field {k : Kind} {v : FVal} {n : Nat} (hn : n < 2 ^ 28) (hf : k.Writable v)
    (hne : marshalField n v ≠ []) (pre rest : Bytes) (hlen : (pre ++ (marshalField n v ++ rest)).length < 2 ^ 63) :
    skipField (pre ++ (marshalField n v ++ rest)) pre.length = .ok (pre.length + (marshalField n v).length) := by
  unfold skipField
  rw [sub_ok (by omega) (by rw [List.length_append]; omega) (le_refl _)]
  simp only [PRes.ok_bind]
  have hd : List.take (((pre ++ (marshalField n v ++ rest)).length : Int) - pre.length).toNat
      (List.drop (pre.length : Int).toNat (pre ++ (marshalField n v ++ rest))) = marshalField n v ++ rest := by
    rw [show ((pre.length : Int)).toNat = pre.length by omega, List.drop_left, List.take_of_length_le]
    simp only [List.length_append]; omega
  have hl := hlen
  simp only [List.length_append] at hl
  rw [hd, skip_field hn hf hne rest (by rw [List.length_append]; omega)]
  simp only [PRes.ok_bind]
  rw [wrap64_of_lt (by omega) (by omega), if_neg (by omega), if_neg (by simp only [List.length_append]; push_cast; omega)]

theorem unmarshalLoop_skip (parse : Kind → Bytes → FVal → PRes FVal) (sch : Schema) (pre rest : Bytes)
    (fuel n : Nat) (k : Kind) (v : FVal) (m : Fields) (hk : sch.kind n = none) (hn0 : 0 < n) (hn : n < 2 ^ 28)
    (hf : k.Writable v) (hne : marshalField n v ≠ [])
    (hlen : (pre ++ (marshalField n v ++ rest)).length < 2 ^ 63) :
    unmarshalLoop parse sch (pre ++ (marshalField n v ++ rest)) (fuel + 1) pre.length m =
      unmarshalLoop parse sch (pre ++ (marshalField n v ++ rest)) fuel (pre.length + (marshalField n v).length) m := by
  have hpos : 0 < (marshalField n v).length := List.length_pos_iff.2 hne
  conv => lhs; unfold unmarshalLoop
  rw [if_neg (by simp only [List.length_append]; push_cast; omega)]
  obtain ⟨wt, r, hw8, hw4, e⟩ : ∃ wt r, wt < 8 ∧ wt ≠ 4 ∧ marshalField n v = tag n wt ++ r := by
    rcases wire_cases k with hw | hw
    · obtain ⟨x, rfl⟩ := writable_num hw hf
      have hx : x ≠ 0 := fun e => hne (if_pos e)
      exact ⟨0, _, by omega, by omega, marshalField_num n hx⟩
    · exact ⟨2, _, by omega, by omega, marshalField_len n hw hf hne⟩
  have hr : readVarint (pre ++ (marshalField n v ++ rest)) pre.length = .ok (n * 8 + wt, pre.length + (tag n wt).length) := by
    rw [e, List.append_assoc]
    exact readVarint_varint pre _ (by omega)
  rw [hr]
  simp only [PRes.ok_bind]
  rw [tag_wire hw8, if_neg hw4, tag_num hn hw8, if_neg (by omega), hk]
  simp only
  rw [skipField_field hn hf hne pre rest hlen]
  rfl

/-- Reading what was written with further fields that the reader does not know. -/
theorem unmarshalLoop_more (parse : Kind → Bytes → FVal → PRes FVal) (sch : Schema) (hs : sch.WF) (v : Fields)
    (hp : ∀ e ∈ sch, e.2.wire = 2 → ∀ old, parse e.2 (payload (v e.1)) old = .ok (e.2.readAs (v e.1))) (sch2 : Schema)
    (hsub : ∀ e ∈ sch2, e ∈ sch ∨ (sch.kind e.1 = none ∧ 0 < e.1 ∧ e.1 < 2 ^ 28)) (hnd : (sch2.map Prod.fst).Nodup)
    (hfit : ∀ e ∈ sch2, e.2.Writable (v e.1)) (pre : Bytes) (fuel : Nat) (m : Fields)
    (hz : ∀ e ∈ sch2, e ∈ sch → m e.1 = e.2.zero)
    (hlen : (pre ++ marshal sch2 v).length < 2 ^ 63) (hfuel : (marshal sch2 v).length < fuel) :
    ∃ m', unmarshalLoop parse sch (pre ++ marshal sch2 v) fuel pre.length m = .ok m' ∧
      (∀ e ∈ sch2, e ∈ sch → m' e.1 = e.2.readAs (v e.1)) ∧ ∀ q, q ∉ sch2.map Prod.fst → m' q = m q := by
  induction sch2 generalizing pre fuel m with
  | nil =>
    obtain ⟨f, rfl⟩ : ∃ f, fuel = f + 1 := ⟨fuel - 1, by simp [marshal] at hfuel; omega⟩
    refine ⟨m, ?_, fun e he => (by cases he), fun _ _ => rfl⟩
    unfold unmarshalLoop
    rw [if_pos (by simp [marshal]), if_neg (by simp [marshal])]
  | cons e t ih =>
    obtain ⟨n, k⟩ := e
    rw [List.map_cons, List.nodup_cons] at hnd
    have hf := hfit (n, k) List.mem_cons_self
    have hsplit : marshal ((n, k) :: t) v = marshalField n (v n) ++ marshal t v := rfl
    have htail : ∀ e ∈ t, e.1 ≠ n := fun e he h => hnd.1 (by
      have := List.mem_map_of_mem (f := Prod.fst) he
      rwa [h] at this)
    rw [hsplit] at hlen hfuel ⊢
    by_cases hnil : marshalField n (v n) = []
    · rw [hnil, List.nil_append] at hlen hfuel ⊢
      obtain ⟨m', h1, h2, h3⟩ := ih (fun e he => hsub e (List.mem_cons_of_mem _ he)) hnd.2
        (fun e he => hfit e (List.mem_cons_of_mem _ he)) pre fuel m (fun e he => hz e (List.mem_cons_of_mem _ he))
        hlen hfuel
      refine ⟨m', h1, fun e he hm => ?_, fun q hq => h3 q fun h => hq (List.mem_cons_of_mem _ h)⟩
      rcases List.mem_cons.1 he with rfl | he
      · rw [h3 n hnd.1, hz (n, k) List.mem_cons_self hm]
        exact (marshalField_nil hf hnil).symm
      · exact h2 e he hm
    · have hpos : 0 < (marshalField n (v n)).length := List.length_pos_iff.2 hnil
      obtain ⟨f, rfl⟩ : ∃ f, fuel = f + 1 := ⟨fuel - 1, by omega⟩
      have hlen2 : ((pre ++ marshalField n (v n)) ++ marshal t v).length < 2 ^ 63 := by
        rw [List.append_assoc]; exact hlen
      have hf2 : (marshal t v).length < f := by
        rw [List.length_append] at hfuel; omega
      by_cases hmem : (n, k) ∈ sch
      · rw [unmarshalLoop_field parse sch pre (marshal t v) f n k (v n) m (kind_of_mem hs.2 hmem) (hs.1 _ hmem).1
          (hs.1 _ hmem).2 hf hnil (hp _ hmem) hlen]
        obtain ⟨m', h1, h2, h3⟩ := ih (fun e he => hsub e (List.mem_cons_of_mem _ he)) hnd.2
          (fun e he => hfit e (List.mem_cons_of_mem _ he)) (pre ++ marshalField n (v n)) f
          (fun q => if q = n then k.readAs (v n) else m q)
          (fun e he hm => by rw [if_neg (htail e he)]; exact hz e (List.mem_cons_of_mem _ he) hm) hlen2 hf2
        rw [List.append_assoc, List.length_append] at h1
        push_cast at h1
        refine ⟨m', h1, fun e he hm => ?_, fun q hq => ?_⟩
        · rcases List.mem_cons.1 he with rfl | he
          · rw [h3 n hnd.1, if_pos rfl]
          · exact h2 e he hm
        · rw [h3 q fun h => hq (List.mem_cons_of_mem _ h),
            if_neg fun h : q = n => hq (by rw [h]; exact List.mem_cons_self)]
      · obtain ⟨hk, hn0, hn⟩ := (hsub (n, k) List.mem_cons_self).resolve_left hmem
        rw [unmarshalLoop_skip parse sch pre (marshal t v) f n k (v n) m hk hn0 hn hf hnil hlen]
        obtain ⟨m', h1, h2, h3⟩ := ih (fun e he => hsub e (List.mem_cons_of_mem _ he)) hnd.2
          (fun e he => hfit e (List.mem_cons_of_mem _ he)) (pre ++ marshalField n (v n)) f m
          (fun e he hm => hz e (List.mem_cons_of_mem _ he) hm) hlen2 hf2
        rw [List.append_assoc, List.length_append] at h1
        push_cast at h1
        refine ⟨m', h1, fun e he hm => ?_, fun q hq => h3 q fun h => hq (List.mem_cons_of_mem _ h)⟩
        rcases List.mem_cons.1 he with rfl | he
        · exact absurd hm hmem
        · exact h2 e he hm

end Dollar.Proto
