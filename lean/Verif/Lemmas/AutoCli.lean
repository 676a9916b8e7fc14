import Verif.Spec.AutoCli
import Verif.Props.C75
import Verif.Props.C99
import Verif.Props.C116
import Verif.Lemmas.Events

/-
Lemmas for C118: reading a message whose fields were set by a client that does not know the types of the chain, and the texts of the
arguments.
-/
namespace Dollar.AutoCli

open Proto Spec Spec.Shell

/-! ### Messages -/

/-- What a field is read as. -/
def fieldRead (T : IntText) (k : Kind) : FVal → PRes FVal
  | .num x => .ok (.num (k.conv (toUint64 x)))
  | .bs b => parsePayload T k b k.zero
  | _ => .err

/-- A field as a client sets it. -/
def Loose (k : Kind) (v : FVal) : Prop :=
  (k.wire = 0 ∧ ∃ x, v = .num x) ∨ ((k = .bytes ∨ k = .int) ∧ ∃ b, v = .bs b)

theorem readField_err (parse : Kind → Bytes → FVal → PRes FVal) (pre p rest : Bytes) (k : Kind) (old : FVal)
    (hk : k.wire = 2) (hp : parse k p old = .err) (hlen : (pre ++ (varint p.length ++ (p ++ rest))).length < 2 ^ 63) :
    readField parse (pre ++ (varint p.length ++ (p ++ rest))) k old pre.length = .err := by
  unfold readField
  have hlen' := hlen
  simp only [List.length_append] at hlen'
  rw [if_neg (by rw [hk]; decide), readVarint_varint pre (p ++ rest) (show p.length < 2 ^ 64 by omega)]
  simp only [PRes.ok_bind]
  have e : toInt64 p.length = p.length := by unfold toInt64; rw [if_pos (by omega)]
  have ew : wrap64 ((pre.length : Int) + (varint p.length).length + p.length) =
      (pre.length : Int) + (varint p.length).length + p.length := wrap64_of_lt (by omega) (by omega)
  rw [e, ew, if_neg (by omega), if_neg (by omega), if_neg (by simp only [List.length_append]; push_cast; omega),
    sub_ok (by omega) (by omega) (by simp only [List.length_append]; push_cast; omega)]
  have hd : ((pre ++ (varint p.length ++ (p ++ rest))).drop ((pre.length : Int) + (varint p.length).length).toNat).take
      ((pre.length : Int) + (varint p.length).length + p.length - (pre.length + (varint p.length).length)).toNat = p := by
    rw [show ((pre.length : Int) + (varint p.length).length).toNat = (pre ++ varint p.length).length by
        rw [List.length_append]; omega,
      show ((pre.length : Int) + (varint p.length).length + p.length - (pre.length + (varint p.length).length)).toNat =
        p.length by omega, ← List.append_assoc, List.drop_left, List.take_left]
  rw [hd]
  simp only [PRes.ok_bind]
  rw [hp]
  rfl

theorem parse_cases (T : IntText) {k : Kind} (hk : k = .bytes ∨ k = .int) (b : Bytes) (old : FVal) :
    (∃ v, parsePayload T k b old = .ok v) ∨ parsePayload T k b old = .err := by
  rcases hk with rfl | rfl
  · exact .inl ⟨_, rfl⟩
  · unfold parsePayload
    simp only
    split
    · exact .inl ⟨_, rfl⟩
    · split
      · exact .inr rfl
      · split
        · exact .inl ⟨_, rfl⟩
        · exact .inr rfl

/-- One field: it is read, or the message is refused. -/
theorem loop_field (T : IntText) (sch : Schema) (pre rest : Bytes) (fuel n : Nat) (k : Kind) (v : FVal) (m : Fields)
    (hk : sch.kind n = some k) (hn0 : 0 < n) (hn : n < 2 ^ 28) (hf : Loose k v) (hne : marshalField n v ≠ [])
    (hz : m n = k.zero) (hlen : (pre ++ (marshalField n v ++ rest)).length < 2 ^ 63) :
    unmarshalLoop (parsePayload T) sch (pre ++ (marshalField n v ++ rest)) (fuel + 1) pre.length m =
      (fieldRead T k v >>= fun r =>
        unmarshalLoop (parsePayload T) sch (pre ++ (marshalField n v ++ rest)) fuel (pre.length + (marshalField n v).length)
          fun q => if q = n then r else m q) := by
  rcases hf with ⟨hw, x, rfl⟩ | ⟨hb, b, rfl⟩
  · have hx : x ≠ 0 := fun e => hne (if_pos e)
    rw [marshalField_num n hx, List.append_assoc, unmarshalLoop_tag _ sch pre _ fuel n 0 k m hk hn0 hn hw]
    have := readField_num (parsePayload T) (pre ++ tag n 0) rest k (m n) x hw
    rw [List.append_assoc, List.length_append] at this
    push_cast at this
    rw [this]
    simp only [PRes.ok_bind, List.length_append, fieldRead]
    push_cast
    rw [← Int.add_assoc]
  · have hb0 : b ≠ [] := fun e => hne (if_pos e)
    have hw : k.wire = 2 := by rcases hb with rfl | rfl <;> rfl
    have e : marshalField n (.bs b) = tag n 2 ++ (varint b.length ++ b) := if_neg hb0
    rw [e] at hlen ⊢
    rw [List.append_assoc, List.append_assoc] at hlen ⊢
    rw [unmarshalLoop_tag _ sch pre _ fuel n 2 k m hk hn0 hn hw]
    rw [hz]
    rcases parse_cases T hb b k.zero with ⟨r, hp⟩ | hp
    · have := readField_len (parsePayload T) (pre ++ tag n 2) b rest k k.zero r hw hp
        (by rw [List.append_assoc]; exact hlen)
      rw [List.append_assoc, List.length_append] at this
      push_cast at this
      rw [this]
      have e2 : fieldRead T k (.bs b) = .ok r := hp
      rw [e2]
      simp only [PRes.ok_bind, List.length_append]
      push_cast
      rw [← Int.add_assoc, ← Int.add_assoc]
    · have := readField_err (parsePayload T) (pre ++ tag n 2) b rest k k.zero hw hp
        (by rw [List.append_assoc]; exact hlen)
      rw [List.append_assoc, List.length_append] at this
      push_cast at this
      rw [this]
      have e2 : fieldRead T k (.bs b) = .err := hp
      rw [e2]
      rfl

theorem loose_nil (T : IntText) {k : Kind} {v : FVal} {n : Nat} (hf : Loose k v) (h : marshalField n v = []) :
    fieldRead T k v = .ok k.zero := by
  have htag : ∀ wt (l : Bytes), tag n wt ++ l ≠ [] := fun wt l e =>
    varintN_ne_nil 9 _ (List.append_eq_nil_iff.1 e).1
  rcases hf with ⟨hw, x, rfl⟩ | ⟨hb, b, rfl⟩
  · by_cases hx : x = 0
    · subst hx; cases k <;> first | rfl | cases hw
    · rw [marshalField_num n hx] at h; exact absurd h (htag _ _)
  · by_cases hb0 : b = []
    · subst hb0; rcases hb with rfl | rfl <;> rfl
    · exact absurd ((if_neg hb0 : marshalField n (.bs b) = marshalLen n b).symm.trans h) (htag _ _)

theorem loop_marshal (T : IntText) (sch : Schema) (hs : sch.WF) (v : Fields) (sch2 : Schema)
    (hsub : ∀ e ∈ sch2, e ∈ sch) (hnd : (sch2.map Prod.fst).Nodup) (hfit : ∀ e ∈ sch2, Loose e.2 (v e.1))
    (pre : Bytes) (fuel : Nat) (m : Fields) (hz : ∀ e ∈ sch2, m e.1 = e.2.zero)
    (hlen : (pre ++ marshal sch2 v).length < 2 ^ 63) (hfuel : (marshal sch2 v).length < fuel) :
    (∃ m', unmarshalLoop (parsePayload T) sch (pre ++ marshal sch2 v) fuel pre.length m = .ok m' ∧
      (∀ e ∈ sch2, fieldRead T e.2 (v e.1) = .ok (m' e.1)) ∧ ∀ q, q ∉ sch2.map Prod.fst → m' q = m q) ∨
    (unmarshalLoop (parsePayload T) sch (pre ++ marshal sch2 v) fuel pre.length m = .err ∧
      ∃ e ∈ sch2, fieldRead T e.2 (v e.1) = .err) := by
  induction sch2 generalizing pre fuel m with
  | nil =>
    obtain ⟨f, rfl⟩ : ∃ f, fuel = f + 1 := ⟨fuel - 1, by simp [marshal] at hfuel; omega⟩
    refine .inl ⟨m, ?_, fun e he => (by cases he), fun _ _ => rfl⟩
    unfold unmarshalLoop
    rw [if_pos (by simp [marshal]), if_neg (by simp [marshal])]
  | cons e t ih =>
    obtain ⟨n, k⟩ := e
    rw [List.map_cons, List.nodup_cons] at hnd
    have hmem := hsub (n, k) List.mem_cons_self
    have hf := hfit (n, k) List.mem_cons_self
    have hsplit : marshal ((n, k) :: t) v = marshalField n (v n) ++ marshal t v := rfl
    have htail : ∀ e ∈ t, e.1 ≠ n := fun e he h => hnd.1 (by
      have := List.mem_map_of_mem (f := Prod.fst) he
      rwa [h] at this)
    rw [hsplit] at hlen hfuel ⊢
    by_cases hnil : marshalField n (v n) = []
    · rw [hnil, List.nil_append] at hlen hfuel ⊢
      rcases ih (fun e he => hsub e (List.mem_cons_of_mem _ he)) hnd.2
        (fun e he => hfit e (List.mem_cons_of_mem _ he)) pre fuel m (fun e he => hz e (List.mem_cons_of_mem _ he))
        hlen hfuel with ⟨m', h1, h2, h3⟩ | ⟨h1, e, he, h2⟩
      · refine .inl ⟨m', h1, fun e he => ?_, fun q hq => h3 q fun h => hq (List.mem_cons_of_mem _ h)⟩
        rcases List.mem_cons.1 he with rfl | he
        · rw [h3 n hnd.1, hz (n, k) List.mem_cons_self]
          exact loose_nil T hf hnil
        · exact h2 e he
      · exact .inr ⟨h1, e, List.mem_cons_of_mem _ he, h2⟩
    · have hpos : 0 < (marshalField n (v n)).length := List.length_pos_iff.2 hnil
      obtain ⟨f, rfl⟩ : ∃ f, fuel = f + 1 := ⟨fuel - 1, by omega⟩
      rw [loop_field T sch pre (marshal t v) f n k (v n) m (kind_of_mem hs.2 hmem) (hs.1 _ hmem).1
        (hs.1 _ hmem).2 hf hnil (hz _ List.mem_cons_self) hlen]
      have hok : (∃ r, fieldRead T k (v n) = .ok r) ∨ fieldRead T k (v n) = .err := by
        rcases hf with ⟨_, x, hx⟩ | ⟨hb, b, hx⟩
        · simp only at hx; rw [hx]; exact .inl ⟨_, rfl⟩
        · simp only at hx; rw [hx]; exact parse_cases T hb b k.zero
      rcases hok with ⟨r, hr⟩ | hr
      · rw [hr]
        simp only [PRes.ok_bind]
        have hlen2 : ((pre ++ marshalField n (v n)) ++ marshal t v).length < 2 ^ 63 := by
          rw [List.append_assoc]; exact hlen
        have hf2 : (marshal t v).length < f := by
          rw [List.length_append] at hfuel; omega
        have := ih (fun e he => hsub e (List.mem_cons_of_mem _ he)) hnd.2
          (fun e he => hfit e (List.mem_cons_of_mem _ he)) (pre ++ marshalField n (v n)) f
          (fun q => if q = n then r else m q)
          (fun e he => by rw [if_neg (htail e he)]; exact hz e (List.mem_cons_of_mem _ he)) hlen2 hf2
        rw [List.append_assoc, List.length_append] at this
        push_cast at this
        rcases this with ⟨m', h1, h2, h3⟩ | ⟨h1, e, he, h2⟩
        · refine .inl ⟨m', h1, fun e he => ?_, fun q hq => ?_⟩
          · rcases List.mem_cons.1 he with rfl | he
            · rw [h3 n hnd.1, if_pos rfl]; exact hr
            · exact h2 e he
          · rw [h3 q fun h => hq (List.mem_cons_of_mem _ h), if_neg fun h : q = n => hq (by rw [h]; exact List.mem_cons_self)]
        · exact .inr ⟨h1, e, List.mem_cons_of_mem _ he, h2⟩
      · rw [hr]
        exact .inr ⟨rfl, (n, k), List.mem_cons_self, hr⟩

theorem unmarshal_marshal_loose (T : IntText) {sch : Schema} (hs : sch.WF) {v : Fields} (hfit : ∀ e ∈ sch, Loose e.2 (v e.1))
    (hlen : (marshal sch v).length < 2 ^ 63) :
    (∃ m', unmarshal T sch (marshal sch v) = .ok m' ∧ ∀ e ∈ sch, fieldRead T e.2 (v e.1) = .ok (m' e.1)) ∨
    (unmarshal T sch (marshal sch v) = .err ∧ ∃ e ∈ sch, fieldRead T e.2 (v e.1) = .err) := by
  have hz : ∀ e ∈ sch, sch.zero e.1 = e.2.zero := by
    intro e he
    unfold Schema.zero
    rw [kind_of_mem hs.2 (n := e.1) (k := e.2) he]
  rcases loop_marshal T sch hs v sch (fun _ h => h) hs.2 hfit [] _ sch.zero hz hlen (Nat.lt_succ_self _) with
    ⟨m', h1, h2, _⟩ | h
  · exact .inl ⟨m', h1, h2⟩
  · exact .inr h

/-- A message that a client sent is received exactly if every field can be read. -/
theorem decode_iff (T : IntText) {t : MsgType} {v : Fields} (hfit : ∀ e ∈ t.schema, Loose e.2 (v e.1))
    (hlen : (marshal t.schema v).length < 2 ^ 63) (x : Msg) :
    decodeMsg T t (marshal t.schema v) = .ok x ↔
      ∃ m' : Fields, (∀ e ∈ t.schema, fieldRead T e.2 (v e.1) = .ok (m' e.1)) ∧ x = t.toMsg m' := by
  unfold decodeMsg
  rcases unmarshal_marshal_loose T (MsgType.schema_wf t) hfit hlen with ⟨m', h1, h2⟩ | ⟨h1, e, he, h2⟩
  · rw [h1, PRes.ok_bind]
    constructor
    · intro h; cases h; exact ⟨m', h2, rfl⟩
    · rintro ⟨m2, h3, rfl⟩
      refine congrArg PRes.ok ?_
      have heq : ∀ e ∈ t.schema, m' e.1 = m2 e.1 := fun e he => by
        exact PRes.ok.inj ((h2 e he).symm.trans (h3 e he))
      cases t <;> simp only [MsgType.schema, List.mem_cons, List.not_mem_nil, or_false, forall_eq_or_imp, forall_eq] at heq <;>
        simp only [MsgType.toMsg, heq]
  · rw [h1]
    constructor
    · intro h; cases h
    · rintro ⟨m2, h3, _⟩
      rw [h3 e he] at h2; cases h2

/-! ### Texts -/

theorem encodeRune_ascii {c : Char} (h : c.toNat < 128) : Json.encodeRune c = [UInt8.ofNat c.toNat] := if_pos h

theorem encodeRune_high {c : Char} (h : ¬ c.toNat < 128) : ∃ b ∈ Json.encodeRune c, 128 ≤ b.toNat := by
  have hc : c.toNat < 0x110000 := by
    have := c.valid
    rcases this with h | h
    · have h : c.toNat < 0xd800 := h
      omega
    · exact h.2
  unfold Json.encodeRune
  simp only
  rw [if_neg h]
  split
  · exact ⟨_, List.mem_cons_self, by rw [UInt8.toNat_ofNat']; omega⟩
  · split
    · exact ⟨_, List.mem_cons_self, by rw [UInt8.toNat_ofNat']; omega⟩
    · exact ⟨_, List.mem_cons_self, by rw [UInt8.toNat_ofNat']; omega⟩

/-- The bytes of a text, taken for characters. -/
theorem latin_utf8 {l : List Char} (h : ∀ c ∈ l, c.toNat < 128) : (Json.utf8 l).map (fun x => Char.ofNat x.toNat) = l := by
  induction l with
  | nil => rfl
  | cons c t ih =>
    have hc := h c List.mem_cons_self
    unfold Json.utf8 at ih ⊢
    rw [List.flatMap_cons, encodeRune_ascii hc, List.singleton_append, List.map_cons,
      ih fun x hx => h x (List.mem_cons_of_mem _ hx), UInt8.toNat_ofNat', Nat.mod_eq_of_lt (by omega), Char.ofNat_toNat]

theorem str_utf8 {s : String} (h : Ascii s) : str (Json.utf8 s.toList) = s := by
  unfold str
  rw [latin_utf8 h, String.ofList_toList]

theorem utf8_ascii {l : List Char} (h : ∀ b ∈ Json.utf8 l, b.toNat < 128) : ∀ c ∈ l, c.toNat < 128 := by
  intro c hc
  by_cases h1 : c.toNat < 128
  · exact h1
  · obtain ⟨b, hb, h2⟩ := encodeRune_high h1
    have := h b (List.mem_flatMap.2 ⟨c, hc, hb⟩)
    omega

theorem utf8_nil {l : List Char} (h : Json.utf8 l = []) : l = [] := by
  have e : Json.utf8 [] = [] := rfl
  exact Json.utf8_inj (h.trans e.symm)

theorem digitOf_ascii {c : Char} {d : Nat} (h : digitOf c = some d) : c.toNat < 128 := by
  have key : ∀ {a : Char}, c ≤ a → a.toNat < 128 → c.toNat < 128 := fun h1 h2 => by
    exact Nat.lt_of_le_of_lt (show c.toNat ≤ _ from h1) h2
  unfold digitOf at h
  split at h
  · rename_i h1; exact key h1.2 (by decide)
  · split at h
    · rename_i h1; exact key h1.2 (by decide)
    · split at h
      · rename_i h1; exact key h1.2 (by decide)
      · cases h

theorem run_ascii {base : Nat} {l : List Char} {v : Nat} (h : Run base l v) : ∀ c ∈ l, c.toNat < 128 := by
  induction h with
  | one h _ => intro c hc; rw [List.mem_singleton.1 hc]; exact digitOf_ascii h
  | more _ h _ ih =>
    intro c hc
    rcases List.mem_append.1 hc with hc | hc
    · exact ih c hc
    · rw [List.mem_singleton.1 hc]; exact digitOf_ascii h
  | sep _ h _ ih =>
    intro c hc
    rcases List.mem_append.1 hc with hc | hc
    · exact ih c hc
    · rcases List.mem_cons.1 hc with rfl | hc
      · decide
      · rw [List.mem_singleton.1 hc]; exact digitOf_ascii h

theorem prefixed_ascii {base : Nat} {l : List Char} {v : Nat} (h : Prefixed base l v) : ∀ c ∈ l, c.toNat < 128 := by
  rcases h with h | ⟨t, rfl, h⟩
  · exact run_ascii h
  · intro c hc
    rcases List.mem_cons.1 hc with rfl | hc
    · decide
    · exact run_ascii h c hc

theorem literal_ascii {l : List Char} {v : Nat} (h : Literal l v) : ∀ c ∈ l, c.toNat < 128 := by
  have two : ∀ {x : Char} {t : List Char} {base w : Nat}, x.toNat < 128 → Prefixed base t w →
      ∀ c ∈ '0' :: x :: t, c.toNat < 128 := by
    intro x t base w hx hp c hc
    rcases List.mem_cons.1 hc with rfl | hc
    · decide
    · rcases List.mem_cons.1 hc with rfl | hc
      · exact hx
      · exact prefixed_ascii hp c hc
  cases h with
  | zero => intro c hc; rw [List.mem_singleton.1 hc]; decide
  | decimal h _ => exact run_ascii h
  | bare h =>
    intro c hc
    rcases List.mem_cons.1 hc with rfl | hc
    · decide
    · exact prefixed_ascii h c hc
  | octal hx h => exact two (by rcases hx with rfl | rfl <;> decide) h
  | binary hx h => exact two (by rcases hx with rfl | rfl <;> decide) h
  | hex hx h => exact two (by rcases hx with rfl | rfl <;> decide) h

theorem signed_ascii {l : List Char} {x : Int} (h : SignedLiteral l x) : ∀ c ∈ l, c.toNat < 128 := by
  obtain ⟨n, ⟨h, _⟩ | ⟨t, rfl, h, _⟩ | ⟨t, rfl, h, _⟩⟩ := h
  · exact literal_ascii h
  · intro c hc
    rcases List.mem_cons.1 hc with rfl | hc
    · decide
    · exact literal_ascii h c hc
  · intro c hc
    rcases List.mem_cons.1 hc with rfl | hc
    · decide
    · exact literal_ascii h c hc

/-- An amount as the chain reads it. -/
theorem read_amount (a : String) (v : FVal) :
    fieldRead GoInt.goText .int (.bs (Json.utf8 a.toList)) = .ok v ↔ ∃ x, v = .int x ∧ AmountText a x := by
  show parsePayload GoInt.goText .int (Json.utf8 a.toList) (.int none) = _ ↔ _
  by_cases hn : Json.utf8 a.toList = []
  · have ha : a = "" := by rw [← String.ofList_toList (s := a), utf8_nil hn]
    rw [hn]
    constructor
    · intro h
      exact ⟨none, (PRes.ok.inj h).symm, .inl ⟨ha, rfl⟩⟩
    · rintro ⟨x, rfl, ⟨_, rfl⟩ | ⟨y, h, _⟩⟩
      · rfl
      · subst ha
        obtain ⟨n, ⟨h, _⟩ | ⟨t, h, _⟩ | ⟨t, h, _⟩⟩ := h
        · cases h with
          | decimal h _ => exact absurd rfl (GoInt.run_ne_nil h)
        · cases h
        · cases h
  · have hw := C99_wire_literal (Json.utf8 a.toList) hn (.int none)
    have hiff : ∀ x, SignedLiteral ((Json.utf8 a.toList).map fun c => Char.ofNat c.toNat) x ↔ SignedLiteral a.toList x := by
      intro x
      constructor
      · intro h
        have h1 := signed_ascii h
        have h2 : ∀ c ∈ a.toList, c.toNat < 128 := utf8_ascii fun b hb => by
          have := h1 _ (List.mem_map_of_mem hb)
          rwa [byteChar_toNat] at this
        rwa [latin_utf8 h2] at h
      · intro h
        rwa [latin_utf8 (signed_ascii h)]
    constructor
    · intro h
      by_cases hex : ∃ x, SignedLiteral a.toList x ∧ x.natAbs < 2 ^ 256
      · obtain ⟨x, h1, h2⟩ := hex
        rw [hw.1 x ((hiff x).2 h1) h2] at h
        exact ⟨some x, (PRes.ok.inj h).symm, .inr ⟨x, h1, h2, rfl⟩⟩
      · rw [hw.2 fun x hx => by
          rcases Nat.lt_or_ge x.natAbs (2 ^ 256) with hlt | hge
          · exact absurd ⟨x, (hiff x).1 hx, hlt⟩ hex
          · exact hge] at h
        cases h
    · rintro ⟨x, rfl, ⟨rfl, _⟩ | ⟨y, h1, h2, rfl⟩⟩
      · exact absurd rfl hn
      · exact hw.1 y ((hiff y).2 h1) h2

/-! ### Hexadecimal -/

/-- The digit of a value, in lower case. -/
def hexChar (d : Nat) : Char := "0123456789abcdef".toList.getD d ' '

theorem hexVal_iff {d : Nat} (hd : d < 16) (c : Char) : Json.hexVal c = some d ↔ c.toLower = hexChar d := by
  by_cases h : c.toNat < 128
  · have key : ∀ n < 128, ∀ d < 16, (Json.hexVal (Char.ofNat n) = some d ↔ (Char.ofNat n).toLower = hexChar d) := by decide +kernel
    have := key c.toNat h d hd
    rwa [Char.ofNat_toNat] at this
  · constructor
    · intro h1
      unfold Json.hexVal at h1
      rw [if_neg (by omega), if_neg (by omega), if_neg (by omega)] at h1
      cases h1
    · intro h1
      have key : ∀ d < 16, (hexChar d).toNat < 128 := by decide
      have h2 := key d hd
      rw [← h1] at h2
      exfalso
      unfold Char.toLower at h2
      split at h2
      · rename_i h3
        have h4 : c.toNat ≤ 90 := h3.2
        omega
      · exact h h2

theorem hexVal_lt {c : Char} {d : Nat} (h : Json.hexVal c = some d) : d < 16 := by
  unfold Json.hexVal at h
  split at h
  · cases h; omega
  · split at h
    · cases h; omega
    · split at h
      · cases h; omega
      · cases h

theorem hexOf_cons (x : UInt8) (b : Bytes) : hexOf (x :: b) = hexChar (x.toNat / 16) :: hexChar (x.toNat % 16) :: hexOf b := rfl

theorem unhex_iff : ∀ (l : List Char) (b : Bytes), unhex l = some b ↔ l.map Char.toLower = hexOf b
  | [], b => by
    unfold unhex
    cases b with
    | nil => simp [hexOf]
    | cons x b => simp [hexOf]
  | [c], b => by
    unfold unhex
    cases b with
    | nil => simp [hexOf]
    | cons x b => simp [hexOf_cons]
  | c1 :: c2 :: t, b => by
    unfold unhex
    rw [List.map_cons, List.map_cons]
    constructor
    · intro h
      cases h1 : Json.hexVal c1 with
      | none => rw [h1] at h; cases h
      | some x =>
        cases h2 : Json.hexVal c2 with
        | none => rw [h1, h2] at h; cases h
        | some y =>
          cases h3 : unhex t with
          | none => rw [h1, h2, h3] at h; cases h
          | some r =>
            rw [h1, h2, h3] at h
            cases Option.some.inj h
            have hx := hexVal_lt h1
            have hy := hexVal_lt h2
            rw [hexOf_cons, UInt8.toNat_ofNat', Nat.mod_eq_of_lt (by omega), show (x * 16 + y) / 16 = x by omega,
              show (x * 16 + y) % 16 = y by omega, (hexVal_iff hx c1).1 h1, (hexVal_iff hy c2).1 h2, (unhex_iff t r).1 h3]
    · intro h
      cases b with
      | nil => cases h
      | cons x r =>
        rw [hexOf_cons] at h
        injection h with h1 h
        injection h with h2 h3
        have hx := x.toNat_lt
        rw [(hexVal_iff (d := x.toNat / 16) (by omega) c1).2 h1, (hexVal_iff (d := x.toNat % 16) (by omega) c2).2 h2,
          (unhex_iff t r).2 h3]
        show some (UInt8.ofNat (x.toNat / 16 * 16 + x.toNat % 16) :: r) = _
        rw [show x.toNat / 16 * 16 + x.toNat % 16 = x.toNat by omega, UInt8.ofNat_toNat]

/-! ### Arguments -/

theorem readBytes_iff (cl : Machine) (w : String) (b : Bytes) : readBytes cl w = some b ↔ BytesText cl w b := by
  unfold readBytes BytesText HexText
  cases hf : cl.file w with
  | some x => simp
  | none =>
    simp only [reduceCtorEq, false_or, true_and]
    cases hu : unhex w.toList with
    | some x =>
      have hx := (unhex_iff _ _).1 hu
      constructor
      · intro h; cases h; exact .inl hx
      · rintro (h | ⟨h, _⟩)
        · exact hu.symm.trans ((unhex_iff _ _).2 h)
        · exact absurd hx (h x)
    | none =>
      have hno : ∀ b', ¬ w.toList.map Char.toLower = hexOf b' := fun b' h => by
        rw [(unhex_iff _ _).2 h] at hu; cases hu
      constructor
      · intro h; exact .inr ⟨hno, h⟩
      · rintro (h | ⟨_, h⟩)
        · exact absurd h (hno b)
        · exact h

theorem readBool_iff (w : String) (b : Bool) : readBool w = some b ↔ TruthText w b := by
  unfold readBool TruthText
  by_cases h1 : w ∈ ["1", "t", "T", "TRUE", "true", "True"]
  · rw [if_pos h1]
    simp only [List.mem_cons, List.not_mem_nil, or_false] at h1
    rcases h1 with rfl | rfl | rfl | rfl | rfl | rfl <;> cases b <;> decide
  · rw [if_neg h1]
    by_cases h2 : w ∈ ["0", "f", "F", "FALSE", "false", "False"]
    · rw [if_pos h2]
      simp only [List.mem_cons, List.not_mem_nil, or_false] at h2
      rcases h2 with rfl | rfl | rfl | rfl | rfl | rfl <;> cases b <;> decide
    · rw [if_neg h2]
      simp only [List.mem_cons, List.not_mem_nil, or_false, not_or] at h1 h2 ⊢
      simp [h1, h2]

theorem readAddr_iff (c : Cfg) (cl : Machine) (w o : String) : readAddr c cl w = some o ↔ AddrText c cl w o := by
  unfold readAddr AddrText
  cases hk : cl.key w with
  | some a => simp [eq_comm]
  | none =>
    simp only [reduceCtorEq, false_and, exists_false, false_or, true_and]
    cases hd : c.decode w with
    | none => simp
    | some a => simp [eq_comm]

theorem chain_iff (w : String) (n : Nat) : Rest.uint32 w.toList = some n ↔ ChainText w n := by
  have := parse_chain w.toList n
  rwa [String.ofList_toList] at this

theorem vault_iff (w : String) (v : Int) : vaultNames.lookup w = some v ↔ VaultText w v := by
  unfold vaultNames VaultText
  simp only [List.lookup_cons, List.lookup_nil]
  by_cases h1 : w = "unspecified"
  · subst h1; simp [eq_comm]
  · by_cases h2 : w = "staked"
    · subst h2; simp [eq_comm]
    · by_cases h3 : w = "flexible"
      · subst h3; simp [eq_comm]
      · simp [beq_eq_false_iff_ne.2 h1, beq_eq_false_iff_ne.2 h2, beq_eq_false_iff_ne.2 h3, h1, h2, h3]

theorem pause_iff (w : String) (v : Int) : pauseNames.lookup w = some v ↔ PauseText w v := by
  unfold pauseNames PauseText
  simp only [List.lookup_cons, List.lookup_nil]
  by_cases h1 : w = "none"
  · subst h1; simp [eq_comm]
  · by_cases h2 : w = "lock"
    · subst h2; simp [eq_comm]
    · by_cases h3 : w = "unlock"
      · subst h3; simp [eq_comm]
      · by_cases h4 : w = "all"
        · subst h4; simp [eq_comm]
        · simp [beq_eq_false_iff_ne.2 h1, beq_eq_false_iff_ne.2 h2, beq_eq_false_iff_ne.2 h3, beq_eq_false_iff_ne.2 h4, h1, h2, h3, h4]

end Dollar.AutoCli
