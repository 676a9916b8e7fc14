import Verif.Lemmas.Wire
import Verif.Lemmas.Handlers2
import Verif.Lemmas.GoIntText
import Verif.Model.Genesis
import Verif.Spec.Demo

/-
C99: which number a text is read as.
-/
namespace Dollar
open MM Proto

/-! ### Specification -/

/-- The value of digits in a base, most significant first. -/
def Spec.inBase (base : Nat) : List Char → Nat
  | l => l.foldl (fun v c => v * base + (c.toNat - '0'.toNat)) 0

/-- How a text of digits is to be read: decimal if it does not begin with a zero; otherwise octal, and refused
if a digit of the rest is not octal.  No digits are no number. -/
def Spec.digitsAs : List Char → Option Nat
  | [] => none
  | c :: t =>
    if c ≠ '0' then some (Spec.inBase 10 (c :: t))
    else if ∀ d ∈ t, d ≤ '7' then some (Spec.inBase 8 t)
    else none

/-! ### Theorems -/

theorem inBase_codes (base : Nat) (l : List Char) : GoInt.valueIn base (l.map Char.toNat) = Spec.inBase base l := by
  unfold GoInt.valueIn Spec.inBase
  rw [List.foldl_map]
  rfl

theorem whole_scan_digits {l : List Char} (hd : ∀ c ∈ l, '0' ≤ c ∧ c ≤ '9') :
    GoInt.whole (GoInt.scanNat (l.map Char.toNat)) = Spec.digitsAs l := by
  have hd' : ∀ c ∈ l.map Char.toNat, 48 ≤ c ∧ c ≤ 57 := by
    intro c hc
    obtain ⟨x, hx, rfl⟩ := List.mem_map.1 hc
    exact hd x hx
  cases l with
  | nil => rfl
  | cons c t =>
    show _ = if c ≠ '0' then some (Spec.inBase 10 (c :: t)) else if ∀ d ∈ t, d ≤ '7' then some (Spec.inBase 8 t) else none
    by_cases h0 : c = '0'
    · rw [if_neg (not_not_intro h0)]
      subst h0
      rw [List.map_cons] at hd' ⊢
      show GoInt.whole (GoInt.scanNat (48 :: t.map Char.toNat)) = _
      have ht : ∀ x ∈ t.map Char.toNat, 48 ≤ x ∧ x ≤ 57 := fun x hx => hd' x (List.mem_cons_of_mem _ hx)
      by_cases h7 : ∀ d ∈ t, d ≤ '7'
      · rw [if_pos h7, GoInt.scanNat_octal (by
          intro x hx
          obtain ⟨y, hy, rfl⟩ := List.mem_map.1 hx
          exact ⟨(ht _ hx).1, h7 y hy⟩), inBase_codes]
        rfl
      · rw [if_neg h7]
        refine GoInt.whole_octal_bad ht ?_
        rw [Classical.not_forall] at h7
        obtain ⟨d, h7⟩ := h7
        rw [Classical.not_imp] at h7
        refine ⟨d.toNat, List.mem_map_of_mem h7.1, ?_⟩
        have : ¬ d.toNat ≤ 55 := h7.2
        omega
    · rw [if_pos h0, GoInt.scanNat_decimal (by simp) hd' (by
        intro e
        rw [List.map_cons, List.head?_cons] at e
        have e := Option.some.inj e
        exact h0 (Char.toNat_inj.1 e)), inBase_codes]
      rfl

/-- C99: for every text of digits, the number read from it is the decimal one if it does not begin with a zero,
the octal one if it does, and none if an octal text holds an 8 or a 9. -/
theorem C99_digits (s : String) (hd : ∀ c ∈ s.toList, '0' ≤ c ∧ c ≤ '9') :
    intOfString s = (Spec.digitsAs s.toList).map fun n => (n : Int) := by
  unfold intOfString
  have e := whole_scan_digits hd
  revert e hd
  cases s.toList with
  | nil => intro _ _; rfl
  | cons c t =>
    intro hd e
    have h1 : 48 ≤ c.toNat := (hd c List.mem_cons_self).1
    rw [List.map_cons] at e ⊢
    rw [GoInt.parse, if_neg (by omega), if_neg (by omega), e]

/-- C99: with a minus sign in front the number is negated, a plus sign changes nothing. -/
theorem C99_signed (s : String) (hd : ∀ c ∈ s.toList, '0' ≤ c ∧ c ≤ '9') :
    intOfString ("-" ++ s) = (Spec.digitsAs s.toList).map (fun n => -(n : Int)) ∧
    intOfString ("+" ++ s) = (Spec.digitsAs s.toList).map fun n => (n : Int) := by
  have e := whole_scan_digits hd
  constructor
  · unfold intOfString
    rw [String.toList_append]
    show GoInt.parse (45 :: s.toList.map Char.toNat) = _
    rw [GoInt.parse, if_pos rfl, e]
  · unfold intOfString
    rw [String.toList_append]
    show GoInt.parse (43 :: s.toList.map Char.toNat) = _
    rw [GoInt.parse, if_neg (by decide), if_pos rfl, e]

/-- C99: the text the chain itself writes for a number is read back as that number, in a packet or a genesis file
and in a message or a stored value. -/
theorem C99_written_is_read (x : Int) :
    intOfString (toString x) = some x ∧ GoInt.goText.read (decText x) = some x :=
  ⟨intOfString_toString x, GoInt.parse_decText x⟩

/-- C99: an amount in a message is read by the same rule as one in a genesis file: for every text of digits the
field is the number of `Spec.digitsAs`, if that fits 256 bits, and otherwise the message is refused. -/
theorem C99_wire (s : String) (hne : s.toList ≠ []) (hd : ∀ c ∈ s.toList, '0' ≤ c ∧ c ≤ '9') (old : FVal) :
    parsePayload GoInt.goText .int (ascii s) old = match Spec.digitsAs s.toList with
      | some n => if n < 2 ^ 256 then .ok (.int (some (n : Int))) else .err
      | none => .err := by
  have hb : (ascii s).map UInt8.toNat = s.toList.map Char.toNat := by
    unfold ascii
    rw [List.map_map]
    refine List.map_congr_left fun c hc => ?_
    have h1 : 48 ≤ c.toNat := (hd c hc).1
    have h2 : c.toNat ≤ 57 := (hd c hc).2
    show (UInt8.ofNat c.toNat).toNat = c.toNat
    rw [UInt8.toNat_ofNat']
    omega
  have e : GoInt.goText.read (ascii s) = (Spec.digitsAs s.toList).map fun n => (n : Int) := by
    show GoInt.parse ((ascii s).map UInt8.toNat) = _
    rw [hb]
    exact C99_digits s hd
  unfold parsePayload
  rw [if_neg (by
    intro h
    rw [h] at hb
    exact hne (List.map_eq_nil_iff.1 hb.symm)), e]
  cases Spec.digitsAs s.toList with
  | none => rfl
  | some n => rfl

/-- C99, completely: a text of any characters is read as a number exactly if it is an integer literal of the Go language
with an optional sign, and then as the number that literal stands for. -/
theorem C99_literal (s : String) (x : Int) : intOfString s = some x ↔ Spec.SignedLiteral s.toList x :=
  GoInt.parse_iff s.toList x

theorem byteChar_toNat (b : UInt8) : (Char.ofNat b.toNat).toNat = b.toNat :=
  Demo.toNat_ofNat (Or.inl (by have := b.toNat_lt; omega))

/-- C99, completely: the same for an amount in a message, whatever its bytes, within 256 bits; every other amount is
refused. -/
theorem C99_wire_literal (b : Bytes) (hne : b ≠ []) (old : FVal) :
    (∀ x, Spec.SignedLiteral (b.map fun c => Char.ofNat c.toNat) x → x.natAbs < 2 ^ 256 →
      parsePayload GoInt.goText .int b old = .ok (.int (some x))) ∧
    ((∀ x, Spec.SignedLiteral (b.map fun c => Char.ofNat c.toNat) x → 2 ^ 256 ≤ x.natAbs) →
      parsePayload GoInt.goText .int b old = .err) := by
  have hb : b.map UInt8.toNat = (b.map fun c => Char.ofNat c.toNat).map Char.toNat := by
    rw [List.map_map]
    exact List.map_congr_left fun c _ => (byteChar_toNat c).symm
  have e : ∀ x, GoInt.goText.read b = some x ↔ Spec.SignedLiteral (b.map fun c => Char.ofNat c.toNat) x := by
    intro x
    rw [← GoInt.parse_iff, ← hb]
    rfl
  unfold parsePayload
  simp only
  rw [if_neg hne]
  constructor
  · intro x hx hlt
    rw [(e x).2 hx]
    simp only
    rw [if_pos hlt]
  · intro h
    cases hr : GoInt.goText.read b with
    | none => rfl
    | some x =>
      simp only
      rw [if_neg (Nat.not_lt.2 (h x ((e x).1 hr)))]

/-! Examples: a leading zero changes the number, silently. -/

example : intOfString "100" = some 100 ∧ intOfString "0100" = some 64 ∧ intOfString "089" = none ∧
    intOfString "-5" = some (-5) ∧ intOfString "1_000" = some 1000 ∧ intOfString "0x10" = some 16 := by decide +kernel

/-- Literals with underscores, and texts that are none. -/
example : Spec.SignedLiteral "-1_0".toList (-10) := (C99_literal "-1_0" _).1 (by decide +kernel)
example : Spec.SignedLiteral "0x_fF".toList 255 := (C99_literal "0x_fF" _).1 (by decide +kernel)
example : intOfString "1__0" = none ∧ intOfString "_1" = none ∧ intOfString "1_" = none ∧ intOfString "0b2" = none ∧
    intOfString "0x" = none ∧ intOfString "1.0" = none ∧ intOfString " 1" = none ∧ intOfString "--1" = none := by decide +kernel

/-- C99, a consequence: a genesis file that gives an account the principal "0100" gives it 64. -/
theorem C99_genesis_octal : ∃ (g : Genesis) (s : State), g.principal = [(Demo.aliceS, "0100")] ∧
    initGenesis Demo.cfg g Demo.start = some s ∧ (s.principal.map Prod.snd) = [64] := by
  refine ⟨{ defaultGenesis with principal := [(Demo.aliceS, "0100")], collector := Demo.aliceS }, _, rfl, rfl, ?_⟩
  decide +kernel

/-- C99, a consequence: a lock message with the amount "0100" locks 64. -/
theorem C99_message_octal : decodeMsg GoInt.goText .lock
    (marshal [(1, .bytes), (2, .i32), (3, .bytes)] (Fields.ofList [.bs (ascii "alice"), .num 2, .bs (ascii "0100")])) =
      .ok (.lock "alice" 2 (some 64)) := by decide +kernel

end Dollar
