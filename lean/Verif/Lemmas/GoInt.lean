import Verif.Model.GoInt
import Verif.Model.Proto

/-
Facts about the number parser of Go.
-/
namespace Dollar.GoInt

/-- The number a list of digit characters stands for in a base. -/
def valueIn (base : Nat) (l : List Nat) : Nat := l.foldl (fun v c => v * base + (c - 48)) 0

theorem digit_dec {c : Nat} (h : 48 ≤ c ∧ c ≤ 57) : digit c = c - 48 := if_pos h

theorem scanDigits_all {base : Nat} {l : List Nat} (h : ∀ c ∈ l, 48 ≤ c ∧ c ≤ 57 ∧ c - 48 < base) (v n : Nat) (p : Prev)
    (bad : Bool) : scanDigits base l v n p bad =
      ⟨l.foldl (fun v c => v * base + (c - 48)) v, n + l.length, if l = [] then p else .digit, bad, []⟩ := by
  induction l generalizing v n p with
  | nil => rfl
  | cons c t ih =>
    obtain ⟨h1, h2, h3⟩ := h c List.mem_cons_self
    have hd := digit_dec ⟨h1, h2⟩
    rw [scanDigits, if_neg (by omega), hd, if_neg (by omega), ih (fun x hx => h x (List.mem_cons_of_mem _ hx))]
    rw [if_neg (List.cons_ne_nil c t), List.foldl_cons, List.length_cons, Nat.add_assoc, Nat.add_comm 1]
    by_cases ht : t = []
    · rw [if_pos ht]
    · rw [if_neg ht]

/-- The loop stops at a digit beyond the base. -/
theorem scanDigits_stuck {base : Nat} {l : List Nat} (h : ∀ c ∈ l, 48 ≤ c ∧ c ≤ 57)
    (hx : ∃ c ∈ l, base ≤ c - 48) (v n : Nat) (p : Prev) (bad : Bool) :
    (scanDigits base l v n p bad).rest ≠ [] := by
  induction l generalizing v n p with
  | nil => obtain ⟨c, hc, _⟩ := hx; cases hc
  | cons c t ih =>
    obtain ⟨h1, h2⟩ := h c List.mem_cons_self
    have hd := digit_dec ⟨h1, h2⟩
    rw [scanDigits, if_neg (by omega), hd]
    split
    · exact List.cons_ne_nil c t
    · rename_i hb
      refine ih (fun x hx => h x (List.mem_cons_of_mem _ hx)) ?_ _ _ _
      obtain ⟨y, hy, hyb⟩ := hx
      rcases List.mem_cons.1 hy with rfl | hy
      · exact absurd hyb hb
      · exact ⟨y, hy, hyb⟩

theorem scanEnd_ok {o : Bool} (v n : Nat) (h : n ≠ 0) : scanEnd o ⟨v, n, .digit, false, []⟩ = some (v, []) := by
  unfold scanEnd
  rw [if_neg (by rintro (e | e) <;> cases e), if_neg h]

theorem scanNat_decimal {l : List Nat} (hne : l ≠ []) (h : ∀ c ∈ l, 48 ≤ c ∧ c ≤ 57) (h0 : l.head? ≠ some 48) :
    scanNat l = some (valueIn 10 l, []) := by
  cases l with
  | nil => exact absurd rfl hne
  | cons c t =>
    have hc : c ≠ 48 := fun e => h0 (by rw [e]; rfl)
    show (if c = 48 then _ else scanEnd false (scanDigits 10 (c :: t) 0 0 .other false)) = _
    rw [if_neg hc, scanDigits_all (fun x hx => ⟨(h x hx).1, (h x hx).2, by have := h x hx; omega⟩)]
    exact scanEnd_ok _ _ (by rw [List.length_cons]; omega)

theorem scanNat_bare {c : Nat} {t : List Nat} (h1 : 48 ≤ c) (h2 : c ≤ 57) :
    scanNat (48 :: c :: t) = scanEnd true (scanDigits 8 (c :: t) 0 0 .digit false) := by
  rw [scanNat.eq_def]
  simp only [if_true]
  rw [if_neg (by omega), if_neg (by omega), if_neg (by omega)]

theorem scanNat_octal {l : List Nat} (h : ∀ c ∈ l, 48 ≤ c ∧ c ≤ 55) :
    scanNat (48 :: l) = some (valueIn 8 l, []) := by
  cases l with
  | nil => rfl
  | cons c t =>
    have hc := h c List.mem_cons_self
    have e : scanNat (48 :: c :: t) = scanEnd true (scanDigits 8 (c :: t) 0 0 .digit false) :=
      scanNat_bare hc.1 (by omega)
    rw [e, scanDigits_all (fun x hx => ⟨(h x hx).1, by have := h x hx; omega, by have := h x hx; omega⟩)]
    exact scanEnd_ok _ _ (by rw [List.length_cons]; omega)

theorem whole_scanEnd_ne {o : Bool} {r : Scanned} (h : r.rest ≠ []) : whole (scanEnd o r) = none := by
  obtain ⟨v, n, p, b, rest⟩ := r
  cases rest with
  | nil => exact absurd rfl h
  | cons x t =>
    unfold scanEnd
    split
    · rfl
    · split
      · cases o <;> rfl
      · rfl

theorem whole_octal_bad {l : List Nat} (h : ∀ c ∈ l, 48 ≤ c ∧ c ≤ 57) (hx : ∃ c ∈ l, 56 ≤ c) :
    whole (scanNat (48 :: l)) = none := by
  cases l with
  | nil => obtain ⟨c, hc, _⟩ := hx; cases hc
  | cons c t =>
    have hc := h c List.mem_cons_self
    rw [scanNat_bare hc.1 hc.2]
    exact whole_scanEnd_ne (scanDigits_stuck h (by obtain ⟨y, hy, hb⟩ := hx; exact ⟨y, hy, by omega⟩) _ _ _ _)

/-! ### Decimal text is read back -/

/-- The characters of a natural number in decimal. -/
def codes (n : Nat) : List Nat := (Nat.toDigits 10 n).map Char.toNat

theorem digitChar_toNat {d : Nat} (h : d < 10) : (Nat.digitChar d).toNat = 48 + d := by
  match d, h with
  | 0, _ | 1, _ | 2, _ | 3, _ | 4, _ | 5, _ | 6, _ | 7, _ | 8, _ | 9, _ => rfl

theorem codes_lt {n : Nat} (h : n < 10) : codes n = [48 + n] := by
  rw [codes, Nat.toDigits_of_lt_base h, List.map_cons, digitChar_toNat h]; rfl

theorem codes_ge {n : Nat} (h : 10 ≤ n) : codes n = codes (n / 10) ++ [48 + n % 10] := by
  rw [codes, Nat.toDigits_of_base_le (by decide) h, List.map_append, List.map_cons,
    digitChar_toNat (Nat.mod_lt n (by decide))]
  rfl

theorem codes_spec (n : Nat) : codes n ≠ [] ∧ (∀ c ∈ codes n, 48 ≤ c ∧ c ≤ 57) ∧
    (0 < n → (codes n).head? ≠ some 48) ∧ valueIn 10 (codes n) = n := by
  induction n using Nat.strongRecOn with
  | ind n ih =>
    by_cases h : n < 10
    · rw [codes_lt h]
      refine ⟨List.cons_ne_nil _ _, ?_, ?_, ?_⟩
      · intro c hc
        have := List.mem_singleton.1 hc
        omega
      · intro hp e
        have : 48 + n = 48 := Option.some.inj e
        omega
      · show 0 * 10 + (48 + n - 48) = n; omega
    · rw [codes_ge (by omega)]
      obtain ⟨h1, h2, h3, h4⟩ := ih (n / 10) (by omega)
      refine ⟨List.append_ne_nil_of_left_ne_nil h1 _, ?_, ?_, ?_⟩
      · intro c hc
        rcases List.mem_append.1 hc with hc | hc
        · exact h2 c hc
        · have := List.mem_singleton.1 hc
          omega
      · intro _
        rw [List.head?_append]
        cases he : (codes (n / 10)).head? with
        | none => exact absurd (List.head?_eq_none_iff.1 he) h1
        | some y => rw [Option.some_or, ← he]; exact h3 (by omega)
      · rw [valueIn, List.foldl_append]
        show valueIn 10 (codes (n / 10)) * 10 + (48 + n % 10 - 48) = n
        rw [h4]; omega

theorem scanNat_codes (n : Nat) : scanNat (codes n) = some (n, []) := by
  obtain ⟨h1, h2, h3, h4⟩ := codes_spec n
  rcases Nat.eq_zero_or_pos n with rfl | hp
  · rfl
  · rw [scanNat_decimal h1 h2 (h3 hp), h4]

theorem parse_codes (n : Nat) : parse (codes n) = some (n : Int) := by
  obtain ⟨h1, h2, -, -⟩ := codes_spec n
  have e := scanNat_codes n
  revert h1 h2 e
  cases codes n with
  | nil => intro h; exact absurd rfl h
  | cons c t =>
    intro _ h2 e
    have := h2 c List.mem_cons_self
    rw [parse, if_neg (by omega), if_neg (by omega), e]; rfl

theorem parse_neg_codes (n : Nat) : parse (45 :: codes n) = some (-(n : Int)) := by
  rw [parse, if_pos rfl, scanNat_codes]; rfl

theorem parse_toString (x : Int) : parse ((toString x).toList.map Char.toNat) = some x := by
  cases x with
  | ofNat n =>
    have : (toString (Int.ofNat n)).toList = Nat.toDigits 10 n := Nat.toList_repr
    rw [this]
    exact parse_codes n
  | negSucc n =>
    have : (toString (Int.negSucc n)).toList = '-' :: Nat.toDigits 10 (n + 1) := by
      show ("-" ++ (n + 1).repr).toList = _
      rw [String.toList_append, Nat.toList_repr]; rfl
    rw [this, List.map_cons]
    exact parse_neg_codes (n + 1)

open Proto in
theorem digits_codes (f n : Nat) (h : n ≤ f) : (digits f n).map UInt8.toNat = codes n := by
  induction f generalizing n with
  | zero =>
    have : n = 0 := by omega
    subst this
    rfl
  | succ f ih =>
    unfold digits
    split
    · rename_i h10
      rw [codes_lt h10, List.map_cons, UInt8.toNat_ofNat']
      show [(48 + n) % 2 ^ 8] = _
      congr 1
      omega
    · rw [codes_ge (by omega), List.map_append, ih (n / 10) (by omega), List.map_cons, UInt8.toNat_ofNat']
      show _ ++ [(48 + n % 10) % 2 ^ 8] = _
      congr 2
      omega

open Proto in
theorem parse_decText (x : Int) : parse ((decText x).map UInt8.toNat) = some x := by
  unfold decText
  split
  · rw [List.map_cons, digits_codes _ _ (Nat.le_refl _)]
    exact (parse_neg_codes x.natAbs).trans (congrArg some (by omega))
  · rw [digits_codes _ _ (Nat.le_refl _)]
    exact (parse_codes x.natAbs).trans (congrArg some (by omega))

/-- The parser of Go reads decimal text back: the assumption of `IntText` is met by the real parser. -/
def goText : Proto.IntText := ⟨fun b => parse (b.map UInt8.toNat), parse_decText⟩

end Dollar.GoInt
