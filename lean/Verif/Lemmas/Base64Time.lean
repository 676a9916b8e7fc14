import Verif.Model.GenesisJson
import Verif.Lemmas.GoInt
import Mathlib.Tactic.IntervalCases

/-
Base64 text and RFC 3339 times are read back.
-/
namespace Dollar.Json

/-! ### Base64 -/

theorem b64Val_b64Char {n : Nat} (h : n < 64) : b64Val (b64Char n) = some n := by
  interval_cases n <;> decide

theorem b64Char_plain {n : Nat} (h : n < 64) : b64Char n ≠ '\r' ∧ b64Char n ≠ '\n' ∧ b64Char n ≠ '=' := by
  interval_cases n <;> decide

theorem b64Quad_eq {n : Nat} (h : n < 16777216) :
    b64Quad (b64Char (n / 262144)) (b64Char (n / 4096 % 64)) (b64Char (n / 64 % 64)) (b64Char (n % 64)) =
      some [UInt8.ofNat (n / 65536), UInt8.ofNat (n / 256 % 256), UInt8.ofNat (n % 256)] := by
  unfold b64Quad
  rw [b64Val_b64Char (by omega), b64Val_b64Char (by omega), b64Val_b64Char (by omega), b64Val_b64Char (by omega)]
  have : n / 262144 * 262144 + n / 4096 % 64 * 4096 + n / 64 % 64 * 64 + n % 64 = n := by omega
  simp only [Option.bind_eq_bind, Option.bind_some, this]
  rfl

theorem b64Quad_A (a b c : Char) : b64Quad a b c 'A' = b64Quad a b c (b64Char 0) := rfl

theorem unb64Groups_full {a b c d : Char} (hd : d ≠ '=') (t : List Char) :
    unb64Groups (a :: b :: c :: d :: t) =
      (b64Quad a b c d).bind fun l => (unb64Groups t).bind fun r => some (l ++ r) := by
  conv_lhs => unfold unb64Groups
  split
  · rename_i he; cases he
  · rename_i he; simp only [List.cons.injEq] at he; exact absurd he.2.2.2.1 hd
  · rename_i he; simp only [List.cons.injEq] at he; exact absurd he.2.2.2.1 hd
  · rename_i he
    simp only [List.cons.injEq] at he
    obtain ⟨rfl, rfl, rfl, rfl, rfl⟩ := he
    rfl
  · rename_i h; exact (h _ _ _ _ _ rfl).elim

theorem ofNat_toNat' (a : UInt8) (n : Nat) (h : n = a.toNat) : UInt8.ofNat n = a := by
  rw [h, UInt8.ofNat_toNat]

theorem unb64Groups_b64 (l : Bytes) : unb64Groups (b64 l) = some l := by
  induction l using b64.induct with
  | case1 a b c t ih =>
    have ha := a.toNat_lt; have hb := b.toNat_lt; have hc := c.toNat_lt
    unfold b64
    simp only []
    have hn : a.toNat * 65536 + b.toNat * 256 + c.toNat < 16777216 := by omega
    rw [unb64Groups_full (b64Char_plain (by omega)).2.2, b64Quad_eq hn, ih]
    simp only [Option.bind_some]
    rw [ofNat_toNat' a _ (by omega), ofNat_toNat' b _ (by omega), ofNat_toNat' c _ (by omega)]
    rfl
  | case2 a b =>
    have ha := a.toNat_lt; have hb := b.toNat_lt
    unfold b64
    simp only []
    have hn : a.toNat * 65536 + b.toNat * 256 < 16777216 := by omega
    have e := b64Quad_eq hn
    have h0 : (a.toNat * 65536 + b.toNat * 256) % 64 = 0 := by omega
    rw [h0] at e
    have hp : b64Char ((a.toNat * 65536 + b.toNat * 256) / 64 % 64) ≠ '=' := (b64Char_plain (by omega)).2.2
    have : unb64Groups [b64Char ((a.toNat * 65536 + b.toNat * 256) / 262144),
        b64Char ((a.toNat * 65536 + b.toNat * 256) / 4096 % 64),
        b64Char ((a.toNat * 65536 + b.toNat * 256) / 64 % 64), '='] =
        (b64Quad (b64Char ((a.toNat * 65536 + b.toNat * 256) / 262144))
          (b64Char ((a.toNat * 65536 + b.toNat * 256) / 4096 % 64))
          (b64Char ((a.toNat * 65536 + b.toNat * 256) / 64 % 64)) 'A').map fun l => l.take 2 := by
      generalize b64Char ((a.toNat * 65536 + b.toNat * 256) / 64 % 64) = x at hp ⊢
      conv_lhs => unfold unb64Groups
      split
      · rename_i he; cases he
      · rename_i he; simp only [List.cons.injEq] at he; exact absurd he.2.2.1 hp
      · rename_i he
        simp only [List.cons.injEq] at he
        obtain ⟨rfl, rfl, rfl, _⟩ := he
        rfl
      · rename_i h he
        simp only [List.cons.injEq] at he
        exact (h he.2.2.2.1.symm he.2.2.2.2.symm).elim
      · rename_i h; exact (h _ _ _ _ _ rfl).elim
    rw [this, b64Quad_A, e]
    simp only [Option.map_some, List.take]
    rw [ofNat_toNat' a _ (by omega), ofNat_toNat' b _ (by omega)]
  | case3 a =>
    have ha := a.toNat_lt
    unfold b64
    simp only []
    have hn : a.toNat * 65536 < 16777216 := by omega
    have e := b64Quad_eq hn
    have h0 : (a.toNat * 65536) % 64 = 0 := by omega
    have h1 : (a.toNat * 65536) / 64 % 64 = 0 := by omega
    rw [h0, h1] at e
    have : unb64Groups [b64Char (a.toNat * 65536 / 262144), b64Char (a.toNat * 65536 / 4096 % 64), '=', '='] =
        (b64Quad (b64Char (a.toNat * 65536 / 262144)) (b64Char (a.toNat * 65536 / 4096 % 64)) 'A' 'A').map
          fun l => l.take 1 := rfl
    rw [this]
    have hA : b64Quad (b64Char (a.toNat * 65536 / 262144)) (b64Char (a.toNat * 65536 / 4096 % 64)) 'A' 'A' =
      b64Quad (b64Char (a.toNat * 65536 / 262144)) (b64Char (a.toNat * 65536 / 4096 % 64)) (b64Char 0) (b64Char 0) := rfl
    rw [hA, e]
    simp only [Option.map_some, List.take]
    rw [ofNat_toNat' a _ (by omega)]
  | case4 => rfl

theorem b64_plain (l : Bytes) : ∀ c ∈ b64 l, c ≠ '\r' ∧ c ≠ '\n' := by
  have hp : ∀ {n : Nat}, n < 64 → b64Char n ≠ '\r' ∧ b64Char n ≠ '\n' :=
    fun h => ⟨(b64Char_plain h).1, (b64Char_plain h).2.1⟩
  induction l using b64.induct with
  | case1 a b c t ih =>
    have ha := a.toNat_lt; have hb := b.toNat_lt; have hc := c.toNat_lt
    intro x hx
    unfold b64 at hx
    simp only [List.mem_cons] at hx
    rcases hx with rfl | rfl | rfl | rfl | hx
    · exact hp (by omega)
    · exact hp (by omega)
    · exact hp (by omega)
    · exact hp (by omega)
    · exact ih x hx
  | case2 a b =>
    have ha := a.toNat_lt; have hb := b.toNat_lt
    intro x hx
    unfold b64 at hx
    simp only [List.mem_cons, List.not_mem_nil, or_false] at hx
    rcases hx with rfl | rfl | rfl | rfl
    · exact hp (by omega)
    · exact hp (by omega)
    · exact hp (by omega)
    · decide
  | case3 a =>
    have ha := a.toNat_lt
    intro x hx
    unfold b64 at hx
    simp only [List.mem_cons, List.not_mem_nil, or_false] at hx
    rcases hx with rfl | rfl | rfl | rfl
    · exact hp (by omega)
    · exact hp (by omega)
    · decide
    · decide
  | case4 => intro x hx; cases hx

/-- Base64 text is read back. -/
theorem unb64_b64 (l : Bytes) : unb64 (b64 l) = some l := by
  unfold unb64
  rw [List.filter_eq_self.2, unb64Groups_b64]
  intro c hc
  have := b64_plain l c hc
  simp [this.1, this.2]

/-! ### Dates -/

theorem readDigits_append (j k n : Nat) (l : List Char) :
    readDigits (j + k) n l = (readDigits j n l).bind fun x => readDigits k x.1 x.2 := by
  induction j generalizing n l with
  | zero => rw [Nat.zero_add]; rfl
  | succ j ih =>
    rw [Nat.succ_add]
    cases l with
    | nil => rfl
    | cons c t =>
      rw [readDigits, readDigits]
      split
      · exact ih _ _
      · rfl

theorem digitChar_digit {d : Nat} (h : d < 10) : (Nat.digitChar d).isDigit = true := by
  interval_cases d <;> rfl

theorem readDigits_digits (k n m : Nat) (r : List Char) (h : n < 10 ^ k) :
    readDigits k m (digits k n ++ r) = some (m * 10 ^ k + n, r) := by
  induction k generalizing n r with
  | zero =>
    have : n = 0 := by simpa using h
    subst this
    simp [digits, readDigits]
  | succ k ih =>
    have h' : n / 10 < 10 ^ k := by
      rw [Nat.pow_succ] at h
      omega
    rw [readDigits_append]
    unfold digits
    rw [List.append_assoc, List.singleton_append, ih _ _ h']
    have hd : n % 10 < 10 := Nat.mod_lt _ (by decide)
    simp only [Option.bind_some]
    rw [readDigits, if_pos (digitChar_digit hd), GoInt.digitChar_toNat hd, readDigits, Nat.pow_succ]
    congr 2
    have : m * (10 ^ k * 10) = (m * 10 ^ k) * 10 := by rw [Nat.mul_assoc]
    omega

theorem yearDay_aux {A c q a r1 : Nat} (hc : c ≤ 3) (hq : q ≤ 24) (ha : a ≤ 3)
    (h24 : q = 24 → r1 = 1460 → c = 3) (ha1 : a * 365 ≤ r1) (ha2 : r1 - a * 365 < 365 ∨ (a = 3 ∧ r1 = 1460)) :
    daysToYear (400 * A + 100 * c + 4 * q + a + 1) + (r1 - a * 365) = A * 146097 + c * 36524 + q * 1461 + r1 ∧
      r1 - a * 365 < 365 + (if isLeap (400 * A + 100 * c + 4 * q + a + 1) then 1 else 0) := by
  unfold daysToYear
  have e1 : (400 * A + 100 * c + 4 * q + a + 1 - 1) / 4 = 100 * A + 25 * c + q := by omega
  have e2 : (400 * A + 100 * c + 4 * q + a + 1 - 1) / 100 = 4 * A + c := by omega
  have e3 : (400 * A + 100 * c + 4 * q + a + 1 - 1) / 400 = A := by omega
  rw [e1, e2, e3]
  refine ⟨by omega, ?_⟩
  rcases ha2 with h | ⟨h3, h4⟩
  · exact Nat.lt_of_lt_of_le h (Nat.le_add_right _ _)
  · have hl : isLeap (400 * A + 100 * c + 4 * q + a + 1) = true := by
      unfold isLeap
      simp only [Bool.and_eq_true, Bool.or_eq_true, decide_eq_true_eq]
      omega
    rw [hl]
    simp only [if_true]
    omega

theorem yearDay_spec (d : Nat) :
    daysToYear (yearDay d).1 + (yearDay d).2 = d ∧ 1 ≤ (yearDay d).1 ∧
      (yearDay d).2 < 365 + (if isLeap (yearDay d).1 then 1 else 0) ∧ (d < 3652059 → (yearDay d).1 ≤ 9999) := by
  obtain ⟨A, r, c, r4, q, r1, a, hA, hr, hc, hr4, hq, hr1, ha⟩ : ∃ A r c r4 q r1 a, A = d / 146097 ∧ r = d % 146097 ∧
    c = min (r / 36524) 3 ∧ r4 = r - c * 36524 ∧ q = r4 / 1461 ∧ r1 = r4 % 1461 ∧ a = min (r1 / 365) 3 :=
    ⟨_, _, _, _, _, _, _, rfl, rfl, rfl, rfl, rfl, rfl, rfl⟩
  have hy : yearDay d = (400 * A + 100 * c + 4 * q + a + 1, r1 - a * 365) := by
    subst hA hr hc hr4 hq hr1 ha; rfl
  have hc1 : c ≤ 3 ∧ c * 36524 ≤ r ∧ (r - c * 36524 < 36524 ∨ (c = 3 ∧ r - c * 36524 ≤ 36524)) := by omega
  have hq1 : r4 = q * 1461 + r1 ∧ r1 < 1461 := by omega
  have hq2 : q ≤ 24 := by omega
  have h24 : q = 24 → r1 = 1460 → c = 3 := by omega
  have ha1 : a ≤ 3 ∧ a * 365 ≤ r1 ∧ (r1 - a * 365 < 365 ∨ (a = 3 ∧ r1 = 1460)) := by omega
  have := yearDay_aux (A := A) hc1.1 hq2 ha1.1 h24 ha1.2.1 ha1.2.2
  rw [hy]
  refine ⟨?_, Nat.succ_le_succ (Nat.zero_le _), this.2, ?_⟩
  · refine this.1.trans ?_
    clear this hy
    omega
  · intro hd
    show 400 * A + 100 * c + 4 * q + a + 1 ≤ 9999
    omega

theorem monthOf_spec : ∀ leap : Bool, ∀ doy < 365 + (if leap then 1 else 0),
    1 ≤ monthOf leap doy ∧ monthOf leap doy ≤ 12 ∧ daysToMonth leap (monthOf leap doy) ≤ doy ∧
      doy < daysToMonth leap (monthOf leap doy + 1) ∧ daysToMonth leap (monthOf leap doy) + 100 ≥ doy := by
  decide +kernel

theorem expect_cons (c : Char) (t : List Char) : expect c (c :: t) = some t := by
  show (if c = c then some t else none) = _
  rw [if_pos rfl]

theorem digits_cons (k n : Nat) : ∃ c t, digits (k + 1) n = c :: t ∧ c.isDigit = true ∧ ∀ x ∈ t, x.isDigit = true := by
  induction k generalizing n with
  | zero => exact ⟨_, [], rfl, digitChar_digit (Nat.mod_lt _ (by decide)), fun _ h => nomatch h⟩
  | succ k ih =>
    obtain ⟨c, t, h, h1, h2⟩ := ih (n / 10)
    rw [digits, h]
    refine ⟨c, t ++ [Nat.digitChar (n % 10)], rfl, h1, ?_⟩
    intro x hx
    rcases List.mem_append.1 hx with hx | hx
    · exact h2 x hx
    · rw [List.mem_singleton.1 hx]; exact digitChar_digit (Nat.mod_lt _ (by decide))

theorem skipFraction_digits (k n : Nat) : skipFraction ('.' :: (digits (k + 1) n ++ ['Z'])) = some ['Z'] := by
  obtain ⟨c, t, h, h1, h2⟩ := digits_cons k n
  rw [h, List.cons_append]
  unfold skipFraction
  simp only []
  rw [if_pos h1, List.dropWhile_append_of_pos h2]
  rfl

theorem skipFraction_fraction (nanos : Nat) : skipFraction (fraction nanos ++ ['Z']) = some ['Z'] := by
  unfold fraction
  split
  · rfl
  · split
    · exact skipFraction_digits 2 _
    · split
      · exact skipFraction_digits 5 _
      · exact skipFraction_digits 8 _

/-- A time is read back in whole seconds. -/
theorem readTime_timeText {sec : Int} (nanos : Nat) (h1 : -62135596800 ≤ sec) (h2 : sec < 253402300800) :
    readTime (timeText sec nanos) = some sec := by
  unfold timeText
  simp only []
  have hn : ((sec + epoch).toNat : Int) = sec + epoch := Int.toNat_of_nonneg (by unfold epoch; omega)
  generalize hN : (sec + epoch).toNat = n at hn ⊢
  have hlt : n < 315537897600 := by unfold epoch at hn; omega
  obtain ⟨s1, s2, s3, s4⟩ := yearDay_spec (n / 86400)
  have s4 := s4 (by omega)
  generalize hy : (yearDay (n / 86400)).1 = y at *
  generalize hdoy : (yearDay (n / 86400)).2 = doy at *
  obtain ⟨m1, m2, m3, m4, -⟩ := monthOf_spec (isLeap y) doy s3
  generalize hm : monthOf (isLeap y) doy = m at *
  unfold readTime
  have hmon : daysToMonth (isLeap y) (m + 1) ≤ daysToMonth (isLeap y) m + 31 := by
    have : ∀ l : Bool, ∀ k < 13, 1 ≤ k → daysToMonth l (k + 1) ≤ daysToMonth l k + 31 := by decide +kernel
    exact this _ m (by omega) m1
  rw [readDigits_digits 4 y 0 _ (by omega)]
  simp only [Option.bind_eq_bind, Option.bind_some, expect_cons]
  rw [readDigits_digits 2 m 0 _ (by omega)]
  simp only [Option.bind_some, expect_cons]
  rw [readDigits_digits 2 _ 0 _ (by omega)]
  simp only [Option.bind_some, expect_cons]
  rw [readDigits_digits 2 _ 0 _ (by omega)]
  simp only [Option.bind_some, expect_cons]
  rw [readDigits_digits 2 _ 0 _ (by omega)]
  simp only [Option.bind_some, expect_cons]
  rw [readDigits_digits 2 _ 0 _ (by omega)]
  simp only [Option.bind_some, skipFraction_fraction]
  simp only [readZone, Option.bind_some, Nat.zero_mul, Nat.zero_add]
  rw [if_pos (by omega)]
  have e : (((daysToYear y + daysToMonth (isLeap y) m + (doy - daysToMonth (isLeap y) m + 1 - 1)) * 86400 +
      n % 86400 / 3600 * 3600 + n % 3600 / 60 * 60 + n % 60 : Nat) : Int) = n := by omega
  rw [e]
  rw [if_pos (by unfold epoch at hn ⊢; omega)]
  congr 1
  omega

end Dollar.Json
