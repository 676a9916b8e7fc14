import Verif.Lemmas.GoInt
import Verif.Spec.Numbers

/-
The number parser accepts exactly the integer literals.
-/
namespace Dollar.GoInt

open Spec

theorem digit_of {base : Nat} (c : Char) {d : Nat} (h : digitOf c = some d) (hd : d < base) :
    digit c.toNat = d ∧ c.toNat ≠ 95 := by
  unfold digitOf at h
  unfold digit
  split at h
  · next hc =>
    have h1 : 48 ≤ c.toNat := hc.1
    have h2 : c.toNat ≤ 57 := hc.2
    cases h
    exact ⟨if_pos ⟨h1, h2⟩, by omega⟩
  split at h
  · next hc =>
    have h1 : 97 ≤ c.toNat := hc.1
    have h2 : c.toNat ≤ 102 := hc.2
    cases h
    rw [if_neg (by omega), if_pos (by omega)]
    exact ⟨rfl, by omega⟩
  split at h
  · next hc =>
    have h1 : 65 ≤ c.toNat := hc.1
    have h2 : c.toNat ≤ 70 := hc.2
    cases h
    rw [if_neg (by omega), if_neg (by omega), if_pos (by omega)]
    exact ⟨rfl, by omega⟩
  · cases h

theorem of_digit {base : Nat} (hb : base ≤ 16) (c : Char) (h : digit c.toNat < base) :
    digitOf c = some (digit c.toNat) := by
  unfold digit at h ⊢
  unfold digitOf
  split at h
  · next hc =>
    rw [if_pos (show '0' ≤ c ∧ c ≤ '9' from hc), if_pos hc]
    rfl
  split at h
  · next h0 hc =>
    have h2 : c.toNat ≤ 102 := by omega
    rw [if_neg (show ¬ ('0' ≤ c ∧ c ≤ '9') from h0), if_pos (show 'a' ≤ c ∧ c ≤ 'f' from ⟨hc.1, h2⟩), if_neg h0, if_pos hc]
    rfl
  split at h
  · next h0 h1 hc =>
    have h2 : c.toNat ≤ 70 := by omega
    rw [if_neg (show ¬ ('0' ≤ c ∧ c ≤ '9') from h0),
      if_neg (show ¬ ('a' ≤ c ∧ c ≤ 'f') from fun h => h1 ⟨h.1, Nat.le_trans (show c.toNat ≤ 102 from h.2) (by decide)⟩),
      if_pos (show 'A' ≤ c ∧ c ≤ 'F' from ⟨hc.1, h2⟩), if_neg h0, if_neg h1, if_pos hc]
    rfl
  · omega

theorem scanDigits_snoc (base : Nat) (l : List Nat) (c v n : Nat) (p : Prev) (bad : Bool) :
    scanDigits base (l ++ [c]) v n p bad =
      if (scanDigits base l v n p bad).rest = [] then
        scanDigits base [c] (scanDigits base l v n p bad).value (scanDigits base l v n p bad).count
          (scanDigits base l v n p bad).prev (scanDigits base l v n p bad).invalSep
      else { scanDigits base l v n p bad with rest := (scanDigits base l v n p bad).rest ++ [c] } := by
  induction l generalizing v n p bad with
  | nil => rfl
  | cons x t ih =>
    rw [List.cons_append]
    by_cases h1 : x = 95
    · rw [scanDigits, if_pos h1, ih]
      conv_rhs => rw [scanDigits, if_pos h1]
    by_cases h2 : base ≤ digit x
    · rw [scanDigits, if_neg h1, if_pos h2]
      conv_rhs => rw [scanDigits, if_neg h1, if_pos h2]
      rfl
    · rw [scanDigits, if_neg h1, if_neg h2, ih]
      conv_rhs => rw [scanDigits, if_neg h1, if_neg h2]

/-- Every run of digits is scanned to its end. -/
theorem scan_run {base : Nat} {l : List Char} {v : Nat} (h : Run base l v) (p : Prev) :
    ∃ n, n ≠ 0 ∧ scanDigits base (l.map Char.toNat) 0 0 p false = ⟨v, n, .digit, false, []⟩ := by
  induction h with
  | one hc hd =>
    rename_i c d
    obtain ⟨e, e'⟩ := digit_of c hc hd
    refine ⟨1, by decide, ?_⟩
    rw [List.map_cons, List.map_nil, scanDigits, if_neg e', e, if_neg (by omega), Nat.zero_mul, Nat.zero_add]
    rfl
  | more _ hc hd ih =>
    rename_i l v c d _
    obtain ⟨n, hn, ih⟩ := ih
    obtain ⟨e, e'⟩ := digit_of c hc hd
    refine ⟨n + 1, by omega, ?_⟩
    rw [List.map_append, List.map_cons, List.map_nil, scanDigits_snoc, ih, if_pos rfl]
    rw [scanDigits, if_neg e', e, if_neg (by omega)]
    rfl
  | sep _ hc hd ih =>
    rename_i l v c d _
    obtain ⟨n, hn, ih⟩ := ih
    obtain ⟨e, e'⟩ := digit_of c hc hd
    refine ⟨n + 1, by omega, ?_⟩
    have es : (l ++ ['_', c]).map Char.toNat = (l.map Char.toNat ++ [95]) ++ [c.toNat] := by simp
    rw [es, scanDigits_snoc, scanDigits_snoc, ih, if_pos rfl]
    rw [show scanDigits base [95] v n .digit false = ⟨v, n, .sep, false, []⟩ from rfl, if_pos rfl]
    rw [scanDigits, if_neg e', e, if_neg (by omega)]
    rfl

/-- What a scan that ran to the end without a misplaced underscore has seen. -/
theorem run_scan {base : Nat} (hb : base ≤ 16) (p : Prev) (hp : p ≠ .digit) (l : List Char) :
    (scanDigits base (l.map Char.toNat) 0 0 p false).rest = [] →
    (scanDigits base (l.map Char.toNat) 0 0 p false).invalSep = false →
    (l = [] ∧ scanDigits base (l.map Char.toNat) 0 0 p false = ⟨0, 0, p, false, []⟩) ∨
    (∃ n v, n ≠ 0 ∧ scanDigits base (l.map Char.toNat) 0 0 p false = ⟨v, n, .digit, false, []⟩ ∧ Run base l v) ∨
    (∃ n v t, n ≠ 0 ∧ scanDigits base (l.map Char.toNat) 0 0 p false = ⟨v, n, .sep, false, []⟩ ∧ l = t ++ ['_'] ∧
      Run base t v) := by
  induction l using List.reverseRecOn with
  | nil => intro _ _; exact .inl ⟨rfl, rfl⟩
  | append_singleton l c ih =>
    rw [List.map_append, List.map_cons, List.map_nil, scanDigits_snoc]
    intro hr hi
    by_cases h0 : (scanDigits base (l.map Char.toNat) 0 0 p false).rest = []
    · rw [if_pos h0] at hr hi ⊢
      by_cases hc : c.toNat = 95
      · have hcu : c = '_' := Char.toNat_inj.1 hc
        rw [scanDigits, if_pos hc] at hi ⊢
        have hi' : ((scanDigits base (l.map Char.toNat) 0 0 p false).invalSep ||
          decide ((scanDigits base (l.map Char.toNat) 0 0 p false).prev ≠ .digit)) = false := hi
        rw [Bool.or_eq_false_iff] at hi'
        rcases ih h0 hi'.1 with ⟨_, e⟩ | ⟨n, v, hn, e, hv⟩ | ⟨n, v, t, hn, e, _, hv⟩
        · rw [e] at hi'
          exact absurd hi'.2 (by simp [hp])
        · refine .inr (.inr ⟨n, v, l, hn, ?_, by rw [hcu], hv⟩)
          rw [e]
          rfl
        · rw [e] at hi'
          exact absurd hi'.2 (by simp)
      · by_cases hd : base ≤ digit c.toNat
        · rw [scanDigits, if_neg hc, if_pos hd] at hr
          cases hr
        · have hdo := of_digit hb c (by omega)
          rw [scanDigits, if_neg hc, if_neg hd] at hi ⊢
          rcases ih h0 hi with ⟨rfl, e⟩ | ⟨n, v, hn, e, hv⟩ | ⟨n, v, t, hn, e, rfl, hv⟩
          · refine .inr (.inl ⟨1, digit c.toNat, by decide, ?_, .one hdo (by omega)⟩)
            rw [e]
            simp [scanDigits]
          · refine .inr (.inl ⟨n + 1, _, by omega, ?_, .more hv hdo (by omega)⟩)
            rw [e]
            rfl
          · refine .inr (.inl ⟨n + 1, v * base + digit c.toNat, by omega, ?_, ?_⟩)
            · rw [e]
              rfl
            · rw [List.append_assoc]
              exact .sep hv hdo (by omega)
    · rw [if_neg h0] at hr
      have := congrArg List.length hr
      simp at this

theorem run_ne_nil {base : Nat} {l : List Char} {v : Nat} (h : Run base l v) : l ≠ [] := by
  cases h <;> simp

theorem run_head {base : Nat} {l : List Char} {v : Nat} (h : Run base l v) (c : Char) (t : List Char) (hl : l = c :: t) :
    ∃ d, digitOf c = some d ∧ d < base := by
  induction h generalizing t with
  | one hc hd => cases hl; exact ⟨_, hc, hd⟩
  | more h _ _ ih =>
    rename_i l _ _ _ _ _
    cases l with
    | nil => exact absurd rfl (run_ne_nil h)
    | cons a b =>
      rw [List.cons_append] at hl
      exact ih b (by rw [(List.cons.inj hl).1])
  | sep h _ _ ih =>
    rename_i l _ _ _ _ _
    cases l with
    | nil => exact absurd rfl (run_ne_nil h)
    | cons a b =>
      rw [List.cons_append] at hl
      exact ih b (by rw [(List.cons.inj hl).1])

/-- The scan of a whole text from a fresh start. -/
theorem whole_run {base : Nat} (hb : base ≤ 16) (o : Bool) (p : Prev) (hp : p ≠ .digit) (l : List Char)
    (ho : o = false ∨ p = .sep ∨ l ≠ []) (v : Nat) :
    whole (scanEnd o (scanDigits base (l.map Char.toNat) 0 0 p false)) = some v ↔ Run base l v := by
  constructor
  · intro h
    have hr : (scanDigits base (l.map Char.toNat) 0 0 p false).rest = [] := by
      by_contra hr
      rw [whole_scanEnd_ne hr] at h
      cases h
    have hi : (scanDigits base (l.map Char.toNat) 0 0 p false).invalSep = false := by
      by_contra hi
      have hi := (Bool.not_eq_false _).mp hi
      unfold scanEnd at h
      rw [if_pos (.inl hi)] at h
      cases h
    rcases run_scan hb p hp l hr hi with ⟨hl, e⟩ | ⟨n, w, hn, e, hw⟩ | ⟨n, w, t, hn, e, _, hw⟩
    · rw [e] at h
      unfold scanEnd at h
      split at h
      · cases h
      · next hs =>
        rcases ho with rfl | ho | ho
        · rw [if_pos rfl] at h; cases h
        · exact absurd (.inr ho) hs
        · exact absurd hl ho
    · rw [e, scanEnd_ok _ _ hn] at h
      cases h
      exact hw
    · rw [e] at h
      unfold scanEnd at h
      rw [if_pos (.inr rfl)] at h
      cases h
  · intro h
    obtain ⟨n, hn, e⟩ := scan_run h p
    rw [e, scanEnd_ok _ _ hn]
    rfl

/-- The scan of what follows a prefix. -/
theorem whole_prefixed {base : Nat} (hb : base ≤ 16) (o : Bool) (l : List Char) (hl : o = false ∨ l ≠ []) (v : Nat) :
    whole (scanEnd o (scanDigits base (l.map Char.toNat) 0 0 .digit false)) = some v ↔ Prefixed base l v := by
  cases l with
  | nil =>
    have ho : o = false := hl.resolve_right (fun h => h rfl)
    subst ho
    constructor
    · intro h; cases h
    · rintro (h | ⟨t, h, _⟩)
      · exact absurd rfl (run_ne_nil h)
      · cases h
  | cons c t =>
    by_cases hc : c = '_'
    · subst hc
      have e : scanDigits base (('_' :: t).map Char.toNat) 0 0 .digit false =
          scanDigits base (t.map Char.toNat) 0 0 .sep false := rfl
      rw [e, whole_run hb o .sep (by decide) t (.inr (.inl rfl))]
      constructor
      · exact fun h => .inr ⟨t, rfl, h⟩
      · rintro (h | ⟨t, h, h'⟩)
        · obtain ⟨d, hd, _⟩ := run_head h _ _ rfl
          exact absurd hd (by simp [digitOf])
        · cases h; exact h'
    · have hc' : c.toNat ≠ 95 := fun h => hc (Char.toNat_inj.1 h)
      have e : whole (scanEnd o (scanDigits base ((c :: t).map Char.toNat) 0 0 .digit false)) =
          whole (scanEnd o (scanDigits base ((c :: t).map Char.toNat) 0 0 .other false)) := by
        rw [List.map_cons, scanDigits, if_neg hc', scanDigits, if_neg hc']
        by_cases hd : base ≤ digit c.toNat
        · rw [if_pos hd, if_pos hd, whole_scanEnd_ne (by simp), whole_scanEnd_ne (by simp)]
        · rw [if_neg hd, if_neg hd]
      rw [e, whole_run hb o .other (by decide) _ (.inr (.inr (by simp)))]
      constructor
      · exact .inl
      · rintro (h | ⟨t, h, h'⟩)
        · exact h
        · exact absurd (List.cons.inj h).1 hc

theorem prefixed_head {base : Nat} {c : Char} {t : List Char} {v : Nat} (h : Prefixed base (c :: t) v) :
    c = '_' ∨ ∃ d, digitOf c = some d ∧ d < base := by
  rcases h with h | ⟨u, h, _⟩
  · exact .inr (run_head h _ _ rfl)
  · exact .inl (List.cons.inj h).1

/-- A text that begins with a zero and goes on. -/
theorem literal_zero (x : Char) (u : List Char) (v : Nat) : Literal ('0' :: x :: u) v ↔
    if x = 'b' ∨ x = 'B' then Prefixed 2 u v else if x = 'o' ∨ x = 'O' then Prefixed 8 u v
    else if x = 'x' ∨ x = 'X' then Prefixed 16 u v else Prefixed 8 (x :: u) v := by
  constructor
  · intro h
    cases h with
    | decimal _ h => exact absurd rfl h
    | bare h =>
      have hx : ¬ (x = 'b' ∨ x = 'B') ∧ ¬ (x = 'o' ∨ x = 'O') ∧ ¬ (x = 'x' ∨ x = 'X') := by
        rcases prefixed_head h with rfl | ⟨d, hd, hlt⟩
        · decide
        · refine ⟨?_, ?_, ?_⟩
          all_goals
            rintro (rfl | rfl)
            all_goals
              first
              | (have : d = 11 := (Option.some.inj hd).symm
                 omega)
              | exact absurd hd (by simp [digitOf])
      rw [if_neg hx.1, if_neg hx.2.1, if_neg hx.2.2]
      exact h
    | octal hx h => rw [if_neg (by rcases hx with rfl | rfl <;> decide), if_pos hx]; exact h
    | binary hx h => rw [if_pos hx]; exact h
    | hex hx h =>
      rw [if_neg (by rcases hx with rfl | rfl <;> decide), if_neg (by rcases hx with rfl | rfl <;> decide), if_pos hx]
      exact h
  · intro h
    split at h
    · next hx => exact .binary hx h
    split at h
    · next hx => exact .octal hx h
    split at h
    · next hx => exact .hex hx h
    · exact .bare h

theorem char_code (c k : Char) : c = k ↔ c.toNat = k.toNat := Char.toNat_inj.symm

/-- The scanner takes the whole of a text exactly if it is a literal. -/
theorem literal_iff (l : List Char) (v : Nat) : whole (scanNat (l.map Char.toNat)) = some v ↔ Literal l v := by
  cases l with
  | nil =>
    constructor
    · intro h; cases h
    · intro h
      cases h with
      | decimal h _ => exact absurd rfl (run_ne_nil h)
  | cons c t =>
    by_cases hc : c = '0'
    · subst hc
      cases t with
      | nil =>
        constructor
        · intro h
          cases h
          exact .zero
        · intro h
          cases h with
          | zero => rfl
          | decimal _ h => exact absurd rfl h
          | bare h =>
            rcases h with h | ⟨_, h, _⟩
            · exact absurd rfl (run_ne_nil h)
            · cases h
      | cons x u =>
        rw [literal_zero]
        have e : scanNat (('0' :: x :: u).map Char.toNat) =
            if x.toNat = 98 ∨ x.toNat = 66 then scanEnd false (scanDigits 2 (u.map Char.toNat) 0 0 .digit false)
            else if x.toNat = 111 ∨ x.toNat = 79 then scanEnd false (scanDigits 8 (u.map Char.toNat) 0 0 .digit false)
            else if x.toNat = 120 ∨ x.toNat = 88 then scanEnd false (scanDigits 16 (u.map Char.toNat) 0 0 .digit false)
            else scanEnd true (scanDigits 8 ((x :: u).map Char.toNat) 0 0 .digit false) := rfl
        rw [e]
        simp only [char_code]
        show _ ↔ if x.toNat = 98 ∨ x.toNat = 66 then _ else if x.toNat = 111 ∨ x.toNat = 79 then _
          else if x.toNat = 120 ∨ x.toNat = 88 then _ else _
        by_cases h1 : x.toNat = 98 ∨ x.toNat = 66
        · rw [if_pos h1, if_pos h1]
          exact whole_prefixed (by decide) false u (.inl rfl) v
        rw [if_neg h1, if_neg h1]
        by_cases h2 : x.toNat = 111 ∨ x.toNat = 79
        · rw [if_pos h2, if_pos h2]
          exact whole_prefixed (by decide) false u (.inl rfl) v
        rw [if_neg h2, if_neg h2]
        by_cases h3 : x.toNat = 120 ∨ x.toNat = 88
        · rw [if_pos h3, if_pos h3]
          exact whole_prefixed (by decide) false u (.inl rfl) v
        rw [if_neg h3, if_neg h3]
        exact whole_prefixed (by decide) true (x :: u) (.inr (by simp)) v
    · have hc' : c.toNat ≠ 48 := fun h => hc (Char.toNat_inj.1 h)
      have e : scanNat ((c :: t).map Char.toNat) =
          scanEnd false (scanDigits 10 ((c :: t).map Char.toNat) 0 0 .other false) := by
        rw [List.map_cons, scanNat.eq_def]
        simp only
        rw [if_neg hc']
      rw [e, whole_run (by decide) false .other (by decide) _ (.inl rfl)]
      constructor
      · exact fun h => .decimal h (by simpa using hc)
      · intro h
        cases h with
        | zero => exact absurd rfl hc
        | decimal h _ => exact h
        | bare _ => exact absurd rfl hc
        | octal _ _ => exact absurd rfl hc
        | binary _ _ => exact absurd rfl hc
        | hex _ _ => exact absurd rfl hc

theorem literal_head {c : Char} {t : List Char} {v : Nat} (h : Literal (c :: t) v) : c ≠ '+' ∧ c ≠ '-' := by
  have hd : '0' = c ∨ ∃ d, digitOf c = some d := by
    cases h with
    | decimal h _ =>
      obtain ⟨d, hd, _⟩ := run_head h _ _ rfl
      exact .inr ⟨d, hd⟩
    | _ => exact .inl rfl
  rcases hd with rfl | ⟨d, hd⟩
  · decide
  · constructor
    · rintro rfl
      exact absurd hd (by decide +revert)
    · rintro rfl
      exact absurd hd (by decide +revert)

theorem parse_cons (c : Nat) (t : List Nat) : parse (c :: t) =
    if c = 45 then (whole (scanNat t)).map fun n : Nat => -(n : Int)
    else if c = 43 then (whole (scanNat t)).map fun n : Nat => (n : Int)
    else (whole (scanNat (c :: t))).map fun n : Nat => (n : Int) := by
  rw [parse]
  cases whole (scanNat t) <;> cases whole (scanNat (c :: t)) <;> rfl

/-- A text is read as a number exactly if it is a literal with an optional sign. -/
theorem parse_iff (l : List Char) (x : Int) : parse (l.map Char.toNat) = some x ↔ SignedLiteral l x := by
  cases l with
  | nil =>
    constructor
    · intro h; cases h
    · rintro ⟨n, ⟨h, _⟩ | ⟨t, h, _⟩ | ⟨t, h, _⟩⟩
      · cases h with
        | decimal h _ => exact absurd rfl (run_ne_nil h)
      · cases h
      · cases h
  | cons c t =>
    rw [List.map_cons, parse_cons]
    by_cases h1 : c.toNat = 45
    · have hc : c = '-' := Char.toNat_inj.1 h1
      subst hc
      rw [if_pos h1, Option.map_eq_some_iff]
      constructor
      · rintro ⟨n, hn, rfl⟩
        exact ⟨n, .inr (.inr ⟨t, rfl, (literal_iff t n).1 hn, rfl⟩)⟩
      · rintro ⟨n, ⟨h, _⟩ | ⟨t, h, _⟩ | ⟨u, h, hl, rfl⟩⟩
        · exact absurd rfl (literal_head h).2
        · cases (List.cons.inj h).1
        · rw [(List.cons.inj h).2]
          exact ⟨n, (literal_iff u n).2 hl, rfl⟩
    rw [if_neg h1]
    by_cases h2 : c.toNat = 43
    · have hc : c = '+' := Char.toNat_inj.1 h2
      subst hc
      rw [if_pos h2, Option.map_eq_some_iff]
      constructor
      · rintro ⟨n, hn, rfl⟩
        exact ⟨n, .inr (.inl ⟨t, rfl, (literal_iff t n).1 hn, rfl⟩)⟩
      · rintro ⟨n, ⟨h, _⟩ | ⟨u, h, hl, rfl⟩ | ⟨u, h, _⟩⟩
        · exact absurd rfl (literal_head h).1
        · rw [(List.cons.inj h).2]
          exact ⟨n, (literal_iff u n).2 hl, rfl⟩
        · cases (List.cons.inj h).1
    rw [if_neg h2, Option.map_eq_some_iff, ← List.map_cons]
    constructor
    · rintro ⟨n, hn, rfl⟩
      exact ⟨n, .inl ⟨(literal_iff _ n).1 hn, rfl⟩⟩
    · rintro ⟨n, ⟨h, rfl⟩ | ⟨u, h, _⟩ | ⟨u, h, _⟩⟩
      · exact ⟨n, (literal_iff _ n).2 h, rfl⟩
      · exact absurd (by rw [(List.cons.inj h).1]; rfl) h2
      · exact absurd (by rw [(List.cons.inj h).1]; rfl) h1

end Dollar.GoInt
