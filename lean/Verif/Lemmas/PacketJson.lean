import Verif.Model.PacketJson
import Mathlib.Tactic.IntervalCases

/-
Reading a JSON text gives back what was written.
-/
namespace Dollar
namespace Json

theorem hexVal_hexDigit {n : Nat} (h : n < 16) : hexVal (hexDigit n) = some n := by
  interval_cases n <;> decide

theorem hexVal4_hex4 {n : Nat} (h : n < 65536) :
    hexVal4 (hexDigit (n / 4096 % 16)) (hexDigit (n / 256 % 16)) (hexDigit (n / 16 % 16)) (hexDigit (n % 16)) =
      some n := by
  unfold hexVal4
  rw [hexVal_hexDigit (Nat.mod_lt _ (by decide)), hexVal_hexDigit (Nat.mod_lt _ (by decide)),
    hexVal_hexDigit (Nat.mod_lt _ (by decide)), hexVal_hexDigit (Nat.mod_lt _ (by decide))]
  show some _ = some n
  congr 1
  omega

/-- The piece a character is written as. -/
def pieceOf (ch : Char) : Piece :=
  if ch = '"' ∨ ch = '\\' ∨ ch = '\n' ∨ ch = '\r' ∨ ch = '\t' ∨ ch.toNat = 8 ∨ ch.toNat = 12 then .lit ch
  else if escaped ch then .code ch.toNat else .lit ch

theorem char_of {ch : Char} {n : Nat} (h : ch.toNat = n) : Char.ofNat n = ch := by
  rw [← h, Char.ofNat_toNat]

theorem escaped_lt {ch : Char} (h : escaped ch = true) : ch.toNat < 55296 := by
  unfold escaped at h
  simp only [Bool.or_eq_true, decide_eq_true_eq] at h
  rcases h with ((((h | h) | h) | h) | h) | h
  · omega
  · subst h; decide
  · subst h; decide
  · subst h; decide
  · omega
  · omega

/-- Reading one written character. -/
theorem piece_escape (ch : Char) (r : List Char) :
    piece (escape ch ++ r) = some (pieceOf ch, r) ∧ ∃ x t, escape ch = x :: t ∧ x ≠ '"' := by
  unfold escape pieceOf
  by_cases h1 : ch = '"'
  · subst h1; exact ⟨rfl, _, _, rfl, by decide⟩
  by_cases h2 : ch = '\\'
  · subst h2; exact ⟨rfl, _, _, rfl, by decide⟩
  by_cases h3 : ch = '\n'
  · subst h3; exact ⟨rfl, _, _, rfl, by decide⟩
  by_cases h4 : ch = '\r'
  · subst h4; exact ⟨rfl, _, _, rfl, by decide⟩
  by_cases h5 : ch = '\t'
  · subst h5; exact ⟨rfl, _, _, rfl, by decide⟩
  by_cases h6 : ch.toNat = 8
  · obtain rfl := (char_of h6).symm; exact ⟨rfl, _, _, rfl, by decide⟩
  by_cases h7 : ch.toNat = 12
  · obtain rfl := (char_of h7).symm; exact ⟨rfl, _, _, rfl, by decide⟩
  simp only [h1, h2, h3, h4, h5, h6, h7, if_false, or_self]
  by_cases h8 : escaped ch = true
  · rw [if_pos h8, if_pos h8]
    refine ⟨?_, _, _, rfl, by decide⟩
    show (hexVal4 _ _ _ _).map _ = _
    rw [hexVal4_hex4 (by have := escaped_lt h8; omega)]
    rfl
  · rw [if_neg h8, if_neg h8]
    refine ⟨?_, _, _, rfl, h1⟩
    show piece (ch :: r) = _
    unfold escaped at h8
    simp only [Bool.or_eq_true, decide_eq_true_eq, not_or] at h8
    simp only [piece, h1, h2, h8.1.1.1.1.1, if_false]

theorem inside_written (s r : List Char) (n : Nat) (h : s.length < n) :
    inside n (s.flatMap escape ++ '"' :: r) = some (s.map pieceOf, r) := by
  induction s generalizing n with
  | nil =>
    cases n with
    | zero => cases h
    | succ n => rfl
  | cons ch t ih =>
    cases n with
    | zero => cases h
    | succ n =>
      obtain ⟨hp, x, u, he, hx⟩ := piece_escape ch (t.flatMap escape ++ '"' :: r)
      have hi := ih n (by simpa using h)
      rw [List.flatMap_cons, List.append_assoc]
      rw [he] at hp ⊢
      show (if x = '"' then _ else _) = _
      rw [if_neg hx]
      have hp' : piece (x :: (u ++ (t.flatMap escape ++ '"' :: r))) = _ := hp
      simp only [List.append_eq]
      rw [hp']
      simp only [hi]
      rfl

theorem join_cons (ch : Char) (l : List Piece) : join (pieceOf ch :: l) = ch :: join l := by
  unfold pieceOf
  split
  · rw [join]
  · split
    · rename_i h
      have hl := escaped_lt h
      have hn : ¬ (55296 ≤ ch.toNat ∧ ch.toNat < 57344) := by omega
      cases l with
      | nil => conv_lhs => rw [join, if_neg hn, Char.ofNat_toNat]
               rfl
      | cons p t =>
        cases p with
        | lit x => conv_lhs => rw [join, if_neg hn, Char.ofNat_toNat]
        | code m => conv_lhs => rw [join, if_neg (by omega), if_neg hn, Char.ofNat_toNat]
    · rw [join]

theorem join_written (s : List Char) : join (s.map pieceOf) = s := by
  induction s with
  | nil => rfl
  | cons ch t ih => rw [List.map_cons, join_cons, ih]

theorem length_le_flatMap (s : List Char) : s.length ≤ (s.flatMap escape).length := by
  induction s with
  | nil => exact Nat.le_refl _
  | cons ch t ih =>
    obtain ⟨_, x, u, he, _⟩ := piece_escape ch []
    rw [List.flatMap_cons, List.length_append, List.length_cons, he, List.length_cons]
    omega

/-- A written string is read back. -/
theorem string_quote (s r : List Char) : string (quote s ++ r) = some (s, r) := by
  unfold quote
  rw [List.cons_append, List.append_assoc]
  show ((inside ((s.flatMap escape ++ '"' :: r).length + 1) (s.flatMap escape ++ '"' :: r)).map fun x => (join x.1, x.2)) = _
  rw [inside_written s r _ (by
    have := length_le_flatMap s
    rw [List.length_append]
    omega)]
  simp only [Option.map_some, join_written]

theorem skip_quote (s r : List Char) : skip (quote s ++ r) = quote s ++ r := rfl
theorem value_quote (s r : List Char) : value (quote s ++ r) = some (s, r) := string_quote s r

/-- Written members are read back. -/
theorem readMembers_written (e : String × String) (t : List (String × String)) (r : List Char) (n : Nat)
    (h : t.length < n) :
    readMembers n (members (e :: t) ++ '}' :: r) = some ((e :: t).map fun f => (f.1.toList, f.2.toList)) := by
  induction t generalizing e n with
  | nil =>
    cases n with
    | zero => cases h
    | succ n =>
      simp only [members, member, List.append_assoc, List.cons_append, readMembers, skip_quote, string_quote]
      have h1 : skip (':' :: (quote e.2.toList ++ '}' :: r)) = ':' :: (quote e.2.toList ++ '}' :: r) := rfl
      have h2 : skip ('}' :: r) = '}' :: r := rfl
      simp only [h1, skip_quote, value_quote, h2]
      rfl
  | cons f t ih =>
    cases n with
    | zero => cases h
    | succ n =>
      have hi := ih f n (by simpa using h)
      simp only [members, member, List.append_assoc, List.cons_append, readMembers, skip_quote, string_quote]
      have h1 : ∀ l, skip (':' :: l) = ':' :: l := fun _ => rfl
      have h2 : ∀ l, skip (',' :: l) = ',' :: l := fun _ => rfl
      simp only [h1, skip_quote, value_quote, h2]
      rw [hi]
      rfl

theorem length_le_members (e : String × String) (t : List (String × String)) :
    t.length ≤ (members (e :: t)).length := by
  induction t generalizing e with
  | nil => exact Nat.zero_le _
  | cons f t ih =>
    have := ih f
    simp only [members, List.length_append, List.length_cons] at this ⊢
    omega

/-- A written object is read back. -/
theorem readObject_written (fs : List (String × String)) (r : List Char) :
    readObject (object fs ++ r) = some (fs.map fun f => (f.1.toList, f.2.toList)) := by
  cases fs with
  | nil => rfl
  | cons e t =>
    have hm := readMembers_written e t r ((members (e :: t) ++ '}' :: r).length + 1) (by
      rw [List.length_append]
      have := length_le_members e t
      omega)
    obtain ⟨u, hu⟩ : ∃ u, members (e :: t) = '"' :: u := by
      cases t with
      | nil => exact ⟨_, rfl⟩
      | cons f t => exact ⟨_, rfl⟩
    unfold object
    rw [List.cons_append, List.append_assoc]
    show readObject ('{' :: (members (e :: t) ++ '}' :: r)) = _
    rw [← hm, hu]
    rfl

end Json
end Dollar
