/-
The integer literals of Go (language specification, "Integer literals"), with an optional sign.
-/
namespace Dollar.Spec

/-- The value of a digit, up to base 16. -/
def digitOf (c : Char) : Option Nat :=
  if '0' ≤ c ∧ c ≤ '9' then some (c.toNat - '0'.toNat)
  else if 'a' ≤ c ∧ c ≤ 'f' then some (c.toNat - 'a'.toNat + 10)
  else if 'A' ≤ c ∧ c ≤ 'F' then some (c.toNat - 'A'.toNat + 10)
  else none

/-- Digits of a base, with single underscores allowed between them. -/
inductive Run (base : Nat) : List Char → Nat → Prop
  | one {c d} : digitOf c = some d → d < base → Run base [c] d
  | more {l v c d} : Run base l v → digitOf c = some d → d < base → Run base (l ++ [c]) (v * base + d)
  | sep {l v c d} : Run base l v → digitOf c = some d → d < base → Run base (l ++ ['_', c]) (v * base + d)

/-- After a prefix an underscore may come first. -/
def Prefixed (base : Nat) (l : List Char) (v : Nat) : Prop := Run base l v ∨ ∃ t, l = '_' :: t ∧ Run base t v

/-- An integer literal: zero, decimal without leading zero, octal after `0`, `0o` or `0O`, binary after `0b` or `0B`,
hexadecimal after `0x` or `0X`. -/
inductive Literal : List Char → Nat → Prop
  | zero : Literal ['0'] 0
  | decimal {l v} : Run 10 l v → l.head? ≠ some '0' → Literal l v
  | bare {l v} : Prefixed 8 l v → Literal ('0' :: l) v
  | octal {x l v} : x = 'o' ∨ x = 'O' → Prefixed 8 l v → Literal ('0' :: x :: l) v
  | binary {x l v} : x = 'b' ∨ x = 'B' → Prefixed 2 l v → Literal ('0' :: x :: l) v
  | hex {x l v} : x = 'x' ∨ x = 'X' → Prefixed 16 l v → Literal ('0' :: x :: l) v

/-- A literal with an optional sign. -/
def SignedLiteral (l : List Char) (x : Int) : Prop :=
  ∃ n : Nat, (Literal l n ∧ x = n) ∨ (∃ t, l = '+' :: t ∧ Literal t n ∧ x = n) ∨ (∃ t, l = '-' :: t ∧ Literal t n ∧ x = -n)

end Dollar.Spec
