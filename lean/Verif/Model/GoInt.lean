import Verif.Basic.M

/-
The number parser of Go, `big.Int.SetString(s, 0)` (standard library math/big/intconv.go and natconv.go).
The module reads every amount given as text with it: `math.NewIntFromString` (ibc_middleware.go:74,
genesis.go:57, 75, 98) and, through `math.Int.Unmarshal`, the amounts in messages and in the store
(types/vaults/vaults.pb.go:895).
-/
namespace Dollar.GoInt

/-- math/big/natconv.go `scan`: the value of a digit in a base up to 36, by its character code; any other
character has a value above every base. -/
def digit (c : Nat) : Nat :=
  if 48 ≤ c ∧ c ≤ 57 then c - 48
  else if 97 ≤ c ∧ c ≤ 122 then c - 97 + 10
  else if 65 ≤ c ∧ c ≤ 90 then c - 65 + 10
  else 63

/-- math/big/natconv.go `scan`: what the previous character was (`'_'`, `'0'` for a digit, `'.'` for anything
else). -/
inductive Prev where
  | sep
  | digit
  | other
  deriving DecidableEq, Repr

/-- The result of the digit loop: value, number of digits, previous character, whether an underscore was
misplaced, and the characters not read. -/
structure Scanned where
  value : Nat
  count : Nat
  prev : Prev
  invalSep : Bool
  rest : List Nat
  deriving DecidableEq, Repr

/-- math/big/natconv.go `scan`: the loop over the digits (`'_'` is 95). -/
def scanDigits (base : Nat) : List Nat → Nat → Nat → Prev → Bool → Scanned
  | [], v, n, p, bad => ⟨v, n, p, bad, []⟩
  | c :: t, v, n, p, bad =>
    if c = 95 then scanDigits base t v n .sep (bad || decide (p ≠ .digit))
    else if base ≤ digit c then ⟨v, n, p, bad, c :: t⟩
    else scanDigits base t (v * base + digit c) (n + 1) .digit bad

/-- math/big/natconv.go `scan`: the end of the function.  `octal` says that the number began with a bare `0`,
which is then a number of its own if no digit follows. -/
def scanEnd (octal : Bool) (r : Scanned) : Option (Nat × List Nat) :=
  if r.invalSep = true ∨ r.prev = .sep then none
  else if r.count = 0 then if octal then some (0, r.rest) else none
  else some (r.value, r.rest)

/-- math/big/natconv.go `scan` with base 0: the prefix (`0b`, `0o`, `0x`, or a bare `0` for octal) chooses the
base, 10 without one. -/
def scanNat : List Nat → Option (Nat × List Nat)
  | [] => scanEnd false (scanDigits 10 [] 0 0 .other false)
  | c :: t =>
    if c = 48 then
      match t with
      | [] => some (0, [])
      | x :: u =>
        if x = 98 ∨ x = 66 then scanEnd false (scanDigits 2 u 0 0 .digit false)
        else if x = 111 ∨ x = 79 then scanEnd false (scanDigits 8 u 0 0 .digit false)
        else if x = 120 ∨ x = 88 then scanEnd false (scanDigits 16 u 0 0 .digit false)
        else scanEnd true (scanDigits 8 (x :: u) 0 0 .digit false)
    else scanEnd false (scanDigits 10 (c :: t) 0 0 .other false)

/-- math/big/int.go `setFromScanner`: the whole text must be consumed. -/
def whole (r : Option (Nat × List Nat)) : Option Nat :=
  match r with
  | some (v, []) => some v
  | _ => none

/-- math/big/intconv.go `scan` and `scanSign`: an optional sign (`'-'` is 45, `'+'` is 43), then the number. -/
def parse : List Nat → Option Int
  | [] => none
  | c :: t =>
    if c = 45 then (whole (scanNat t)).map fun n => -(n : Int)
    else if c = 43 then (whole (scanNat t)).map fun n => (n : Int)
    else (whole (scanNat (c :: t))).map fun n => (n : Int)

end Dollar.GoInt
