import Verif.Model.Vaults

/-
The three conversions of keeper/math.go and the decimal computations of the module once more, now with the overflow panic of
`cosmossdk.io/math.Int`: `Mul`, `Add` and `Sub` panic when the absolute value of the result needs more
than 256 bits.  (`SafeMul` first compares the sum of the bit lengths with 257; a product whose
factors exceed that also needs more than 256 bits, so the check on the result is the whole check.)
`none` is the panic.  The rest of the model uses the unchecked conversions of Model/Math; C71
shows that the two agree in every state a chain can get to in its first 2^40 messages, and C85 shows it for the
decimals (2^39 messages).
-/
namespace Dollar.Checked

/-- cosmossdk.io/math `Int` after an operation, as used in keeper/math.go:28-44: a panic when the
value needs more than 256 bits. -/
def fit (n : Int) : Option Int := if n.natAbs < 2 ^ 256 then some n else none

/-- `MulRaw` in keeper/math.go:28-44. -/
def mul (a b : Int) : Option Int := fit (a * b)

/-- `AddRaw` in keeper/math.go:28-30. -/
def add (a b : Int) : Option Int := fit (a + b)

/-- `SubRaw` in keeper/math.go:28-30. -/
def sub (a b : Int) : Option Int := fit (a - b)

/-- `QuoRaw` in keeper/math.go:28-44: truncates, panics on a zero divisor. -/
def quo (a b : Int) : Option Int := if b = 0 then none else some (a.tdiv b)

/-- keeper/math.go:28-30, `presentAmount.MulRaw(1e12).AddRaw(index).SubRaw(1).QuoRaw(index)`. -/
def principalUp (amount index : Int) : Option Int := do
  let x ← mul amount SCALE
  let x ← add x index
  let x ← sub x 1
  quo x index

/-- keeper/math.go:35-37, `presentAmount.MulRaw(1e12).QuoRaw(index)`. -/
def principalDown (amount index : Int) : Option Int := do
  let x ← mul amount SCALE
  quo x index

/-- keeper/math.go:42-44, `principalAmount.MulRaw(index).QuoRaw(1e12)`. -/
def present (principal index : Int) : Option Int := do
  let x ← mul principal index
  quo x SCALE

/-! ### `LegacyDec` -/

/-- cosmossdk.io/math `LegacyDec` after `Quo` or `MulInt`: a panic when the scaled value needs more than
`maxDecBitLen` = 256 + 59 bits. `ToLegacyDec`, `QuoInt` and `QuoInt64` have no such check. -/
def decFit (n : Int) : Option Int := if n.natAbs < 2 ^ 315 then some n else none

/-- `LegacyDec.Quo` in keeper/msg_server.go:236 and keeper/msg_server_vaults.go:405. -/
def decQuo (a b : Int) : Option Int := if b = 0 then none else decFit (Dollar.decQuo a b)

/-- `LegacyDec.QuoInt` and `QuoInt64` in keeper/msg_server.go:234, 374. -/
def decQuoInt (a i : Int) : Option Int := if i = 0 then none else some (Dollar.decQuoInt a i)

/-- `LegacyDec.MulInt` in keeper/msg_server.go:375 and keeper/msg_server_vaults.go:405. -/
def decMulInt (a i : Int) : Option Int := decFit (Dollar.decMulInt a i)

/-- `LegacyDec.TruncateInt` in keeper/msg_server.go:236, 375 and keeper/msg_server_vaults.go:405: the result is an
`Int` again. -/
def decTrunc (a : Int) : Option Int := fit (Dollar.decTrunc a)

/-- keeper/msg_server_vaults.go:398-417 and keeper/query_server_vaults.go:130-141, see `Dollar.userReward`. -/
def userReward (cur amountPrincipal : Int) (r : Reward) : Option Int :=
  if 0 < r.total ∧ 0 < r.rewards then
    if r.index ≠ cur ∧ 0 ≤ r.rewards then do
      let x ← decQuo (decOfInt r.rewards) (decOfInt r.total)
      let x ← decMulInt x amountPrincipal
      decTrunc x
    else some 0
  else some 0

/-- keeper/msg_server.go:234-236, see `Dollar.yieldPrincipal`. -/
def yieldPrincipal (y index : Int) : Option Int := do
  let i ← decQuoInt (decOfInt index) SCALE
  let x ← decQuo (decOfInt y) i
  decTrunc x

/-- keeper/msg_server.go:373-375, see `Dollar.yieldPortion`. -/
def yieldPortion (col total y : Int) : Option Int := do
  let x ← decQuoInt (decOfInt col) total
  let x ← decMulInt x y
  decTrunc x

end Dollar.Checked
