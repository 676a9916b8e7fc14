import Verif.Model.Types

/-
keeper/math.go and the parts of cosmossdk.io/math used by the module.
`math.Int` is modelled by `Int`; the 256-bit overflow panics are in Model/Checked (C71).
-/
namespace Dollar

/-- The scaling factor `1e12` of the index. -/
def SCALE : Int := 1000000000000

/-- keeper/math.go:28-30, for a non-zero index (`QuoRaw` truncates toward zero). -/
def roundedUp (amount index : Int) : Int := (amount * SCALE + index - 1).tdiv index

/-- keeper/math.go:35-37, for a non-zero index. -/
def roundedDown (amount index : Int) : Int := (amount * SCALE).tdiv index

/-- keeper/math.go:42-44. -/
def present (principal index : Int) : Int := (principal * index).tdiv SCALE

/-- keeper/math.go:28-30 with the division-by-zero panic of `QuoRaw`. -/
def principalUp (amount index : Int) : M Int :=
  if index = 0 then MM.crash else pure (roundedUp amount index)

/-- keeper/math.go:35-37 with the division-by-zero panic of `QuoRaw`. -/
def principalDown (amount index : Int) : M Int :=
  if index = 0 then MM.crash else pure (roundedDown amount index)

/-! ### LegacyDec: an integer scaled by 10^18 -/

/-- `LegacyDec` precision, 10^18. -/
def DEC : Int := 1000000000000000000

/-- `LegacyNewDec`, `LegacyNewDecFromInt`, `ToLegacyDec`. -/
def decOfInt (i : Int) : Int := i * DEC

/-- `chopPrecisionAndRound` on a non-negative integer: divide by 10^18, half to even. -/
def chopRoundPos (d : Int) : Int :=
  let q := d / DEC
  let r := d % DEC
  if 2 * r < DEC then q
  else if DEC < 2 * r then q + 1
  else if q % 2 = 0 then q else q + 1

/-- `chopPrecisionAndRound`. -/
def chopRound (d : Int) : Int := if d < 0 then -chopRoundPos (-d) else chopRoundPos d

/-- `LegacyDec.Quo` for a non-zero divisor. -/
def decQuo (a b : Int) : Int := chopRound ((a * (DEC * DEC)).tdiv b)

/-- `LegacyDec.QuoInt` / `QuoInt64` for a non-zero divisor (truncates). -/
def decQuoInt (a i : Int) : Int := a.tdiv i

/-- `LegacyDec.MulInt`. -/
def decMulInt (a i : Int) : Int := a * i

/-- `LegacyDec.TruncateInt`. -/
def decTrunc (a : Int) : Int := a.tdiv DEC

end Dollar
