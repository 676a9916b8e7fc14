/-
Specification of exact integer division, independent of the model.
-/
namespace Dollar.Spec

/-- `q` is the greatest integer with `q * den ≤ num`. -/
def IsFloor (num den q : Int) : Prop := q * den ≤ num ∧ ∀ x : Int, x * den ≤ num → x ≤ q

/-- `q` is the least integer with `num ≤ q * den`. -/
def IsCeil (num den q : Int) : Prop := num ≤ q * den ∧ ∀ x : Int, num ≤ x * den → q ≤ x

end Dollar.Spec
