import Verif.Lemmas.Math
import Verif.Lemmas.Update
import Verif.Spec.Yield

namespace Dollar
open Spec

/-- The model's claimable amount is the specified one (for a non-negative balance). -/
theorem claimable_eq_yieldAt {s : State} {a : Addr} (hb : 0 ≤ s.balance a) (hi : 0 < s.index) :
    claimable s a = yieldAt s a s.index := by
  unfold claimable yieldAt present
  rw [show SCALE = 10 ^ 12 by decide]
  simp only
  by_cases hp : 0 ≤ s.principalOf a * s.index
  · rw [Int.tdiv_eq_ediv_of_nonneg hp]
    split <;> split <;> omega
  · have h1 : (s.principalOf a * s.index).tdiv (10 ^ 12) ≤ 0 := by
      have := Int.neg_tdiv (a := -(s.principalOf a * s.index)) (b := 10 ^ 12)
      rw [neg_neg] at this
      have h2 := tdiv_nonneg' (n := -(s.principalOf a * s.index)) (d := 10 ^ 12) (by omega) (by decide)
      omega
    have h2 : s.principalOf a * s.index / 10 ^ 12 ≤ 0 := by omega
    split <;> split <;> omega

end Dollar
