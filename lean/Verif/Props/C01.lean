import Verif.Lemmas.Math
import Verif.Spec.Arith

/-
C01: principal/present conversions are the exact integer roundings.
-/
namespace Dollar
open Spec

/-- The rounded-down principal is the greatest `p` with `p * I ≤ a * 10^12`. -/
theorem C01_down_exact (a i : Int) (ha : 0 ≤ a) (hi : 0 < i) :
    IsFloor (a * 10 ^ 12) i (roundedDown a i) := by
  have h := down_bounds ha hi
  exact ⟨h.1, fun x hx => le_of_mul_le_lt hi hx h.2⟩

/-- The rounded-up principal is the least `p` with `p * I ≥ a * 10^12`. -/
theorem C01_up_exact (a i : Int) (ha : 0 ≤ a) (hi : 0 < i) :
    IsCeil (a * 10 ^ 12) i (roundedUp a i) := by
  have h := up_bounds ha hi
  refine ⟨h.2, fun x hx => ?_⟩
  have : (roundedUp a i - 1) * i < x * i := lt_of_lt_of_le h.1 hx
  have := lt_of_mul_lt_mul_right this hi.le
  omega

/-- The present amount of a principal is the greatest `x` with `x * 10^12 ≤ p * I`. -/
theorem C01_present_exact (p i : Int) (hp : 0 ≤ p) (hi : 0 < i) :
    IsFloor (p * i) (10 ^ 12) (present p i) := by
  have h := present_bounds hp hi
  exact ⟨h.1, fun x hx => le_of_mul_le_lt SCALE_pos hx h.2⟩

/-- Rounding up is rounding down plus at most one. -/
theorem C01_up_down (a i : Int) (ha : 0 ≤ a) (hi : 0 < i) :
    roundedDown a i ≤ roundedUp a i ∧ roundedUp a i ≤ roundedDown a i + 1 :=
  ⟨down_le_up ha hi, up_le_down_succ ha hi⟩

/-- Converting down to principal and back never gains value. -/
theorem C01_down_back (a i : Int) (ha : 0 ≤ a) (hi : 0 < i) :
    present (roundedDown a i) i ≤ a := by
  have h1 := down_bounds ha hi
  have h2 := present_bounds (down_nonneg ha hi) hi
  exact le_of_mul_le_mul_right (h2.1.trans h1.1) SCALE_pos

/-- Converting up to principal and back never loses value. -/
theorem C01_up_back (a i : Int) (ha : 0 ≤ a) (hi : 0 < i) :
    a ≤ present (roundedUp a i) i := by
  have h1 := up_bounds ha hi
  have h2 := present_bounds (up_nonneg ha hi) hi
  exact le_of_mul_le_lt SCALE_pos h1.2 h2.2

/-- Both roundings agree exactly when the amount is a whole number of principal units. -/
theorem C01_exact_iff (a i : Int) (ha : 0 ≤ a) (hi : 0 < i) :
    roundedDown a i = roundedUp a i ↔ ∃ p : Int, p * i = a * 10 ^ 12 := by
  have h1 := down_bounds ha hi
  have h2 := up_bounds ha hi
  constructor
  · intro h
    exact ⟨roundedDown a i, le_antisymm h1.1 (h ▸ h2.2)⟩
  · rintro ⟨p, hp⟩
    have := (C01_down_exact a i ha hi).2 p hp.le
    have := (C01_up_exact a i ha hi).2 p hp.ge
    have := down_le_up ha hi
    omega

-- A case where the roundings differ: 10 units at index 1.3.
example : roundedDown 10 1300000000000 = 7 ∧ roundedUp 10 1300000000000 = 8 ∧
    present 7 1300000000000 = 9 ∧ present 8 1300000000000 = 10 := by decide

end Dollar
