import Verif.Lemmas.Math
import Verif.Model.Vaults

/-
Arithmetic of the reward share.
-/
namespace Dollar

theorem chopRoundPos_bounds {d : Int} (hd : 0 ≤ d) :
    2 * DEC * chopRoundPos d ≤ 2 * d + DEC ∧ 2 * d ≤ 2 * DEC * chopRoundPos d + DEC ∧
      0 ≤ chopRoundPos d := by
  have h1 := Int.mul_ediv_add_emod d DEC
  have h2 := Int.emod_nonneg d DEC_pos.ne'
  have h3 := Int.emod_lt_of_pos d DEC_pos
  have h4 : 0 ≤ d / DEC := Int.ediv_nonneg hd DEC_pos.le
  unfold chopRoundPos
  simp only
  generalize d / DEC = q at *
  generalize d % DEC = r at *
  have e : DEC = 1000000000000000000 := rfl
  simp only [e] at *
  split
  · omega
  · split
    · omega
    · split <;> omega

/-- The quotient `R / T` as an 18-digit decimal, rounded. -/
theorem decQuo_bounds {R T : Int} (hR : 0 ≤ R) (hT : 0 < T) :
    2 * (decQuo (decOfInt R) (decOfInt T) * T) ≤ 2 * (R * DEC) + T ∧
    R * DEC ≤ decQuo (decOfInt R) (decOfInt T) * T + T ∧
    0 ≤ decQuo (decOfInt R) (decOfInt T) := by
  unfold decQuo decOfInt chopRound
  have hn : 0 ≤ R * DEC * (DEC * DEC) := by
    have := DEC_pos
    positivity
  have hd : 0 < T * DEC := Int.mul_pos hT DEC_pos
  obtain ⟨b1, b2⟩ := tdiv_bounds hn hd
  have b0 := tdiv_nonneg' hn hd
  generalize (R * DEC * (DEC * DEC)).tdiv (T * DEC) = d at *
  rw [if_neg (by omega)]
  obtain ⟨c1, c2, c3⟩ := chopRoundPos_bounds b0
  generalize chopRoundPos d = q at *
  -- cancel DEC in the bounds on d
  have b1 : d * T ≤ R * (DEC * DEC) := by
    refine le_of_mul_le_mul_right (a := DEC) ?_ DEC_pos
    linarith
  have b2 : R * (DEC * DEC) < (d + 1) * T := by
    refine lt_of_mul_lt_mul_right (a := DEC) ?_ DEC_pos.le
    linarith
  refine ⟨?_, ?_, c3⟩
  · refine le_of_mul_le_mul_right (a := DEC) ?_ DEC_pos
    have := mul_le_mul_of_nonneg_right c1 hT.le
    linarith
  · refine le_of_mul_le_mul_right (a := 2 * DEC) ?_ (by have := DEC_pos; linarith)
    have h := mul_le_mul_of_nonneg_right c2 hT.le
    have : 2 * T ≤ DEC * T := mul_le_mul_of_nonneg_right (by decide) hT.le
    linarith

/-- The share before checks: `floor(round18(R/T) * p)`. -/
theorem share_bounds {R T p : Int} (hR : 0 ≤ R) (hT : 0 < T) (hp : 0 ≤ p) :
    let w := decTrunc (decMulInt (decQuo (decOfInt R) (decOfInt T)) p)
    0 ≤ w ∧ 2 * (w * T * DEC) ≤ 2 * (p * R * DEC) + p * T ∧
      p * R * DEC < (w + 1) * T * DEC + p * T ∧ (p ≤ T → p < 2 * DEC → w ≤ R) := by
  intro w
  obtain ⟨h1, h2, h3⟩ := decQuo_bounds hR hT
  have hw : w = decTrunc (decMulInt (decQuo (decOfInt R) (decOfInt T)) p) := rfl
  unfold decTrunc decMulInt at hw
  generalize decQuo (decOfInt R) (decOfInt T) = q at *
  have hqp : 0 ≤ q * p := Int.mul_nonneg h3 hp
  obtain ⟨t1, t2⟩ := tdiv_bounds hqp DEC_pos
  have t0 := tdiv_nonneg' hqp DEC_pos
  rw [← hw] at t1 t2 t0
  clear hw
  generalize w = x at *
  have a1 := mul_le_mul_of_nonneg_right h1 hp
  have a2 := mul_le_mul_of_nonneg_right h2 hp
  have a3 := mul_le_mul_of_nonneg_right t1 hT.le
  have a4 := mul_lt_mul_of_pos_right t2 hT
  refine ⟨t0, by linarith, by linarith, ?_⟩
  intro hpT hpD
  -- 2 q p ≤ 2 R DEC + p
  have a5 : 2 * (q * p) ≤ 2 * (R * DEC) + p := by
    refine le_of_mul_le_mul_right (a := T) ?_ hT
    have : R * DEC * p ≤ R * DEC * T := mul_le_mul_of_nonneg_left hpT (Int.mul_nonneg hR DEC_pos.le)
    linarith
  have a6 : x * DEC < (R + 1) * DEC := by linarith
  have := lt_of_mul_lt_mul_right a6 DEC_pos.le
  omega

/-- The reward paid by a record. -/
theorem userReward_nonneg {cur p : Int} {r : Reward} (hp : 0 ≤ p) : 0 ≤ userReward cur p r := by
  unfold userReward
  split
  · next h =>
    split
    · exact (share_bounds h.2.le h.1 hp).1
    · exact le_refl _
  · exact le_refl _

theorem userReward_le {cur p : Int} {r : Reward} (hp : 0 ≤ p) (hr : 0 ≤ r.rewards) (hT : p ≤ r.total)
    (hd : p < 2 * DEC) : userReward cur p r ≤ r.rewards := by
  unfold userReward
  split
  · next h =>
    split
    · exact (share_bounds h.2.le h.1 hp).2.2.2 hT hd
    · exact hr
  · exact hr

theorem rewardAfter_rewards (cur p : Int) (r : Reward) :
    (rewardAfter cur p r).rewards = r.rewards - userReward cur p r := by
  unfold rewardAfter
  by_cases h : 0 < r.total ∧ 0 < r.rewards
  · rw [if_pos h]
  · rw [if_neg h]
    unfold userReward
    rw [if_neg h]; omega

theorem rewardAfter_index (cur p : Int) (r : Reward) : (rewardAfter cur p r).index = r.index := by
  unfold rewardAfter; split <;> rfl

theorem rewardAfter_total {cur p : Int} (hp : 0 ≤ p) (r : Reward) :
    r.total - p ≤ (rewardAfter cur p r).total := by
  unfold rewardAfter
  split
  · exact le_refl _
  · show _ ≤ r.total
    omega

end Dollar
