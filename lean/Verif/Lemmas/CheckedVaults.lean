import Verif.Model.CheckedVaults
import Verif.Props.C85

/-
The checked vault handlers agree with the unchecked ones while the numbers are small (C119).
-/
set_option linter.unusedSimpArgs false

namespace Dollar
open MM Spec

namespace Checked

theorem fit_small {n : Int} (h1 : -2 ^ 255 ≤ n) (h2 : n ≤ 2 ^ 255) : fit n = some n := by
  unfold fit
  rw [if_pos (by omega)]

theorem add_small {a b : Int} (h1 : -2 ^ 255 ≤ a + b) (h2 : a + b ≤ 2 ^ 255) : add a b = some (a + b) := fit_small h1 h2
theorem sub_small {a b : Int} (h1 : -2 ^ 255 ≤ a - b) (h2 : a - b ≤ 2 ^ 255) : sub a b = some (a - b) := fit_small h1 h2

@[simp] theorem lift_some {α : Type} (a : α) : lift (some a) = pure a := rfl

/-- Two calls that agree in one state can be continued by calls that agree where they end. -/
theorem bind_at {α β : Type} {x x' : M α} {f g : α → M β} {s : State} (h1 : x s = x' s)
    (h2 : ∀ a s', x' s = .ok a s' → f a s' = g a s') : (x >>= f) s = (x' >>= g) s := by
  rw [bind_apply, bind_apply, h1]
  cases h : x' s with
  | ok a s' => exact h2 a s' h
  | err e s' => rfl
  | panic => rfl

theorem lift_bind {α β : Type} {o : Option α} {a : α} (h : o = some a) (f : α → M β) (s : State) :
    (lift o >>= f) s = f a s := by
  subst h; rfl

theorem sumFrom_eq (l : List Int) {acc : Int} (h0 : 0 ≤ acc) (hl : ∀ x ∈ l, 0 ≤ x) (h : acc + l.sum ≤ 2 ^ 255) :
    sumFrom acc l = some (acc + l.sum) := by
  induction l generalizing acc with
  | nil => simp [sumFrom]
  | cons x t ih =>
    have hx := hl x List.mem_cons_self
    have ht : 0 ≤ t.sum := List.sum_nonneg fun y hy => hl y (List.mem_cons_of_mem _ hy)
    rw [List.sum_cons] at h ⊢
    unfold sumFrom
    rw [add_small (by omega) (by omega), Option.bind_eq_bind, Option.bind_some,
      ih (by omega) (fun y hy => hl y (List.mem_cons_of_mem _ hy)) (by omega)]
    congr 1
    omega

/-- Sums of numbers of either sign. -/
theorem sumFrom_abs (l : List Int) {B acc : Int} (hB : 0 ≤ B) (hl : ∀ x ∈ l, -B ≤ x ∧ x ≤ B)
    (h1 : -2 ^ 255 ≤ acc - B * l.length) (h2 : acc + B * l.length ≤ 2 ^ 255) :
    sumFrom acc l = some (acc + l.sum) := by
  induction l generalizing acc with
  | nil => simp [sumFrom]
  | cons x t ih =>
    obtain ⟨x1, x2⟩ := hl x List.mem_cons_self
    have hm : 0 ≤ B * (t.length : Int) := mul_nonneg hB (by omega)
    have e : B * ((x :: t).length : Int) = B * t.length + B := by rw [List.length_cons]; push_cast; ring
    rw [e] at h1 h2
    unfold sumFrom
    rw [add_small (by omega) (by omega), Option.bind_eq_bind, Option.bind_some,
      ih (fun y hy => hl y (List.mem_cons_of_mem _ hy)) (by omega) (by omega), List.sum_cons]
    congr 1
    omega

end Checked

/-- One record pays at most what it holds, up to rounding. -/
theorem userReward_le' {cur p : Int} {r : Reward} (hp : 0 ≤ p) (hT : p ≤ r.total) :
    userReward cur p r ≤ max 0 r.rewards + p := by
  unfold userReward
  split
  · next h =>
    split
    · obtain ⟨_, h2, _, _⟩ := share_bounds h.2.le h.1 hp
      generalize decTrunc (decMulInt (decQuo (decOfInt r.rewards) (decOfInt r.total)) p) = w at *
      have hD : DEC = 1000000000000000000 := rfl
      by_contra hgt
      have h3 : r.rewards + p + 1 ≤ w := by omega
      have h4 : (r.rewards + p + 1) * (r.total * DEC) ≤ w * (r.total * DEC) :=
        mul_le_mul_of_nonneg_right h3 (mul_nonneg h.1.le DEC_pos.le)
      have h5 : p * (r.rewards * DEC) ≤ r.total * (r.rewards * DEC) :=
        mul_le_mul_of_nonneg_right hT (mul_nonneg h.2.le DEC_pos.le)
      have h6 : 0 ≤ p * r.total := mul_nonneg hp h.1.le
      have h7 : 0 < r.total * DEC := mul_pos h.1 DEC_pos
      have h8 : p * r.total * 1 ≤ p * r.total * DEC := mul_le_mul_of_nonneg_left (by decide) h6
      nlinarith
    · omega
  · omega

namespace Checked

theorem walk_eq {start cur p : Int} (hp0 : 0 ≤ p) (hp : p ≤ 2 ^ 127) (rs : KV Int Reward) {acc : Int}
    (hr : ∀ e ∈ rs, e.2.total ≤ 2 ^ 200 ∧ e.2.rewards ≤ 2 ^ 127)
    (ht : ∀ e ∈ rs, start < e.1 → p ≤ e.2.total) (h0 : 0 ≤ acc) (h : acc + 2 ^ 128 * rs.length ≤ 2 ^ 255) :
    walk start cur p rs acc = some (rewardsAfter rs start cur p, acc + rewardsOwed rs start cur p) ∧
      0 ≤ rewardsOwed rs start cur p ∧ rewardsOwed rs start cur p ≤ 2 ^ 128 * rs.length := by
  induction rs generalizing acc with
  | nil => exact ⟨by simp [walk, rewardsAfter, rewardsOwed], by simp [rewardsOwed], by simp [rewardsOwed]⟩
  | cons e t ih =>
    obtain ⟨k, r⟩ := e
    have hr1 := hr (k, r) List.mem_cons_self
    have ht1 := ht (k, r) List.mem_cons_self
    have hr2 := fun e he => hr e (List.mem_cons_of_mem _ he)
    have ht2 := fun e he => ht e (List.mem_cons_of_mem _ he)
    have e : (2 : Int) ^ 128 * ((((k, r) :: t : KV Int Reward)).length : Int) = 2 ^ 128 * (t.length : Int) + 2 ^ 128 := by
      rw [List.length_cons]; push_cast; ring
    rw [e] at h ⊢
    have hl : (0 : Int) ≤ 2 ^ 128 * (t.length : Int) := by positivity
    have es : rewardsOwed ((k, r) :: t) start cur p =
        (if start < k then Dollar.userReward cur p r else 0) + rewardsOwed t start cur p := KV.sum_cons ..
    have ea : rewardsAfter ((k, r) :: t) start cur p =
        (k, if start < k then rewardAfter cur p r else r) :: rewardsAfter t start cur p := rfl
    rw [es, ea]
    unfold walk
    by_cases hc : ¬ start < k ∨ ¬ 0 < r.total ∨ ¬ 0 < r.rewards
    · rw [if_pos hc]
      obtain ⟨i1, i2, i3⟩ := ih (acc := acc) hr2 ht2 h0 (by omega)
      rw [i1]
      have z1 : (if start < k then Dollar.userReward cur p r else 0) = 0 := by
        split
        · unfold Dollar.userReward; rw [if_neg (by tauto)]
        · rfl
      have z2 : (if start < k then rewardAfter cur p r else r) = r := by
        split
        · unfold rewardAfter; rw [if_neg (by tauto)]
        · rfl
      rw [z1, z2]
      exact ⟨by simp, by omega, by omega⟩
    · rw [if_neg hc]
      push Not at hc
      obtain ⟨c1, c2, c3⟩ := hc
      have hT := ht1 c1
      have hu0 := userReward_nonneg (cur := cur) (r := r) hp0
      have hu1 : Dollar.userReward cur p r ≤ 2 ^ 128 := by
        have := userReward_le' (cur := cur) hp0 hT
        have := hr1.2
        simp only at *
        omega
      have q1 := hr1.1
      have q2 := hr1.2
      simp only at q1 q2 hT
      obtain ⟨i1, i2, i3⟩ := ih (acc := acc + Dollar.userReward cur p r) hr2 ht2 (by omega) (by omega)
      rw [userReward_some q2 hp0 hp, if_pos c1, if_pos c1]
      simp only [Option.bind_eq_bind, Option.bind_some]
      rw [sub_small (a := r.total) (by omega) (by omega), sub_small (a := r.rewards) (by omega) (by omega),
        add_small (a := acc) (by omega) (by omega)]
      simp only [Option.bind_some]
      rw [i1]
      have z : rewardAfter cur p r = ⟨r.index, r.total - p, r.rewards - Dollar.userReward cur p r⟩ := by
        unfold rewardAfter; rw [if_pos ⟨c2, c3⟩]
      rw [z]
      refine ⟨?_, by omega, by omega⟩
      simp only [Option.bind_some, Option.some.injEq, Prod.mk.injEq, true_and]
      omega

theorem queryWalk_some {start cur p : Int} (hp0 : 0 ≤ p) (hp : p ≤ 2 ^ 127) (rs : KV Int Reward) {acc total : Int}
    (hr : ∀ e ∈ rs, e.2.rewards ≤ 2 ^ 127)
    (ht : ∀ e ∈ rs, start < e.1 → p ≤ e.2.total) (h0 : 0 ≤ acc) (h : acc + 2 ^ 128 * rs.length ≤ 2 ^ 255)
    (h0' : 0 ≤ total) (h' : total + 2 ^ 128 * rs.length ≤ 2 ^ 255) :
    queryWalk start cur p rs acc total =
      some (acc + rewardsOwed rs start cur p, total + rewardsOwed rs start cur p) := by
  induction rs generalizing acc total with
  | nil => simp [queryWalk, rewardsOwed]
  | cons e t ih =>
    obtain ⟨k, r⟩ := e
    have hr1 := hr (k, r) List.mem_cons_self
    have ht1 := ht (k, r) List.mem_cons_self
    have hr2 := fun e he => hr e (List.mem_cons_of_mem _ he)
    have ht2 := fun e he => ht e (List.mem_cons_of_mem _ he)
    have e : (2 : Int) ^ 128 * ((((k, r) :: t : KV Int Reward)).length : Int) = 2 ^ 128 * (t.length : Int) + 2 ^ 128 := by
      rw [List.length_cons]; push_cast; ring
    rw [e] at h h'
    have hl : (0 : Int) ≤ 2 ^ 128 * (t.length : Int) := by positivity
    have es : rewardsOwed ((k, r) :: t) start cur p =
        (if start < k then Dollar.userReward cur p r else 0) + rewardsOwed t start cur p := KV.sum_cons ..
    rw [es]
    unfold queryWalk
    by_cases hc : ¬ start < k ∨ ¬ 0 < r.total ∨ ¬ 0 < r.rewards
    · rw [if_pos hc, ih hr2 ht2 h0 (by omega) h0' (by omega)]
      have z1 : (if start < k then Dollar.userReward cur p r else 0) = 0 := by
        split
        · unfold Dollar.userReward; rw [if_neg (by tauto)]
        · rfl
      rw [z1]; simp
    · rw [if_neg hc]
      push Not at hc
      obtain ⟨c1, c2, c3⟩ := hc
      have hT := ht1 c1
      have hu0 := userReward_nonneg (cur := cur) (r := r) hp0
      have hu1 : Dollar.userReward cur p r ≤ 2 ^ 128 := by
        have := userReward_le' (cur := cur) hp0 hT
        have := hr1
        simp only at *
        omega
      simp only at hr1 hT
      rw [userReward_some hr1 hp0 hp, if_pos c1]
      simp only [Option.bind_eq_bind, Option.bind_some]
      rw [add_small (a := acc) (by omega) (by omega), add_small (a := total) (by omega) (by omega)]
      simp only [Option.bind_some]
      rw [ih hr2 ht2 (by omega) (by omega) (by omega) (by omega)]
      simp only [Option.some.injEq, Prod.mk.injEq]
      omega

end Checked

/-! ### Balances of different accounts -/

theorem sum_balances_le {s : State} (hs : s.bal.Sorted) (hb : ∀ x, 0 ≤ s.balance x) (l : List Addr) (hl : l.Nodup) :
    (l.map s.balance).sum ≤ sumBal s := by
  induction l generalizing s with
  | nil =>
    show 0 ≤ sumBal s
    refine KV.sum_nonneg fun e he => ?_
    have := hb e.1
    unfold State.balance at this
    rw [KV.get?_of_mem hs (k := e.1) (v := e.2) he] at this
    exact this
  | cons a t ih =>
    obtain ⟨h1, h2⟩ := List.nodup_cons.1 hl
    have hbd : ∀ x, (debit s a (s.balance a)).balance x = s.balance x - (if x = a then s.balance a else 0) :=
      fun x => balance_debit s a x _
    have := ih (s := debit s a (s.balance a)) (KV.sorted_set _ _ hs)
      (fun x => by rw [hbd]; have := hb x; split
                   · next e => subst e; omega
                   · omega) h2
    rw [sumBal_debit] at this
    have e : t.map (debit s a (s.balance a)).balance = t.map s.balance :=
      List.map_congr_left fun x hx => by
        rw [hbd, if_neg (by rintro rfl; exact h1 hx)]; omega
    rw [e] at this
    rw [List.map_cons, List.sum_cons]
    omega

theorem balance_le_sum {s : State} (hs : s.bal.Sorted) (hb : ∀ x, 0 ≤ s.balance x) (a : Addr) :
    s.balance a ≤ sumBal s := by
  have := sum_balances_le hs hb [a] (List.nodup_singleton _)
  simpa using this

end Dollar
