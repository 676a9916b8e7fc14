import Verif.Lemmas.Phantom
import Verif.Props.C28
import Verif.Props.C80
import Verif.Model.Queries

/-
C104: the rewards shown to the users of the flexible vault, taken together, are the pending rewards of the vault.
-/
set_option linter.unusedSimpArgs false
set_option maxRecDepth 100000

namespace Dollar
open MM Spec

/-! ### One record -/

theorem userReward_add {cur a b : Int} {r : Reward} (ha : 0 ≤ a) (hb : 0 ≤ b) :
    userReward cur a r + userReward cur b r ≤ userReward cur (a + b) r := by
  unfold userReward
  split
  · next h =>
    split
    · obtain ⟨_, _, h3⟩ := decQuo_bounds h.2.le h.1
      unfold decTrunc decMulInt
      generalize decQuo (decOfInt r.rewards) (decOfInt r.total) = q at *
      have b1 := tdiv_bounds (Int.mul_nonneg h3 ha) DEC_pos
      have b2 := tdiv_bounds (Int.mul_nonneg h3 hb) DEC_pos
      have b3 := tdiv_bounds (Int.mul_nonneg h3 (Int.add_nonneg ha hb)) DEC_pos
      refine le_of_mul_le_lt DEC_pos ?_ b3.2
      rw [add_mul, mul_add]; omega
    · omega
  · omega

/-- What the flexible positions older than record `k` are shown of it. -/
def shownOf (s : State) (k : Int) (r : Reward) : Int :=
  s.positions.sum fun key p => if key.2.1 = FLEXIBLE ∧ p.index < k then
    userReward s.index (roundedDown p.amount p.index) r else 0

theorem userReward_at0 {cur : Int} {r : Reward} : userReward cur 0 r = 0 := by
  unfold userReward decTrunc decMulInt
  simp

theorem shownOf_le {c : Cfg} {s : State} (hi : V0 c s) (k : Int) (r : Reward) :
    shownOf s k r ≤ userReward s.index (s.positions.sum (below k)) r := by
  unfold shownOf
  have h := hi.entry
  generalize s.positions = l at h
  induction l with
  | nil => exact userReward_at0.ge
  | cons e t ih =>
    have hn : 0 ≤ KV.sum t (below k) := by
      refine KV.sum_nonneg fun x hx => ?_
      have ho := h x (List.mem_cons_of_mem _ hx)
      have := down_nonneg ho.amount ho.idx
      unfold below
      split <;> omega
    have ih := ih fun x hx => h x (List.mem_cons_of_mem _ hx)
    have ho := h e List.mem_cons_self
    have h0 := down_nonneg ho.amount ho.idx
    rw [KV.sum_cons, KV.sum_cons]
    unfold below at hn ih ⊢
    split
    · have := userReward_add (cur := s.index) (r := r) h0 hn
      omega
    · rw [Int.zero_add, Int.zero_add]; exact ih

/-- How many flexible positions there are. -/
def Spec.flexibleCount (s : State) : Nat := (s.positions.filter fun e => decide (e.1.2.1 = 2)).length

theorem shownOf_ge {c : Cfg} {s : State} (hi : V0 c s) (k : Int) (r : Reward) (h1 : 0 < r.total) (h2 : 0 < r.rewards)
    (h3 : r.index ≠ s.index) :
    s.positions.sum (below k) * r.rewards * DEC ≤
      (shownOf s k r + flexibleCount s) * r.total * DEC + s.positions.sum (below k) * r.total := by
  unfold shownOf flexibleCount
  have h := hi.entry
  generalize s.positions = l at h
  induction l with
  | nil => show (0 : Int) * _ * _ ≤ (0 + 0) * _ * _ + 0 * _; simp
  | cons e t ih =>
    have ih := ih fun x hx => h x (List.mem_cons_of_mem _ hx)
    have ho := h e List.mem_cons_self
    have h0 := down_nonneg ho.amount ho.idx
    rw [KV.sum_cons, KV.sum_cons, List.filter_cons]
    have hD := DEC_pos
    have hTD : 0 ≤ r.total * DEC := mul_nonneg h1.le hD.le
    by_cases hf : e.1.2.1 = FLEXIBLE
    · have hf' : decide (e.1.2.1 = 2) = true := decide_eq_true hf
      rw [if_pos hf', List.length_cons]
      push_cast
      by_cases hk : e.2.index < k
      · obtain ⟨_, _, w3, _⟩ := share_bounds h2.le h1 h0
        have eb : below k e.1 e.2 = roundedDown e.2.amount e.2.index := if_pos ⟨hf, hk⟩
        have ew : userReward s.index (roundedDown e.2.amount e.2.index) r =
            decTrunc (decMulInt (decQuo (decOfInt r.rewards) (decOfInt r.total)) (roundedDown e.2.amount e.2.index)) := by
          unfold userReward
          rw [if_pos ⟨h1, h2⟩, if_pos ⟨h3, h2.le⟩]
        rw [eb, if_pos ⟨hf, hk⟩, ew]
        generalize decTrunc _ = w at w3 ⊢
        generalize roundedDown e.2.amount e.2.index = p at w3 ⊢
        generalize KV.sum t (below k) = P at ih ⊢
        generalize KV.sum t _ = W at ih ⊢
        generalize ((t.filter _).length : Int) = n at ih ⊢
        nlinarith [w3, ih]
      · have eb : below k e.1 e.2 = 0 := if_neg fun hh => hk hh.2
        rw [eb, if_neg fun hh => hk hh.2]
        generalize KV.sum t (below k) = P at ih ⊢
        generalize KV.sum t _ = W at ih ⊢
        generalize ((t.filter _).length : Int) = n at ih ⊢
        nlinarith [ih]
    · have hf' : ¬ decide (e.1.2.1 = 2) = true := fun hh => hf (of_decide_eq_true hh)
      have eb : below k e.1 e.2 = 0 := if_neg fun hh => hf hh.1
      rw [if_neg hf', eb, if_neg fun hh => hf hh.1, Int.zero_add, Int.zero_add]
      exact ih

/-! ### All records and all users -/

/-- Swapping the sums. -/
theorem sum_swap (ps : KV PKey Position) (rs : KV Int Reward) (cur : Int) :
    (ps.sum fun key p => if key.2.1 = FLEXIBLE then rewardsOwed rs p.index cur (roundedDown p.amount p.index) else 0) =
    rs.sum fun k r => ps.sum fun key p => if key.2.1 = FLEXIBLE ∧ p.index < k then
      userReward cur (roundedDown p.amount p.index) r else 0 := by
  induction ps with
  | nil =>
    show (0 : Int) = rs.sum fun _ _ => 0
    induction rs with
    | nil => rfl
    | cons e t ih => rw [KV.sum_cons, ← ih]; rfl
  | cons e t ih =>
    rw [KV.sum_cons, ih]
    simp only [KV.sum_cons]
    clear ih
    unfold rewardsOwed
    induction rs with
    | nil => simp [KV.sum]
    | cons x u ih =>
      rw [KV.sum_cons, KV.sum_cons, KV.sum_cons]
      by_cases hf : e.1.2.1 = FLEXIBLE
      · simp only [hf, true_and, if_true] at ih ⊢
        omega
      · simp only [hf, false_and, if_false] at ih ⊢
        omega

/-- What one user is shown. -/
theorem shown_user {c : Cfg} {s : State} (hi : V0 c s) {provider : String} {v : Int × List (Int × Int)}
    (h : queryPendingByProvider c s provider = some v) : ∃ a, c.decode provider = some a ∧
      v.1 = s.positions.sum fun key p => if key.2.1 = FLEXIBLE ∧ key.1 = a then
        rewardsOwed s.rewards p.index s.index (roundedDown p.amount p.index) else 0 := by
  unfold queryPendingByProvider at h
  cases hd : c.decode provider with
  | none => rw [hd] at h; cases h
  | some a =>
    rw [hd] at h
    refine ⟨a, rfl, ?_⟩
    have hx := fun e he => (hi.entry e he).idx
    have key : ∀ l : KV PKey Position, (∀ e ∈ l, 0 < e.2.index) →
        ∀ out, (l.filterMap fun e => if e.1.1 = a ∧ e.1.2.1 = FLEXIBLE then
            some (⟨e.1.1, e.1.2.1, e.2.principal, e.2.index, e.2.amount, e.2.time⟩ : PosEntry) else none).mapM
            (fun p => (positionRewards s p).map fun r => (p.amount, r)) = some out →
          (out.map Prod.snd).sum = l.sum fun key p => if key.2.1 = FLEXIBLE ∧ key.1 = a then
            rewardsOwed s.rewards p.index s.index (roundedDown p.amount p.index) else 0 := by
      intro l
      induction l with
      | nil =>
        intro _ out ho
        cases (show some [] = some out from ho)
        rfl
      | cons e t ih =>
        intro hx out ho
        have ih := ih (fun x h => hx x (List.mem_cons_of_mem _ h))
        rw [KV.sum_cons]
        rw [List.filterMap_cons] at ho
        by_cases hm : e.1.1 = a ∧ e.1.2.1 = FLEXIBLE
        · rw [if_pos hm] at ho
          rw [if_pos ⟨hm.2, hm.1⟩]
          rw [List.mapM_cons] at ho
          have he : positionRewards s ⟨e.1.1, e.1.2.1, e.2.principal, e.2.index, e.2.amount, e.2.time⟩ =
              some (rewardsOwed s.rewards e.2.index s.index (roundedDown e.2.amount e.2.index)) := by
            unfold positionRewards
            rw [if_neg (hx e List.mem_cons_self).ne', queryWalk_eq, Int.zero_add]
          rw [he] at ho
          cases ht : List.mapM (fun p => (positionRewards s p).map fun r => (p.amount, r))
              (t.filterMap fun e => if e.1.1 = a ∧ e.1.2.1 = FLEXIBLE then
                some (⟨e.1.1, e.1.2.1, e.2.principal, e.2.index, e.2.amount, e.2.time⟩ : PosEntry) else none) with
          | none => rw [ht] at ho; cases ho
          | some o =>
            rw [ht] at ho
            cases ho
            rw [List.map_cons, List.sum_cons, ih _ ht]
        · rw [if_neg hm] at ho
          rw [if_neg fun hh => hm ⟨hh.2, hh.1⟩, Int.zero_add]
          exact ih _ ho
    cases hq : (positionsOf s a FLEXIBLE).mapM (fun p => (positionRewards s p).map fun r => (p.amount, r)) with
    | none =>
      have h : (do let l ← (positionsOf s a FLEXIBLE).mapM (fun p => (positionRewards s p).map fun r => (p.amount, r))
                   pure ((l.map Prod.snd).sum, l)) = some v := h
      rw [hq] at h; cases h
    | some l =>
      have h : (do let l ← (positionsOf s a FLEXIBLE).mapM (fun p => (positionRewards s p).map fun r => (p.amount, r))
                   pure ((l.map Prod.snd).sum, l)) = some v := h
      rw [hq] at h
      cases h
      exact key _ hx _ hq

/-- What several users are shown. -/
theorem shown_users {c : Cfg} {s : State} (hi : V0 c s) {users : List String} {shown : List (Int × List (Int × Int))}
    (hn : (users.map c.decode).Nodup) (h : users.mapM (queryPendingByProvider c s) = some shown) :
    (shown.map Prod.fst).sum = s.positions.sum fun key p => if key.2.1 = FLEXIBLE ∧ some key.1 ∈ users.map c.decode then
      rewardsOwed s.rewards p.index s.index (roundedDown p.amount p.index) else 0 := by
  induction users generalizing shown with
  | nil =>
    cases (show some [] = some shown from h)
    simp only [List.map_nil, List.not_mem_nil, and_false, if_false, List.sum_nil]
    generalize s.positions = l
    induction l with
    | nil => rfl
    | cons e t ih => rw [KV.sum_cons, ← ih]; rfl
  | cons u t ih =>
    rw [List.mapM_cons] at h
    cases hu : queryPendingByProvider c s u with
    | none => rw [hu] at h; cases h
    | some v =>
      rw [hu] at h
      cases ht : t.mapM (queryPendingByProvider c s) with
      | none => rw [ht] at h; cases h
      | some o =>
        rw [ht] at h
        cases h
        rw [List.map_cons, List.nodup_cons] at hn
        obtain ⟨a, ha, hv⟩ := shown_user hi hu
        rw [List.map_cons, List.sum_cons, ih hn.2 ht, hv]
        rw [ha] at hn
        have hn := hn.1
        rw [List.map_cons, ha]
        generalize s.positions = l
        induction l with
        | nil => rfl
        | cons e l ih =>
          rw [KV.sum_cons, KV.sum_cons, KV.sum_cons, ← ih]
          by_cases hf : e.1.2.1 = FLEXIBLE
          · by_cases h1 : e.1.1 = a
            · have h2 : some e.1.1 ∉ t.map c.decode := by rw [h1]; exact hn
              simp only [hf, h1, true_and, if_true, List.mem_cons, true_or]
              rw [if_neg (by rw [← h1]; exact h2)]
              omega
            · have h3 : (some e.1.1 = some a) ↔ False := by simpa using h1
              simp only [hf, h1, true_and, if_false, List.mem_cons, h3, false_or]
              omega
          · simp only [hf, false_and, if_false]
            omega

/-- The rewards of the cycle that is still running. -/
def Spec.currentRewards (s : State) : Int := s.rewards.sum fun k r => if k = s.index then r.rewards else 0

/-- While positions and record totals are below 2*10^18 units, what any set of users is shown together is covered by
the vault's pending rewards, without those of the running cycle, and these by the coins of the vault. -/
theorem C104_shown_covered {c : Cfg} (hc : c.WF) {s : State} (hr : ReachableSmall c s)
    (hbig : ∀ e ∈ s.rewards, e.2.total < 2 * 10 ^ 18) (users : List String) (hn : (users.map c.decode).Nodup)
    (shown : List (Int × List (Int × Int))) (h : users.mapM (queryPendingByProvider c s) = some shown) :
    (shown.map Prod.fst).sum + currentRewards s ≤ queryPendingRewards s ∧
    queryPendingRewards s ≤ s.balance (c.modAddr "dollar/vaults/flexible") := by
  have hi := (hr.reachable.vinv hc).toV0
  refine ⟨?_, hi.rsum⟩
  rw [shown_users hi hn h]
  have h1 : (s.positions.sum fun key p => if key.2.1 = FLEXIBLE ∧ some key.1 ∈ users.map c.decode then
      rewardsOwed s.rewards p.index s.index (roundedDown p.amount p.index) else 0) ≤
      s.positions.sum fun key p => if key.2.1 = FLEXIBLE then
        rewardsOwed s.rewards p.index s.index (roundedDown p.amount p.index) else 0 := by
    refine KV.sum_le fun e he => ?_
    have ho := hi.entry e he
    have : 0 ≤ rewardsOwed s.rewards e.2.index s.index (roundedDown e.2.amount e.2.index) := by
      refine KV.sum_nonneg fun x _ => ?_
      split
      · exact userReward_nonneg (down_nonneg ho.amount ho.idx)
      · exact le_refl _
    by_cases hf : e.1.2.1 = FLEXIBLE
    · simp only [hf, true_and, if_true]
      split <;> omega
    · simp only [hf, false_and, if_false]; exact le_refl _
  rw [sum_swap] at h1
  have h2 : (s.rewards.sum fun k r => shownOf s k r) + currentRewards s ≤ queryPendingRewards s := by
    unfold currentRewards queryPendingRewards
    have h := fun e he => (hi.rew e he)
    have hnn := hr.rnn hc
    have key : ∀ rs : KV Int Reward, (∀ e ∈ rs, e ∈ s.rewards) →
        (rs.sum fun k r => shownOf s k r) + (rs.sum fun k r => if k = s.index then r.rewards else 0) ≤
          rs.sum fun _ r => r.rewards := by
      intro rs
      induction rs with
      | nil => intro _; exact le_refl _
      | cons e t ih =>
        intro hm
        have ih := ih fun x hx => hm x (List.mem_cons_of_mem _ hx)
        have he := hm e List.mem_cons_self
        have hP := sum_below_nonneg hi e.1
        have hT := (hi.rew e he).2.2
        have hs := shownOf_le hi e.1 e.2
        have hb := hbig e he
        rw [KV.sum_cons, KV.sum_cons, KV.sum_cons]
        by_cases hk : e.1 = s.index
        · have h0 : userReward s.index (s.positions.sum (below e.1)) e.2 = 0 := by
            unfold userReward
            rw [if_neg (show ¬ (e.2.index ≠ s.index ∧ 0 ≤ e.2.rewards) from
              fun hh => hh.1 ((hi.rew e he).1.trans hk))]
            exact ite_self _
          rw [if_pos hk]
          omega
        · have := userReward_le (cur := s.index) hP (hnn e he) hT (lt_of_le_of_lt hT hb)
          rw [if_neg hk]
          omega
    exact key _ fun _ h => h
  have e3 : (s.rewards.sum fun k r => s.positions.sum fun key p => if key.2.1 = FLEXIBLE ∧ p.index < k then
      userReward s.index (roundedDown p.amount p.index) r else 0) = s.rewards.sum fun k r => shownOf s k r := rfl
  rw [e3] at h1
  omega

/-- What of a record nobody may be shown: one unit per position and one more for rounding down, and the share of the
`lost` units of principal no position stands for; all of it, if the record has no principal left. -/
def Spec.unshown (positions lost : Int) (r : Reward) : Int :=
  if 0 < r.rewards then
    if 0 < r.total then positions + 1 + r.rewards * lost / r.total else r.rewards
  else 0

/-- As long as every payout of a flexible position claimed its rewards, the users of the flexible vault together are
shown all pending rewards of finished cycles, except the share of at most one unit of principal per payout so far,
and roundings. -/
theorem C104_shown_complete {c : Cfg} (hc : c.WF) {s0 : State} (h0 : Initial c s0) (he : s0.events = [])
    (h : History) (hs : h.Signed c) (hcl : rewardClaims (run c h s0) = exits (run c h s0))
    (hbig : ∀ e ∈ (run c h s0).rewards, e.2.total ≤ 10 ^ 18)
    (users : List String) (hn : (users.map c.decode).Nodup)
    (hall : ∀ e ∈ (run c h s0).positions, e.1.2.1 = 2 → some e.1.1 ∈ users.map c.decode)
    (shown : List (Int × List (Int × Int))) (hq : users.mapM (queryPendingByProvider c (run c h s0)) = some shown) :
    queryPendingRewards (run c h s0) ≤ (shown.map Prod.fst).sum + currentRewards (run c h s0) +
      (run c h s0).rewards.sum fun k r => if k = (run c h s0).index then 0 else
        unshown (flexibleCount (run c h s0)) (exits (run c h s0)) r := by
  have hr : Reachable c (run c h s0) := Reachable.of_run h0 hs
  have hx := exact_run hc (.fresh h0) (.initial h0 he) h hs
  generalize run c h s0 = s at *
  have hi := (hr.vinv hc).toV0
  rw [shown_users hi hn hq]
  have h1 : (s.positions.sum fun key p => if key.2.1 = FLEXIBLE ∧ some key.1 ∈ users.map c.decode then
      rewardsOwed s.rewards p.index s.index (roundedDown p.amount p.index) else 0) =
      s.positions.sum fun key p => if key.2.1 = FLEXIBLE then
        rewardsOwed s.rewards p.index s.index (roundedDown p.amount p.index) else 0 := by
    refine KV.sum_congr fun e he => ?_
    by_cases hf : e.1.2.1 = FLEXIBLE
    · simp only [hf, true_and, if_true, hall e he hf]
    · simp only [hf, false_and, if_false]
  rw [h1, sum_swap]
  unfold currentRewards queryPendingRewards
  have key : ∀ rs : KV Int Reward, (∀ e ∈ rs, e ∈ s.rewards) →
      (rs.sum fun _ r => r.rewards) ≤ (rs.sum fun k r => shownOf s k r) +
        (rs.sum fun k r => if k = s.index then r.rewards else 0) +
        rs.sum fun k r => if k = s.index then 0 else unshown (flexibleCount s) (exits s) r := by
    intro rs
    induction rs with
    | nil => intro _; exact le_refl _
    | cons e t ih =>
      intro hm
      have ih := ih fun x hx => hm x (List.mem_cons_of_mem _ hx)
      have he := hm e List.mem_cons_self
      have hP := sum_below_nonneg hi e.1
      have hT := (hi.rew e he).2.2
      have hb := hbig e he
      have hw : 0 ≤ shownOf s e.1 e.2 := by
        refine KV.sum_nonneg fun x hx => ?_
        have ho := hi.entry x hx
        split
        · exact userReward_nonneg (down_nonneg ho.amount ho.idx)
        · exact le_refl _
      rw [KV.sum_cons, KV.sum_cons, KV.sum_cons, KV.sum_cons]
      by_cases hk : e.1 = s.index
      · rw [if_pos hk, if_pos hk]
        omega
      · rw [if_neg hk, if_neg hk]
        suffices e.2.rewards ≤ shownOf s e.1 e.2 + unshown (flexibleCount s) (exits s) e.2 by omega
        unfold unshown
        by_cases hR : 0 < e.2.rewards
        · rw [if_pos hR]
          by_cases hT0 : 0 < e.2.total
          · rw [if_pos hT0]
            have hne : e.2.index ≠ s.index := by rw [(hi.rew e he).1]; exact hk
            have g1 := shownOf_ge hi e.1 e.2 hT0 hR hne
            have g2 := hx.recs hcl e he hR
            generalize shownOf s e.1 e.2 = W at *
            generalize s.positions.sum (below e.1) = P at *
            generalize (flexibleCount s : Int) = n at *
            generalize (exits s : Int) = x at *
            have hD := DEC_pos
            have hDb : e.2.total ≤ DEC := hb
            have g3 : P * e.2.rewards * DEC ≤ (W + n + 1) * e.2.total * DEC := by
              have : P * e.2.total ≤ e.2.total * DEC := by
                rw [mul_comm e.2.total DEC]
                exact mul_le_mul_of_nonneg_right (hT.trans hDb) hT0.le
              nlinarith [g1, this]
            have g4 : P * e.2.rewards ≤ (W + n + 1) * e.2.total := le_of_mul_le_mul_right g3 hD
            have g5 : (e.2.rewards - (W + n + 1)) * e.2.total ≤ e.2.rewards * x := by
              have : (e.2.total - x) * e.2.rewards ≤ P * e.2.rewards :=
                mul_le_mul_of_nonneg_right (by omega) hR.le
              nlinarith [g4, this]
            have g6 := (Int.le_ediv_iff_mul_le hT0).2 g5
            omega
          · rw [if_neg hT0]; omega
        · rw [if_neg hR]; omega
  exact key _ fun _ h => h

/-- The flexible principal in the vault statistics is that of the stored positions, and at most one unit more per
payout of a flexible position so far. -/
theorem C104_flexible_principal {c : Cfg} (hc : c.WF) {s0 : State} (h0 : Initial c s0) (he : s0.events = [])
    (h : History) (hs : h.Signed c) :
    (((run c h s0).positions.filter fun e => decide (e.1.2.1 = 2)).map fun e => e.2.amount * 10 ^ 12 / e.2.index).sum ≤
      (run c h s0).vstats.flexPrincipal ∧
    (run c h s0).vstats.flexPrincipal ≤
      (((run c h s0).positions.filter fun e => decide (e.1.2.1 = 2)).map fun e => e.2.amount * 10 ^ 12 / e.2.index).sum +
        exits (run c h s0) := by
  have hr : Reachable c (run c h s0) := Reachable.of_run h0 hs
  have hx := exact_run hc (.fresh h0) (.initial h0 he) h hs
  generalize run c h s0 = s at *
  have hv := hr.vinv hc
  have hi := hv.toV0
  have e1 : ((s.positions.filter fun e => decide (e.1.2.1 = 2)).map fun e => e.2.amount * 10 ^ 12 / e.2.index).sum =
      s.positions.sum flexDown := by
    have h := hi.entry
    generalize s.positions = l at h
    induction l with
    | nil => rfl
    | cons e t ih =>
      have ih := ih fun x hx => h x (List.mem_cons_of_mem _ hx)
      have ho := h e List.mem_cons_self
      rw [KV.sum_cons, List.filter_cons, ← ih]
      unfold flexDown
      by_cases hf : e.1.2.1 = 2
      · rw [if_pos (decide_eq_true hf), if_pos (show e.1.2.1 = FLEXIBLE from hf), List.map_cons, List.sum_cons]
        congr 1
        exact (Int.tdiv_eq_ediv_of_nonneg (mul_nonneg ho.amount (by decide))).symm
      · rw [if_neg fun hh => hf (of_decide_eq_true hh), if_neg (show ¬ e.1.2.1 = FLEXIBLE from hf), Int.zero_add]
  rw [e1, hv.flexP]
  refine ⟨?_, hx.tot⟩
  rw [← flexDown_below hi (i := s.index + 1) (by omega)]
  exact (hi.below_le _).trans hi.ftot

/-- Two cycles with Alice and Bob in the flexible vault, then Bob takes out a part. -/
def Demo.histPart : History := Demo.histTwo ++ [(Demo.env 12, .unlock Demo.bobS 2 (some 1000001))]

theorem Demo.part_signed : History.Signed Demo.cfg Demo.histPart := by
  intro e he
  simp only [Demo.histPart, Demo.histTwo, List.cons_append, List.nil_append, List.mem_cons, List.not_mem_nil, or_false] at he
  rcases he with rfl | rfl | rfl | rfl | rfl | rfl | rfl | rfl | rfl
  · trivial
  · trivial
  · exact Demo.aliceS_user
  · exact Demo.bobS_user
  · exact Demo.aliceS_user
  · exact Demo.bobS_user
  · trivial
  · trivial
  · exact Demo.bobS_user

theorem Demo.part_small : ReachableSmall Demo.cfg (run Demo.cfg Demo.histPart Demo.start) := by
  refine .of_run (.fresh Demo.start_initial) _ Demo.part_signed ?_
  have key : ∀ n : Fin 10, SmallPositions (run Demo.cfg (Demo.histPart.take n) Demo.start) := by
    unfold SmallPositions; decide +kernel
  intro n
  by_cases hn : n < 10
  · exact key ⟨n, hn⟩
  · have hl : Demo.histPart.length = 9 := rfl
    have := key ⟨9, by decide⟩
    rw [List.take_of_length_le (by rw [hl])] at this
    rw [List.take_of_length_le (by omega)]
    exact this

/-- The hypotheses hold after that history. Of the 322500 left in the record of the finished cycle Alice is shown
215000 and Bob 107499. -/
example : let s := run Demo.cfg Demo.histPart Demo.start
    ReachableSmall Demo.cfg s ∧ Initial Demo.cfg Demo.start ∧ History.Signed Demo.cfg Demo.histPart ∧
    Demo.start.events = [] ∧ rewardClaims s = 1 ∧ exits s = 1 ∧ flexibleCount s = 2 ∧
    (∀ e ∈ s.rewards, e.2.total ≤ 10 ^ 18) ∧ ([Demo.aliceS, Demo.bobS].map Demo.cfg.decode).Nodup ∧
    (∀ e ∈ s.positions, e.1.2.1 = 2 → some e.1.1 ∈ [Demo.aliceS, Demo.bobS].map Demo.cfg.decode) ∧
    [Demo.aliceS, Demo.bobS].mapM (queryPendingByProvider Demo.cfg s) =
      some [(215000, [(2000000, 215000)]), (107499, [(999999, 107499)])] ∧
    queryPendingRewards s = 752499 ∧ currentRewards s = 429999 :=
  ⟨Demo.part_small, Demo.start_initial, Demo.part_signed, by decide +kernel⟩

end Dollar
