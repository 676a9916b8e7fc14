import Verif.Lemmas.ShareUp
import Verif.Props.C80

/-
C100: once a cycle is over, what a flexible position earned in it is settled, up to rounding.
-/
set_option maxRecDepth 100000
namespace Dollar
open MM Spec

theorem shareTop_run {c : Cfg} (hc : c.WF) {s : State} (hr : Reachable c s) {key : PKey} {p : Position}
    {rs : KV Int Reward} {n : Int} (hfl : key.2.1 = FLEXIBLE) (hki : ∀ x ∈ rs, x.1 < s.index)
    (hkp : ShareTop key p rs n s) (h : History) (hs : h.Signed c) (hq : StaysIn c key.1 h) :
    ShareTop key p rs (n + (exits (run c h s) - exits s)) (run c h s) := by
  induction h generalizing s n with
  | nil => show ShareTop key p rs (n + ((exits s : Int) - exits s)) s; rw [Int.sub_self, Int.add_zero]; exact hkp
  | cons e t ih =>
    have he := hs e List.mem_cons_self
    have hm := C02_index_monotone hc hr [e] (fun e' h' => hs e' (by simp_all))
    have h1 := hkp.step hc (env := e.1) hr hfl hki (hq e List.mem_cons_self) he
    have := ih (hr.step he) (fun x hx => Int.lt_of_lt_of_le (hki x hx) hm) h1
      (fun e' h' => hs e' (List.mem_cons_of_mem _ h')) (fun e' h' => hq e' (List.mem_cons_of_mem _ h'))
    have e : n + ((exits (step c e.1 e.2 s) : Int) - exits s) +
        (exits (run c t (step c e.1 e.2 s)) - exits (step c e.1 e.2 s)) =
        n + (exits (run c (e :: t) s) - exits s) := by
      show n + ((exits (step c e.1 e.2 s) : Int) - exits s) +
        (exits (run c t (step c e.1 e.2 s)) - exits (step c e.1 e.2 s)) =
        n + (exits (run c t (step c e.1 e.2 s)) - exits s)
      omega
    rw [e] at this
    exact this

theorem shareTop_start {c : Cfg} (hc : c.WF) {s : State} (hr : Reachable c s) {key : PKey} {p : Position}
    (hp : (key, p) ∈ s.positions) {k : Int} {r : Reward} (hm : (k, r) ∈ s.rewards) :
    ShareTop key p [(k, r)] 0 s := by
  refine ⟨KV.get?_of_mem (hr.vinv hc).sorted hp, fun x hx _ => ?_⟩
  obtain rfl : x = (k, r) := by simpa using hx
  refine ⟨r, KV.get?_of_mem hr.shape.rewards hm, le_refl _, ?_⟩
  rw [Int.sub_self, Int.mul_zero, Int.zero_add, Int.zero_mul, Int.zero_mul, Int.add_zero]

/-- A user's flexible position with principal `P` is in place at `s`, and the record `k` of a cycle that is over
holds rewards `R` for a total principal `T`.  In the history `h` everybody does what they like, except that
nobody unlocks flexible positions of this user, and `n` payouts of flexible positions occur.  Then the
record's rewards `R'` and total `T'` leave the position's share `P * R' / T'` at no more than
`P * R / T + n + (T - T') / 10 ^ 18`: written without division. -/
theorem C100_share_settled {c : Cfg} (hc : c.WF) {s : State} (hr : Reachable c s) (user : Addr) (time : Int)
    (p : Position) (hp : ((user, 2, time), p) ∈ s.positions) (k : Int) (r : Reward)
    (hm : (k, r) ∈ s.rewards) (hk : p.index < k) (hover : k < s.index) (h : History) (hs : h.Signed c)
    (hq : StaysIn c user h) :
    exits s ≤ exits (run c h s) ∧
    ∃ r', (k, r') ∈ (run c h s).rewards ∧ r'.total ≤ r.total ∧
      10 ^ 18 * (p.amount * 10 ^ 12 / p.index) * r'.rewards * r.total ≤
      10 ^ 18 * (p.amount * 10 ^ 12 / p.index) * r.rewards * r'.total
        + (10 ^ 18 * (exits (run c h s) - exits s) + (r.total - r'.total)) * r.total * r'.total := by
  have hi := (hr.vinv hc).toV0
  have hkp := shareTop_run hc hr (key := (user, 2, time)) rfl (fun x hx => by
      obtain rfl : x = (k, r) := by simpa using hx
      exact hover) (shareTop_start hc hr hp hm) h hs hq
  obtain ⟨r', h1, h2, h3⟩ := hkp.rew _ List.mem_cons_self hk
  have ho := hi.entry _ hp
  have hP : roundedDown p.amount p.index = p.amount * 10 ^ 12 / p.index := by
    unfold roundedDown
    exact Int.tdiv_eq_ediv_of_nonneg (mul_SCALE_nonneg ho.amount)
  refine ⟨(run_logged hc hr h hs).exits, r', KV.mem_of_get? h1, h2, ?_⟩
  rw [hP, Int.zero_add] at h3
  have e : DEC = 10 ^ 18 := by decide
  rw [e] at h3
  exact h3

/-- What one record pays the position grows by at most one unit, and one for each payout of others. -/
theorem userReward_settled {c : Cfg} (hc : c.WF) {s : State} (hr : Reachable c s) {user : Addr} {time : Int}
    {p : Position} (hp : ((user, 2, time), p) ∈ s.positions) {k : Int} {r : Reward}
    (hm : (k, r) ∈ s.rewards) (hk : p.index < k) (hover : k < s.index) {h : History} (hs : h.Signed c)
    (hq : StaysIn c user h) (hbig : 3 * r.total ≤ 2 * 10 ^ 18) :
    ∃ r', (run c h s).rewards.get? k = some r' ∧
      userReward (run c h s).index (roundedDown p.amount p.index) r' ≤
        userReward s.index (roundedDown p.amount p.index) r + 1 + (exits (run c h s) - exits s) := by
  have hi := (hr.vinv hc).toV0
  have hri : r.index = k := (hi.rew _ hm).1
  have hkp := shareTop_run hc hr (key := (user, 2, time)) rfl (fun x hx => by
      obtain rfl : x = (k, r) := by simpa using hx
      exact hover) (shareTop_start hc hr hp hm) h hs hq
  have hr' : Reachable c (run c h s) := hr.run hs
  have hi' := (hr'.vinv hc).toV0
  obtain ⟨r', h1, h2, h3⟩ := hkp.rew _ List.mem_cons_self hk
  have hn := (run_logged hc hr h hs).exits
  have hri' : r'.index = k := (hi'.rew _ (KV.mem_of_get? h1)).1
  have ho := hi.entry _ hp
  have hP : 0 ≤ roundedDown p.amount p.index := down_nonneg ho.amount ho.idx
  have hcov := covered_at hi' hkp.pos rfl hk h1
  have hmono := C02_index_monotone hc hr h hs
  refine ⟨r', h1, ?_⟩
  rw [Int.zero_add] at h3
  generalize roundedDown p.amount p.index = P at *
  have hw := userReward_nonneg (cur := s.index) (r := r) hP
  by_cases hpos' : 0 < r'.total ∧ 0 < r'.rewards
  swap
  · have : userReward (run c h s).index P r' = 0 := by unfold userReward; rw [if_neg hpos']
    omega
  have hcur' : r'.index ≠ (run c h s).index := by omega
  have hcur : r.index ≠ s.index := by omega
  have hb' := share_bounds hpos'.2.le hpos'.1 hP
  have e' : userReward (run c h s).index P r' =
      decTrunc (decMulInt (decQuo (decOfInt r'.rewards) (decOfInt r'.total)) P) := by
    unfold userReward
    rw [if_pos hpos', if_pos ⟨hcur', hpos'.2.le⟩]
  have hT : 0 < r.total := Int.lt_of_lt_of_le hpos'.1 h2
  have hfin : P * r.rewards * DEC < (userReward s.index P r + 1) * r.total * DEC + P * r.total := by
    by_cases h0 : 0 < r.rewards
    · unfold userReward
      rw [if_pos ⟨hT, h0⟩, if_pos ⟨hcur, h0.le⟩]
      exact (share_bounds h0.le hT hP).2.2.1
    · have a1 : P * r.rewards * DEC ≤ 0 :=
        mul_nonpos_of_nonpos_of_nonneg (mul_nonpos_of_nonneg_of_nonpos hP (by omega)) (by decide)
      have a2 : 0 < (userReward s.index P r + 1) * r.total * DEC :=
        mul_pos (mul_pos (by omega) hT) (by decide)
      have a3 : 0 ≤ P * r.total := mul_nonneg hP hT.le
      omega
  rw [e']
  have := shareUp_end hpos'.1 h2 hcov (show 3 * r.total ≤ 2 * DEC from hbig) hfin hb'.2.1 h3
  omega

theorem norecord_run {c : Cfg} (hc : c.WF) {s : State} (hr : Reachable c s) {k : Int}
    (hn : s.rewards.get? k = none) (hk : k < s.index) (h : History) (hs : h.Signed c) :
    (run c h s).rewards.get? k = none := by
  induction h generalizing s with
  | nil => exact hn
  | cons e t ih =>
    have he := hs e List.mem_cons_self
    have hm := C02_index_monotone hc hr [e] (fun e' h' => hs e' (by simp_all))
    exact ih (hr.step he) (norecord_step hc hr hn hk) (Int.lt_of_lt_of_le hk hm)
      (fun e' h' => hs e' (List.mem_cons_of_mem _ h'))

theorem sum_const_le (rs : KV Int Reward) (i b : Int) :
    rs.sum (fun k _ => if i < k then b else 0) = ((rs.filter fun e => decide (i < e.1)).length : Int) * b := by
  induction rs with
  | nil => simp [KV.sum]
  | cons e t ih =>
    rw [KV.sum_cons, List.filter_cons, ih]
    by_cases h : i < e.1
    · simp only [h, if_true, decide_true, List.length_cons]
      push_cast
      rw [Int.add_mul]; omega
    · simp only [h, if_false, decide_false, Bool.false_eq_true]; omega

theorem rewardsOwed_settled {c : Cfg} (hc : c.WF) {s : State} (hr : Reachable c s) {user : Addr} {time : Int}
    {p : Position} (hp : ((user, 2, time), p) ∈ s.positions) {h : History} (hs : h.Signed c)
    (hq : StaysIn c user h) (hsame : (run c h s).index = s.index)
    (hbig : ∀ e ∈ s.rewards, 3 * e.2.total ≤ 2 * 10 ^ 18) :
    rewardsOwed (run c h s).rewards p.index (run c h s).index (roundedDown p.amount p.index) ≤
      rewardsOwed s.rewards p.index s.index (roundedDown p.amount p.index)
        + (run c h s).rewards.sum (fun k _ => if p.index < k then 1 + ((exits (run c h s) : Int) - exits s) else 0) := by
  have hr' : Reachable c (run c h s) := hr.run hs
  have ho := (hr.vinv hc).toV0.entry _ hp
  have hn := (run_logged hc hr h hs).exits
  have hP : 0 ≤ roundedDown p.amount p.index := down_nonneg ho.amount ho.idx
  unfold rewardsOwed
  refine KV.sum_le_sub hr'.shape.rewards hr.shape.rewards ?_ ?_
  · intro e _
    split
    · exact userReward_nonneg hP
    · exact le_refl _
  · intro e he
    by_cases hk : p.index < e.1
    swap
    · left; rw [if_neg hk, if_neg hk]
    obtain ⟨h1, h2, _⟩ := (hr'.vinv hc).toV0.rew e he
    by_cases hcur : e.1 = (run c h s).index
    · left
      rw [if_pos hk, if_pos hk]
      have : userReward (run c h s).index (roundedDown p.amount p.index) e.2 = 0 := by
        unfold userReward
        split
        · rw [if_neg]; exact fun hh => hh.1 (by omega)
        · rfl
      rw [this]; omega
    · right
      have hlt : e.1 < s.index := by omega
      cases hg : s.rewards.get? e.1 with
      | none =>
        have := norecord_run hc hr hg hlt h hs
        rw [KV.get?_of_mem hr'.shape.rewards (k := e.1) (v := e.2) he] at this
        cases this
      | some r =>
        obtain ⟨r', g1, g2⟩ := userReward_settled hc hr hp (KV.mem_of_get? hg) hk hlt hs hq
          (hbig _ (KV.mem_of_get? hg))
        rw [KV.get?_of_mem hr'.shape.rewards (k := e.1) (v := e.2) he] at g1
        obtain rfl := Option.some.inj g1
        refine ⟨r, rfl, ?_⟩
        rw [if_pos hk, if_pos hk, if_pos hk]
        omega

/-- The rewards the query shows for a flexible position: as long as the index does not move and nobody unlocks
flexible positions of this user, nobody can change the figure by more than rounding: it grows by at most one
unit, and one per payout of a flexible position of others, for each reward record newer than the position.
(C80 bounds how much it can drop.) -/
theorem C100_rewards_settled {c : Cfg} (hc : c.WF) {s : State} (hr : Reachable c s) (user : Addr) (time : Int)
    (p : Position) (hp : ((user, 2, time), p) ∈ s.positions) (h : History) (hs : h.Signed c)
    (hq : StaysIn c user h) (hsame : (run c h s).index = s.index)
    (hbig : ∀ e ∈ s.rewards, 3 * e.2.total ≤ 2 * 10 ^ 18) :
    ∃ before after,
      positionRewards s ⟨user, 2, p.principal, p.index, p.amount, p.time⟩ = some before ∧
      positionRewards (run c h s) ⟨user, 2, p.principal, p.index, p.amount, p.time⟩ = some after ∧
      before - (s.rewards.filter fun e => decide (p.index < e.1)).length ≤ after ∧
      after ≤ before + ((run c h s).rewards.filter fun e => decide (p.index < e.1)).length *
        (1 + ((exits (run c h s) : Int) - exits s)) := by
  obtain ⟨_, before, after, h1, h2, h3⟩ := C80_rewards_kept hc hr user time p hp h hs hq hbig
  refine ⟨before, after, h1, h2, h3, ?_⟩
  have ho := (hr.vinv hc).toV0.entry _ hp
  have hx : 0 < p.index := ho.idx
  have e1 : ∀ s : State, positionRewards s ⟨user, 2, p.principal, p.index, p.amount, p.time⟩ =
      some (rewardsOwed s.rewards p.index s.index (roundedDown p.amount p.index)) := by
    intro s
    unfold positionRewards
    rw [if_neg hx.ne', queryWalk_eq, Int.zero_add]
  have := rewardsOwed_settled hc hr hp hs hq hsame hbig
  rw [sum_const_le] at this
  rw [e1] at h1 h2
  obtain rfl := Option.some.inj h1
  obtain rfl := Option.some.inj h2
  exact this

/-- The hypotheses are met: Alice's position has two newer records, the cycle of the first of which is over;
Bob's withdrawal is the one payout, the index stays, and the figure for Alice stays at 215000. -/
example : let s := run Demo.cfg Demo.histTwo Demo.start
    let s1 := run Demo.cfg Demo.histLeave s
    Reachable Demo.cfg s ∧ Demo.histLeave.Signed Demo.cfg ∧ StaysIn Demo.cfg Demo.alice Demo.histLeave ∧
    s.positions.get? (Demo.alice, 2, 3) = some ⟨2000000, 1000000000000, 2000000, 3⟩ ∧
    s.rewards.get? 1100000000000 = some ⟨1100000000000, 4000000, 430000⟩ ∧ s.index = 1200000000000 ∧
    s1.index = 1200000000000 ∧ exits s = 0 ∧ exits s1 = 1 ∧
    s1.rewards.get? 1100000000000 = some ⟨1100000000000, 2999999, 322500⟩ ∧
    positionRewards s ⟨Demo.alice, 2, 2000000, 1000000000000, 2000000, 3⟩ = some 215000 ∧
    positionRewards s1 ⟨Demo.alice, 2, 2000000, 1000000000000, 2000000, 3⟩ = some 215000 :=
  ⟨Demo.reachTwo, Demo.leave_signed, Demo.leave_stays, by decide +kernel⟩

end Dollar
