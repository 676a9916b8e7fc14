import Verif.Lemmas.Share
import Verif.Props.C02
import Verif.Props.C28
import Verif.Props.C41

/-
C80: other users leaving the flexible vault do not eat a user's rewards.
-/
set_option maxRecDepth 100000
namespace Dollar
open MM Spec

/-- Nobody unlocks flexible positions of `user` in this history. -/
def Spec.StaysIn (c : Cfg) (user : Addr) (h : History) : Prop :=
  ∀ e ∈ h, ∀ signer amount, e.2 = .unlock signer 2 amount → c.decode signer ≠ some user

theorem shareKept_run {c : Cfg} (hc : c.WF) {s : State} (hr : Reachable c s) {key : PKey} {p : Position}
    {rs : KV Int Reward} (hfl : key.2.1 = FLEXIBLE) (hki : ∀ x ∈ rs, x.1 ≤ s.index)
    (hkp : ShareKept key p rs s) (h : History) (hs : h.Signed c) (hq : StaysIn c key.1 h) :
    ShareKept key p rs (run c h s) := by
  induction h generalizing s with
  | nil => exact hkp
  | cons e t ih =>
    have he := hs e List.mem_cons_self
    have hm := C02_index_monotone hc hr [e] (fun e' h' => hs e' (by simp_all))
    refine ih (hr.step he) ?_ ?_ (fun e' h' => hs e' (List.mem_cons_of_mem _ h'))
      (fun e' h' => hq e' (List.mem_cons_of_mem _ h'))
    · exact fun x hx => (hki x hx).trans hm
    · exact hkp.step hc (hr.led hc) (hr.vinv hc).toV0 hfl hki (hq e List.mem_cons_self) he

theorem shareKept_start {c : Cfg} (hc : c.WF) {s : State} (hr : Reachable c s) {key : PKey} {p : Position}
    (hp : (key, p) ∈ s.positions) : ShareKept key p s.rewards s := by
  refine ⟨KV.get?_of_mem (hr.vinv hc).sorted hp, fun x hm _ =>
    ⟨x.2, KV.get?_of_mem hr.shape.rewards hm, le_refl _, ?_⟩⟩
  rw [Int.sub_self, Int.zero_mul, Int.zero_mul, Int.add_zero]

/-- A user's flexible position is in place at `s`, the record `k` holds rewards `R` for a total
principal `T`, and in the history `h` everybody does what they like, except that nobody unlocks
flexible positions of this user.  Then the position is still in place, the record still covers the
position's principal `P`, and its rewards `R'` and total `T'` leave the position's share
`P * R' / T'` at no less than `P * R / T - (T - T') / (2 * 10 ^ 18)`: written without division. -/
theorem C80_share_kept {c : Cfg} (hc : c.WF) {s : State} (hr : Reachable c s) (user : Addr) (time : Int)
    (p : Position) (hp : ((user, 2, time), p) ∈ s.positions) (k : Int) (r : Reward)
    (hm : (k, r) ∈ s.rewards) (hk : p.index < k) (h : History) (hs : h.Signed c)
    (hq : StaysIn c user h) :
    ((user, 2, time), p) ∈ (run c h s).positions ∧
    ∃ r', (k, r') ∈ (run c h s).rewards ∧
      p.amount * 10 ^ 12 / p.index ≤ r'.total ∧ r'.total ≤ r.total ∧
      2 * 10 ^ 18 * (p.amount * 10 ^ 12 / p.index) * r.rewards * r'.total
        - (r.total - r'.total) * r.total * r'.total ≤
      2 * 10 ^ 18 * (p.amount * 10 ^ 12 / p.index) * r'.rewards * r.total := by
  have hi := (hr.vinv hc).toV0
  have hkp := shareKept_run hc hr (key := (user, 2, time)) rfl (fun x hx => (hi.rew x hx).2.1)
    (shareKept_start hc hr hp) h hs hq
  have hr' : Reachable c (run c h s) := hr.run hs
  have hi' := (hr'.vinv hc).toV0
  obtain ⟨r', h1, h2, h3⟩ := hkp.rew _ hm hk
  have ho := hi.entry _ hp
  have hP : roundedDown p.amount p.index = p.amount * 10 ^ 12 / p.index := by
    unfold roundedDown
    exact Int.tdiv_eq_ediv_of_nonneg (mul_SCALE_nonneg ho.amount)
  refine ⟨KV.mem_of_get? hkp.pos, r', KV.mem_of_get? h1, ?_, h2, ?_⟩
  · rw [← hP]
    exact covered_at hi' hkp.pos rfl hk h1
  · rw [hP] at h3
    have e : DEC = 10 ^ 18 := by decide
    rw [e] at h3
    dsimp only at h3
    omega

/-- What one record pays the position drops by at most one unit. -/
theorem userReward_kept {c : Cfg} (hc : c.WF) {s : State} (hr : Reachable c s) {user : Addr} {time : Int}
    {p : Position} (hp : ((user, 2, time), p) ∈ s.positions) {k : Int} {r : Reward}
    (hm : (k, r) ∈ s.rewards) (hk : p.index < k) {h : History} (hs : h.Signed c)
    (hq : StaysIn c user h) (hbig : 3 * r.total ≤ 2 * 10 ^ 18) :
    ∃ r', (run c h s).rewards.get? k = some r' ∧
      userReward s.index (roundedDown p.amount p.index) r ≤
        userReward (run c h s).index (roundedDown p.amount p.index) r' + 1 := by
  have hi := (hr.vinv hc).toV0
  obtain ⟨hri, hki, _⟩ := hi.rew _ hm
  have hri : r.index = k := hri
  have hki : k ≤ s.index := hki
  have hkp := shareKept_run hc hr (key := (user, 2, time)) rfl (fun x hx => (hi.rew x hx).2.1)
    (shareKept_start hc hr hp) h hs hq
  have hr' : Reachable c (run c h s) := hr.run hs
  have hi' := (hr'.vinv hc).toV0
  obtain ⟨r', h1, h2, h3⟩ := hkp.rew _ hm hk
  have hri' : r'.index = k := (hi'.rew _ (KV.mem_of_get? h1)).1
  have ho := hi.entry _ hp
  have hP : 0 ≤ roundedDown p.amount p.index := down_nonneg ho.amount ho.idx
  have hcov := covered_at hi' hkp.pos rfl hk h1
  have hmono := C02_index_monotone hc hr h hs
  refine ⟨r', h1, ?_⟩
  generalize roundedDown p.amount p.index = P at *
  have hw' := userReward_nonneg (cur := (run c h s).index) (r := r') hP
  rcases Int.lt_or_le 1 (userReward s.index P r) with hz | hz
  swap
  · omega
  have hpos : 0 < r.total ∧ 0 < r.rewards := by
    by_contra hn
    unfold userReward at hz
    rw [if_neg hn] at hz
    omega
  have hcur : r.index ≠ s.index := by
    intro e
    unfold userReward at hz
    rw [if_pos hpos, if_neg (fun hh => hh.1 e)] at hz
    omega
  have hcur' : r'.index ≠ (run c h s).index := by omega
  have hb := share_bounds hpos.2.le hpos.1 hP
  have e0 : userReward s.index P r =
      decTrunc (decMulInt (decQuo (decOfInt r.rewards) (decOfInt r.total)) P) := by
    unfold userReward
    rw [if_pos hpos, if_pos ⟨hcur, hpos.2.le⟩]
  rw [e0] at hz ⊢
  simp only at hb
  clear e0
  generalize decTrunc (decMulInt (decQuo (decOfInt r.rewards) (decOfInt r.total)) P) = w0 at *
  have hP0 : 0 < P := by
    by_contra hn
    have : P = 0 := by omega
    subst this
    have h4 := hb.2.1
    have h5 : 1 * r.total * DEC < w0 * r.total * DEC :=
      mul_lt_mul_of_pos_right (mul_lt_mul_of_pos_right hz hpos.1) (by decide)
    have h6 : 0 < r.total * DEC := mul_pos hpos.1 (by decide)
    simp only [Int.zero_mul, Int.mul_zero, Int.add_zero, Int.one_mul] at h4 h5
    omega
  have hT' : 0 < r'.total := by omega
  have hfin : P * r'.rewards * DEC <
      (userReward (run c h s).index P r' + 1) * r'.total * DEC + P * r'.total := by
    by_cases hR : 0 < r'.rewards
    · unfold userReward
      rw [if_pos ⟨hT', hR⟩, if_pos ⟨hcur', hR.le⟩]
      exact (share_bounds hR.le hT' hP).2.2.1
    · have a1 : P * r'.rewards * DEC ≤ 0 :=
        mul_nonpos_of_nonpos_of_nonneg (mul_nonpos_of_nonneg_of_nonpos hP (by omega)) (by decide)
      have a2 : 0 ≤ (userReward (run c h s).index P r' + 1) * r'.total * DEC :=
        mul_nonneg (mul_nonneg (by omega) hT'.le) (by decide)
      have a3 : 0 < P * r'.total := mul_pos hP0 hT'
      omega
  have := share_end hT' h2 hcov (show 3 * r.total ≤ 2 * DEC from hbig) hb.2.1 hfin h3
  omega

theorem KV.sum_le_sub {K V : Type} [DecidableEq K] [KeyOrd K] [LawfulKeyOrd K] {m m' : KV K V}
    (hm : KV.Sorted m) (hm' : KV.Sorted m') {f g d : K → V → Int} (hg : ∀ e ∈ m', 0 ≤ g e.1 e.2)
    (h : ∀ e ∈ m, f e.1 e.2 ≤ d e.1 e.2 ∨
      ∃ v', m'.get? e.1 = some v' ∧ f e.1 e.2 ≤ g e.1 v' + d e.1 e.2) :
    m.sum f ≤ m'.sum g + m.sum d := by
  induction m generalizing m' with
  | nil =>
    have := KV.sum_nonneg hg
    simpa using this
  | cons e t ih =>
    have hs := hm
    unfold KV.Sorted at hm
    rw [List.pairwise_cons] at hm
    rcases h e List.mem_cons_self with h2 | ⟨v', h1, h2⟩
    · have h3 := ih hm.2 hm' hg (fun x hx => h x (List.mem_cons_of_mem _ hx))
      rw [KV.sum_cons, KV.sum_cons]
      omega
    have h3 := ih (m' := m'.erase e.1) hm.2 (KV.sorted_erase _ hm')
      (fun x hx => hg x (KV.mem_erase.1 hx).1) (fun x hx => by
        rcases h x (List.mem_cons_of_mem _ hx) with g2 | ⟨w, g1, g2⟩
        · exact .inl g2
        refine .inr ⟨w, ?_, g2⟩
        rw [KV.get?_erase, if_neg, g1]
        intro e1
        have := KV.nodup_keys hs
        rw [List.map_cons, List.nodup_cons] at this
        exact this.1 (e1 ▸ List.mem_map_of_mem hx))
    have h4 := KV.sum_erase hm' e.1 g
    have h5 : KV.at' m' e.1 g = g e.1 v' := by
      unfold KV.at'
      rw [h1]
    rw [KV.sum_cons, KV.sum_cons]
    omega

theorem rewardsOwed_kept {c : Cfg} (hc : c.WF) {s : State} (hr : Reachable c s) {user : Addr} {time : Int}
    {p : Position} (hp : ((user, 2, time), p) ∈ s.positions) {h : History} (hs : h.Signed c)
    (hq : StaysIn c user h) (hbig : ∀ e ∈ s.rewards, 3 * e.2.total ≤ 2 * 10 ^ 18) :
    rewardsOwed s.rewards p.index s.index (roundedDown p.amount p.index) ≤
      rewardsOwed (run c h s).rewards p.index (run c h s).index (roundedDown p.amount p.index)
        + s.rewards.sum (fun k _ => if p.index < k then 1 else 0) := by
  have hr' : Reachable c (run c h s) := hr.run hs
  have ho := (hr.vinv hc).toV0.entry _ hp
  have hP : 0 ≤ roundedDown p.amount p.index := down_nonneg ho.amount ho.idx
  unfold rewardsOwed
  refine KV.sum_le_sub hr.shape.rewards hr'.shape.rewards ?_ ?_
  · intro e _
    split
    · exact userReward_nonneg hP
    · exact le_refl _
  · intro e he
    by_cases hk : p.index < e.1
    · obtain ⟨r', h1, h2⟩ := userReward_kept hc hr hp (k := e.1) (r := e.2) he hk hs hq (hbig e he)
      exact .inr ⟨r', h1, by rw [if_pos hk, if_pos hk, if_pos hk]; exact h2⟩
    · left; rw [if_neg hk, if_neg hk]

/-- The number of records newer than the position. -/
theorem sum_ones_le (rs : KV Int Reward) (i : Int) :
    rs.sum (fun k _ => if i < k then 1 else 0) = ((rs.filter fun e => decide (i < e.1)).length : Int) := by
  induction rs with
  | nil => rfl
  | cons e t ih =>
    rw [KV.sum_cons, List.filter_cons, ih]
    by_cases h : i < e.1
    · simp only [h, if_true, decide_true, List.length_cons]; omega
    · simp only [h, if_false, decide_false, Bool.false_eq_true]; omega

/-- The rewards the query shows for a flexible position: whatever everybody else does, and as long as
nobody unlocks flexible positions of this user, the position stays as it is and the figure drops by
at most one unit per reward record newer than the position.  (The totals in the records must be below
two thirds of 10^18 units, 666 billion dollars of principal.) -/
theorem C80_rewards_kept {c : Cfg} (hc : c.WF) {s : State} (hr : Reachable c s) (user : Addr) (time : Int)
    (p : Position) (hp : ((user, 2, time), p) ∈ s.positions) (h : History) (hs : h.Signed c)
    (hq : StaysIn c user h) (hbig : ∀ e ∈ s.rewards, 3 * e.2.total ≤ 2 * 10 ^ 18) :
    ((user, 2, time), p) ∈ (run c h s).positions ∧
    ∃ before after,
      positionRewards s ⟨user, 2, p.principal, p.index, p.amount, p.time⟩ = some before ∧
      positionRewards (run c h s) ⟨user, 2, p.principal, p.index, p.amount, p.time⟩ = some after ∧
      before - (s.rewards.filter fun e => decide (p.index < e.1)).length ≤ after := by
  have ho := (hr.vinv hc).toV0.entry _ hp
  have hx : 0 < p.index := ho.idx
  have e1 : ∀ s : State, positionRewards s ⟨user, 2, p.principal, p.index, p.amount, p.time⟩ =
      some (rewardsOwed s.rewards p.index s.index (roundedDown p.amount p.index)) := by
    intro s
    unfold positionRewards
    rw [if_neg hx.ne', queryWalk_eq, Int.zero_add]
  refine ⟨?_, _, _, e1 _, e1 _, ?_⟩
  · exact KV.mem_of_get? (shareKept_run hc hr (key := (user, 2, time)) rfl
      (fun x hx => ((hr.vinv hc).toV0.rew x hx).2.1) (shareKept_start hc hr hp) h hs hq).pos
  · have := rewardsOwed_kept hc hr hp hs hq hbig
    rw [sum_ones_le] at this
    omega

theorem positionsOf_filter (s : State) (user : Addr) :
    positionsOf s user 2 = (s.positions.filter (fun e => decide (e.1.1 = user ∧ e.1.2.1 = 2))).map
      (fun e => (⟨e.1.1, e.1.2.1, e.2.principal, e.2.index, e.2.amount, e.2.time⟩ : PosEntry)) := by
  unfold positionsOf
  generalize s.positions = l
  induction l with
  | nil => rfl
  | cons e t ih =>
    rw [List.filterMap_cons, List.filter_cons]
    by_cases hm : e.1.1 = user ∧ e.1.2.1 = 2
    · simp only [hm, and_self, if_true, decide_true, List.map_cons, ih]
    · simp only [hm, if_false, decide_false, Bool.false_eq_true, ih]

/-- The same for what is paid: after such a history the user unlocks the position in full, and the
flexible vault's account pays out at least what the query showed at the start, less one unit per
record newer than the position. -/
theorem C80_payout_kept {c : Cfg} (hc : c.WF) {s : State} (hr : Reachable c s) (user : Addr) (time : Int)
    (p : Position) (hp : ((user, 2, time), p) ∈ s.positions) (h : History) (hs : h.Signed c)
    (hq : StaysIn c user h) (hbig : ∀ e ∈ s.rewards, 3 * e.2.total ≤ 2 * 10 ^ 18)
    (env : Env) (signer : String) (hd : c.decode signer = some user) (hu : c.IsUser user)
    (hone : (run c h s).positions.filter (fun e => decide (e.1.1 = user ∧ e.1.2.1 = 2)) = [((user, 2, time), p)])
    (hv : 0 < (run c h s).principalOf (c.modAddr "dollar/vaults/flexible")) (s' : State)
    (he : exec c env (.unlock signer 2 (some p.amount)) (run c h s) = .ok () s') :
    ∃ before, positionRewards s ⟨user, 2, p.principal, p.index, p.amount, p.time⟩ = some before ∧
      before - (s.rewards.filter fun e => decide (p.index < e.1)).length ≤
        (run c h s).balance (c.modAddr "dollar/vaults/flexible") -
          s'.balance (c.modAddr "dollar/vaults/flexible") := by
  obtain ⟨_, before, after, h1, h2, h3⟩ := C80_rewards_kept hc hr user time p hp h hs hq hbig
  obtain ⟨rw', g1, g2, _⟩ := C32_query_predicts_payout hc env _ s' (hr.run hs) signer user hd hu time p
    hone hv he
  refine ⟨before, h1, ?_⟩
  have : rw' = after := by
    have hl : positionsOf (run c h s) user 2 = [⟨user, 2, p.principal, p.index, p.amount, p.time⟩] := by
      rw [positionsOf_filter, hone]; rfl
    unfold queryPendingByProvider at g1
    rw [hd] at g1
    have g1 : (do
      let l ← (positionsOf (run c h s) user 2).mapM fun p =>
        (positionRewards (run c h s) p).map fun r => (p.amount, r)
      pure ((l.map Prod.snd).sum, l)) = some (rw', [(p.amount, rw')]) := g1
    rw [hl] at g1
    simp [h2] at g1
    exact g1.symm
  omega

/-- Alice and Bob both have flexible and staked positions, and two cycles have passed. -/
def Demo.histTwo : History :=
  [(Demo.env 1, .deliver [1]), (Demo.env 2, .deliver [2]),
   (Demo.env 3, .lock Demo.aliceS 2 (some 2000000)), (Demo.env 4, .lock Demo.bobS 2 (some 2000000)),
   (Demo.env 5, .lock Demo.aliceS 1 (some 3000000)), (Demo.env 6, .lock Demo.bobS 1 (some 1300001)),
   (Demo.env 7, .deliver [3]), (Demo.env 8, .deliver [4])]

/-- Bob takes part of the flexible position out; Alice goes on staking. -/
def Demo.histLeave : History :=
  [(Demo.env 9, .unlock Demo.bobS 2 (some 1000001)), (Demo.env 10, .claimYield Demo.bobS),
   (Demo.env 12, .lock Demo.aliceS 1 (some 1000000))]

theorem Demo.reachTwo : Reachable Demo.cfg (run Demo.cfg Demo.histTwo Demo.start) := by
  refine .of_run Demo.start_initial ?_
  intro e he
  simp only [Demo.histTwo, List.mem_cons, List.not_mem_nil, or_false] at he
  rcases he with rfl | rfl | rfl | rfl | rfl | rfl | rfl | rfl
  · trivial
  · trivial
  · exact Demo.aliceS_user
  · exact Demo.bobS_user
  · exact Demo.aliceS_user
  · exact Demo.bobS_user
  · trivial
  · trivial

theorem Demo.leave_signed : History.Signed Demo.cfg Demo.histLeave := by
  intro e he
  simp only [Demo.histLeave, List.mem_cons, List.not_mem_nil, or_false] at he
  rcases he with rfl | rfl | rfl
  · exact Demo.bobS_user
  · exact Demo.bobS_user
  · exact Demo.aliceS_user

theorem Demo.leave_stays : StaysIn Demo.cfg Demo.alice Demo.histLeave := by
  intro e he signer amount h
  simp only [Demo.histLeave, List.mem_cons, List.not_mem_nil, or_false] at he
  rcases he with rfl | rfl | rfl
  · cases h; decide +kernel
  · cases h
  · cases h

/-- The hypotheses are met: Alice's position has two newer records and 215000 of rewards pending; after
Bob's withdrawal the same record has paid 107500 and still owes Alice 215000, and Alice's full unlock
succeeds. -/
example : let s := run Demo.cfg Demo.histTwo Demo.start
    let s1 := run Demo.cfg Demo.histLeave s
    Reachable Demo.cfg s ∧ Demo.histLeave.Signed Demo.cfg ∧ StaysIn Demo.cfg Demo.alice Demo.histLeave ∧
    s.positions.get? (Demo.alice, 2, 3) = some ⟨2000000, 1000000000000, 2000000, 3⟩ ∧
    s.rewards = [(1100000000000, ⟨1100000000000, 4000000, 430000⟩),
      (1200000000000, ⟨1200000000000, 4000000, 429999⟩)] ∧
    s1.rewards = [(1100000000000, ⟨1100000000000, 2999999, 322500⟩),
      (1200000000000, ⟨1200000000000, 2999999, 429999⟩)] ∧
    positionRewards s ⟨Demo.alice, 2, 2000000, 1000000000000, 2000000, 3⟩ = some 215000 ∧
    positionRewards s1 ⟨Demo.alice, 2, 2000000, 1000000000000, 2000000, 3⟩ = some 215000 ∧
    s1.positions.filter (fun e => decide (e.1.1 = Demo.alice ∧ e.1.2.1 = 2)) =
      [((Demo.alice, 2, 3), ⟨2000000, 1000000000000, 2000000, 3⟩)] ∧
    0 < s1.principalOf (Demo.cfg.modAddr "dollar/vaults/flexible") ∧
    (exec Demo.cfg (Demo.env 13) (.unlock Demo.aliceS 2 (some 2000000)) s1).isOk = true :=
  ⟨Demo.reachTwo, Demo.leave_signed, Demo.leave_stays, by decide +kernel⟩

end Dollar
