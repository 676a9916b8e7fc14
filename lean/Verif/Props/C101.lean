import Verif.Lemmas.RecordFlow
import Verif.Lemmas.RangeVault
import Verif.Props.C50
import Verif.Props.C80

/-
C101: the rewards of a cycle are paid out, in proportion to the principal that leaves; but the rewards of a cycle in which
nobody is left in the flexible vault are never paid to anyone.
-/
set_option maxRecDepth 100000
namespace Dollar
open MM Spec

theorem flow_run {c : Cfg} (hc : c.WF) {s : State} (hr : Reachable c s) {k : Int} {r : Reward}
    {Q : Nat → Reward → Prop} (hQ : ∀ cur, s.index ≤ cur → Flows cur Q) (hi : k ≤ s.index)
    (hk : s.rewards.get? k = some r) (hq : Q (exits s) r) (h : History) (hs : h.Signed c) :
    ∃ r', (run c h s).rewards.get? k = some r' ∧ Q (exits (run c h s)) r' := by
  induction h generalizing s r with
  | nil => exact ⟨r, hk, hq⟩
  | cons e t ih =>
    have he := hs e List.mem_cons_self
    have hm := C02_index_monotone hc hr [e] (fun e' h' => hs e' (by simp_all))
    obtain ⟨r', h1, h2⟩ := flow_step hc (env := e.1) hr he (hQ _ (le_refl _)) hi hk hq
    exact ih (hr.step he) (fun cur hcur => hQ cur (hm.trans hcur)) (hi.trans hm) h1 h2
      (fun e' h' => hs e' (List.mem_cons_of_mem _ h'))

/-- `s'` comes after `s`: transactions signed by users, and upgrades. -/
inductive Spec.Later (c : Cfg) (s : State) : State → Prop
  | now : Later c s s
  | step {m : State} (h : Later c s m) {env : Env} {msg : Msg} (hm : msg.SignedByUser c) :
      Later c s (Dollar.step c env msg m)
  | upgrade {m s' : State} (h : Later c s m) (hu : Upgrade c m s') : Later c s s'

theorem Spec.Later.reachable {c : Cfg} {s s' : State} (hr : Reachable c s) (h : Later c s s') : Reachable c s' := by
  induction h with
  | now => exact hr
  | step _ hm ih => exact ih.step hm
  | upgrade _ hu ih => exact .upgrade ih hu

theorem Spec.Later.run {c : Cfg} {s : State} (h : History) (hs : h.Signed c) : Later c s (Dollar.run c h s) := by
  induction h using List.reverseRecOn with
  | nil => exact .now
  | append_singleton t e ih =>
    rw [run_append]
    exact .step (ih (fun e' h' => hs e' (List.mem_append_left _ h'))) (hs e (by simp))

/-- A record whose total principal is zero keeps its rewards for ever: no message of anybody and no upgrade of
the settings changes it again. -/
theorem C101_stranded_forever {c : Cfg} (hc : c.WF) {s : State} (hr : Reachable c s) (k : Int) (r : Reward)
    (hm : (k, r) ∈ s.rewards) (h0 : r.total = 0) (s' : State) (h : Later c s s') : (k, r) ∈ s'.rewards := by
  induction h with
  | now => exact hm
  | @step m h env msg hs ih =>
    have hr1 : Reachable c m := Later.reachable hr h
    have hi := (hr1.vinv hc).toV0
    obtain ⟨r', h1, h2⟩ := flow_step hc (env := env) hr1 hs (Q := fun _ x => x = r) (by
        refine ⟨fun _ _ _ _ h => h, ?_⟩
        rintro n q x _ _ rfl
        unfold rewardAfter
        rw [if_neg]
        omega) (hi.rew _ ih).2.1 (KV.get?_of_mem hr1.shape.rewards ih) rfl
    rw [h2] at h1
    exact KV.mem_of_get? h1
  | upgrade _ hu ih =>
    obtain ⟨_, _, _, _, _, _, _, _, _, rfl⟩ := hu.rest
    exact ih

/-- The coins behind it stay in the account of the flexible vault. -/
theorem C101_stranded_coins {c : Cfg} (hc : c.WF) {s : State} (hr : Reachable c s) (k : Int) (r : Reward)
    (hm : (k, r) ∈ s.rewards) (h0 : r.total = 0) (s' : State) (h : Later c s s') (hsmall : ReachableSmall c s') :
    r.rewards ≤ s'.balance (c.modAddr "dollar/vaults/flexible") := by
  have hm' := C101_stranded_forever hc hr k r hm h0 s' h
  have h1 := C28_rewards_funded hc _ hsmall.reachable
  have h2 := C28_records_nonneg hc _ hsmall
  refine le_trans ?_ h1
  have h3 := KV.le_sum_of_mem (m := s'.rewards) (f := fun _ r => r.rewards) (fun e he => h2 e he) hm'
  exact h3

/-- An announcement in season one while nobody is in the flexible vault takes the staked vault's yield into such a
record: it is never paid to anybody. -/
theorem C101_empty_vault {c : Cfg} (hc : c.WF) (env : Env) (vaa : Bytes) (i : Int) (chain : Nat) (s s' : State)
    (hr : Reachable c s) (hs : s.seasonOneEnded = false) (h0 : s.totalFlexible = 0)
    (hq : content env vaa = some (.index i chain)) (he : exec c env (.deliver vaa) s = .ok () s')
    (t : State) (ht : Later c s' t) :
    (i, (⟨i, 0, yieldAt s c.stakedAddr i + yieldAt s c.flexibleAddr i⟩ : Reward)) ∈ t.rewards := by
  obtain ⟨_, _, _, h1, _⟩ := C50_season_one hc env vaa i chain s s' hr hs hq he
  rw [h0] at h1
  have hr' : Reachable c s' := by
    have e : step c env (.deliver vaa) s = s' := by unfold step runTx; rw [he]
    rw [← e]; exact hr.step trivial
  exact C101_stranded_forever hc hr' i _ (KV.mem_of_get? h1) rfl t ht

/-- The rewards of a cycle that is over are paid out in proportion to the principal that leaves, whoever leaves in
whatever portions: starting from rewards `R` for a total `T`, when the total is down to `T'` after `n` payouts,
the rewards left are `R * T' / T`, up to `n + (T - T') / 10 ^ 18` above and `(T - T') / (2 * 10 ^ 18)` below:
written without division. -/
theorem C101_proportional_partial {c : Cfg} (hc : c.WF) {s : State} (hr : Reachable c s) (k : Int) (r : Reward)
    (hm : (k, r) ∈ s.rewards) (hover : k < s.index) (hT : 0 ≤ r.total) (h : History) (hs : h.Signed c) :
    exits s ≤ exits (run c h s) ∧
    ∃ r', (k, r') ∈ (run c h s).rewards ∧ r'.total ≤ r.total ∧
      10 ^ 18 * r'.rewards * r.total ≤ 10 ^ 18 * r.rewards * r'.total +
        (10 ^ 18 * (exits (run c h s) - exits s) + (r.total - r'.total)) * r.total ∧
      2 * 10 ^ 18 * r.rewards * r'.total ≤ 2 * 10 ^ 18 * r'.rewards * r.total + (r.total - r'.total) * r.total := by
  have hi := (hr.vinv hc).toV0
  have hri : r.index = k := (hi.rew _ hm).1
  refine ⟨(run_logged hc hr h hs).exits, ?_⟩
  obtain ⟨r', h1, h2⟩ := flow_run hc hr
    (Q := fun n x => x.index = k ∧ exits s ≤ n ∧ x.total ≤ r.total ∧
      DEC * x.rewards * r.total ≤ DEC * r.rewards * x.total + (DEC * ((n : Int) - exits s) + (r.total - x.total)) * r.total ∧
      2 * DEC * r.rewards * x.total ≤ 2 * DEC * x.rewards * r.total + (r.total - x.total) * r.total)
    (fun cur hcur => by
      have hmono : ∀ (n n' : Nat) (x : Reward), n ≤ n' →
          DEC * x.rewards * r.total ≤ DEC * r.rewards * x.total + (DEC * ((n : Int) - exits s) + (r.total - x.total)) * r.total →
          DEC * x.rewards * r.total ≤ DEC * r.rewards * x.total + (DEC * ((n' : Int) - exits s) + (r.total - x.total)) * r.total := by
        intro n n' x hn h
        have hD : (0 : Int) ≤ DEC := by decide
        have a1 : DEC * ((n : Int) - exits s) ≤ DEC * ((n' : Int) - exits s) :=
          mul_le_mul_of_nonneg_left (by omega) hD
        have a2 := mul_le_mul_of_nonneg_right
          (show DEC * ((n : Int) - exits s) + (r.total - x.total) ≤ DEC * ((n' : Int) - exits s) + (r.total - x.total) by omega) hT
        omega
      refine ⟨fun n n' x hn ⟨g1, g2, g3, g4, g5⟩ => ⟨g1, g2.trans hn, g3, hmono n n' x hn g4, g5⟩, ?_⟩
      intro n q x hq hqT ⟨g1, g2, g3, g4, g5⟩
      refine ⟨by rw [rewardAfter_index]; exact g1, by omega, ?_⟩
      unfold rewardAfter
      split
      swap
      · exact ⟨g3, hmono n (n + 1) x (by omega) g4, g5⟩
      next h2 =>
      have hb := share_bounds h2.2.le h2.1 hq
      have e : userReward cur q x = decTrunc (decMulInt (decQuo (decOfInt x.rewards) (decOfInt x.total)) q) := by
        unfold userReward
        rw [if_pos h2, if_pos ⟨by omega, h2.2.le⟩]
      rw [e]
      simp only at hb
      generalize decTrunc (decMulInt (decQuo (decOfInt x.rewards) (decOfInt x.total)) q) = w at *
      refine ⟨by show x.total - q ≤ _; omega, ?_, ?_⟩
      · show DEC * (x.rewards - w) * r.total ≤ DEC * r.rewards * (x.total - q) +
          (DEC * (((n + 1 : Nat) : Int) - exits s) + (r.total - (x.total - q))) * r.total
        have en : ((n + 1 : Nat) : Int) - exits s = (n : Int) - exits s + 1 := by omega
        rw [en]
        have hm0 : (0 : Int) ≤ (n : Int) - exits s := by omega
        exact flow_up h2.1 g3 (by decide) hq hqT hm0 hb.2.2.1.le g4
      · exact flow_low h2.1 g3 hq hqT hb.2.1 g5)
    hover.le (KV.get?_of_mem hr.shape.rewards hm) ⟨hri, le_refl _, le_refl _, by simp, by simp⟩ h hs
  obtain ⟨_, _, g3, g4, g5⟩ := h2
  have e : DEC = 10 ^ 18 := by decide
  rw [e] at g4 g5
  exact ⟨r', KV.mem_of_get? h1, g3, g4, g5⟩

/-- The last one to leave takes what is left: when the total of a record of a closed cycle goes down to zero, at
most one unit of its rewards remains. -/
theorem C101_last_payout_partial {c : Cfg} (hc : c.WF) {s : State} (hr : Reachable c s) (k : Int) (r : Reward)
    (hm : (k, r) ∈ s.rewards) (hover : k < s.index) (hT : 0 < r.total) (hbig : r.total ≤ 10 ^ 18)
    (h : History) (hs : h.Signed c) (r' : Reward) (hm' : (k, r') ∈ (run c h s).rewards) (h0 : r'.total = 0) :
    r'.rewards ≤ 1 := by
  have hi := (hr.vinv hc).toV0
  have hri : r.index = k := (hi.rew _ hm).1
  have hr' : Reachable c (run c h s) := hr.run hs
  obtain ⟨x, h1, h2⟩ := flow_run hc hr
    (Q := fun _ x => x.index = k ∧ x.total ≤ 10 ^ 18 ∧ (x.total = 0 → x.rewards ≤ 1))
    (fun cur hcur => by
      refine ⟨fun _ _ _ _ h => h, ?_⟩
      intro n q x hq hqT ⟨g1, g2, g3⟩
      refine ⟨by rw [rewardAfter_index]; exact g1, ?_⟩
      unfold rewardAfter
      split
      swap
      · exact ⟨g2, g3⟩
      next h2 =>
      refine ⟨by show x.total - q ≤ _; omega, fun (hz : x.total - q = 0) => ?_⟩
      show x.rewards - userReward cur q x ≤ 1
      obtain rfl : q = x.total := by omega
      have hb := (share_bounds h2.2.le h2.1 hq).2.2.1
      unfold userReward
      rw [if_pos h2, if_pos ⟨by omega, h2.2.le⟩]
      generalize decTrunc (decMulInt (decQuo (decOfInt x.rewards) (decOfInt x.total)) x.total) = w at *
      have e : DEC = 10 ^ 18 := by decide
      have : x.total * (x.rewards * DEC) < x.total * ((w + 1) * DEC + x.total) := by nlinarith
      have := lt_of_mul_lt_mul_left this hq
      rw [e] at this
      omega)
    hover.le (KV.get?_of_mem hr.shape.rewards hm) ⟨hri, hbig, by omega⟩ h hs
  have := KV.get?_of_mem hr'.shape.rewards hm'
  rw [this] at h1
  obtain rfl := Option.some.inj h1
  exact h2.2.2 h0

/-! ### Examples -/

/-- Alice stakes while nobody is in the flexible vault. -/
def Demo.histAlone : History :=
  [(Demo.env 1, .deliver [1]), (Demo.env 2, .deliver [2]), (Demo.env 5, .lock Demo.aliceS 1 (some 3000000))]

/-- The index rises; then Bob joins the flexible vault for two cycles and leaves. -/
def Demo.histAfter : History :=
  [(Demo.env 8, .lock Demo.bobS 2 (some 2000000)), (Demo.env 9, .deliver [4]), (Demo.env 10, .deliver [5]),
   (Demo.env 11, .unlock Demo.bobS 2 (some 2000000))]

theorem Demo.alone_signed : History.Signed Demo.cfg Demo.histAlone := by
  intro e he
  simp only [Demo.histAlone, List.mem_cons, List.not_mem_nil, or_false] at he
  rcases he with rfl | rfl | rfl
  · trivial
  · trivial
  · exact Demo.aliceS_user

theorem Demo.after_signed : History.Signed Demo.cfg Demo.histAfter := by
  intro e he
  simp only [Demo.histAfter, List.mem_cons, List.not_mem_nil, or_false] at he
  rcases he with rfl | rfl | rfl | rfl
  · exact Demo.bobS_user
  · trivial
  · trivial
  · exact Demo.bobS_user

/-- The 300000 that Alice's stake earned go into a record without a total. Bob, who joins later, is paid 1 short of
300000 from the record of the first full cycle; nobody is ever paid from the first record, nor from that of the
cycle in which Bob left. -/
example : let s := run Demo.cfg Demo.histAlone Demo.start
    let s' := step Demo.cfg (Demo.env 7) (.deliver [3]) s
    let t := run Demo.cfg Demo.histAfter s'
    Reachable Demo.cfg s ∧ Later Demo.cfg s' t ∧
    s.seasonOneEnded = false ∧ s.totalFlexible = 0 ∧ content (Demo.env 7) [3] = some (.index 1100000000000 4009) ∧
    (exec Demo.cfg (Demo.env 7) (.deliver [3]) s).isOk = true ∧
    s'.rewards = [(1100000000000, ⟨1100000000000, 0, 300000⟩)] ∧
    t.rewards = [(1100000000000, ⟨1100000000000, 0, 300000⟩), (1200000000000, ⟨1200000000000, 0, 1⟩),
      (1300000000000, ⟨1300000000000, 0, 300000⟩)] ∧
    t.balance (Demo.cfg.modAddr "dollar/vaults/flexible") = 600001 :=
  ⟨.of_run Demo.start_initial Demo.alone_signed, Later.run _ Demo.after_signed, by decide +kernel⟩

/-- The expected property fails: there is a chain on which rewards are recorded that no later state has paid. -/
theorem C101_counterexample : ∃ s k r, Reachable Demo.cfg s ∧ (k, r) ∈ s.rewards ∧ r.rewards = 300000 ∧
    ∀ t, Later Demo.cfg s t → (k, r) ∈ t.rewards := by
  have hr : Reachable Demo.cfg (run Demo.cfg Demo.histAlone Demo.start) := .of_run Demo.start_initial Demo.alone_signed
  have hr' : Reachable Demo.cfg (step Demo.cfg (Demo.env 7) (.deliver [3]) (run Demo.cfg Demo.histAlone Demo.start)) :=
    hr.step trivial
  have hm : (1100000000000, (⟨1100000000000, 0, 300000⟩ : Reward)) ∈
      (step Demo.cfg (Demo.env 7) (.deliver [3]) (run Demo.cfg Demo.histAlone Demo.start)).rewards := by
    decide +kernel
  exact ⟨_, _, _, hr', hm, rfl, fun t ht => C101_stranded_forever Demo.cfg_wf hr' _ _ hm rfl t ht⟩

/-- Two cycles with Alice and Bob in the flexible vault: after both left the record of the closed cycle is paid out
completely. -/
example : let s := run Demo.cfg Demo.histTwo Demo.start
    let h : History := [(Demo.env 12, .unlock Demo.bobS 2 (some 2000000)), (Demo.env 13, .unlock Demo.aliceS 2 (some 2000000))]
    Reachable Demo.cfg s ∧ h.Signed Demo.cfg ∧
    s.rewards.get? 1100000000000 = some ⟨1100000000000, 4000000, 430000⟩ ∧ s.index = 1200000000000 ∧
    (run Demo.cfg h s).rewards.get? 1100000000000 = some ⟨1100000000000, 0, 0⟩ ∧
    exits (run Demo.cfg h s) - exits s = 2 := by
  refine ⟨Demo.reachTwo, ?_, by decide +kernel⟩
  intro e he
  simp only [List.mem_cons, List.not_mem_nil, or_false] at he
  rcases he with rfl | rfl
  · exact Demo.bobS_user
  · exact Demo.aliceS_user

/-- The states of the first example also meet the hypothesis of `C101_stranded_coins`. -/
example : ReachableSmall Demo.cfg
    (run Demo.cfg (Demo.histAlone ++ (Demo.env 7, .deliver [3]) :: Demo.histAfter) Demo.start) := by
  have hs : History.Signed Demo.cfg (Demo.histAlone ++ (Demo.env 7, .deliver [3]) :: Demo.histAfter) := by
    intro e he
    rcases List.mem_append.1 he with h | h
    · exact Demo.alone_signed e h
    · rcases List.mem_cons.1 h with rfl | h
      · trivial
      · exact Demo.after_signed e h
  refine .of_run (.fresh Demo.start_initial) _ hs ?_
  have key : ∀ n : Fin 9, SmallPositions
      (run Demo.cfg ((Demo.histAlone ++ (Demo.env 7, .deliver [3]) :: Demo.histAfter).take n) Demo.start) := by
    unfold SmallPositions; decide +kernel
  intro n
  by_cases hn : n < 9
  · exact key ⟨n, hn⟩
  · have hl : (Demo.histAlone ++ (Demo.env 7, Msg.deliver [3]) :: Demo.histAfter).length = 8 := rfl
    have := key ⟨8, by decide⟩
    rw [List.take_of_length_le (by rw [hl])] at this
    rw [List.take_of_length_le (by omega)]
    exact this

end Dollar
