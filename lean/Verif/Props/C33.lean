import Verif.Lemmas.UpdateRun
import Verif.Lemmas.Deliver
import Verif.Spec.Demo

/-
C33: in season two all yield of the staked vault goes to the collector.
-/
set_option maxRecDepth 100000
set_option linter.unusedSimpArgs false
namespace Dollar
open MM Spec

theorem seasonTwo_update {c : Cfg} (hc : c.WF) {env : Env} {i : Int} {s s' : State} {u : Unit}
    (hg : Good c s) (h : updateIndex c env i s = .ok u s') (hs : s.seasonOneEnded = true)
    (hu : c.IsUser s.collector) :
    s'.balance c.stakedAddr = s.balance c.stakedAddr ∧
    s'.balance s.collector = s.balance s.collector + yieldAt s c.stakedAddr i := by
  obtain ⟨s1, s2, s3, s4, hr⟩ := updateIndex_run hc hg h
  have hi : 0 < i := hg.index.trans hr.greater
  have h2 : handleSeasonTwo c s1 = .ok () s2 := by
    have hv := hr.vaults
    unfold handleVaults at hv
    simp only [bind_ok, get_ok] at hv
    obtain ⟨_, _, ⟨rfl, rfl⟩, hv⟩ := hv
    rw [ite_ok, hr.accrued.season] at hv
    rcases hv with ⟨_, hv⟩ | ⟨hn, _⟩
    · exact hv
    · exact absurd hs hn
  obtain ⟨m, m1, m2⟩ := handleSeasonTwo_ok h2
  have hsy := hc.staked_ne_yield
  have e1 := hr.accrued.same hsy
  have ecl : claimable s1 c.stakedAddr = yieldAt s c.stakedAddr i := by
    rw [claimable_congr e1 hr.accrued.index, claimable_eq_yieldAt (s := indexSet s i) (hg.bal _) hi]
    rfl
  have col : s1.collector = s.collector := hr.accrued.collector
  rw [ecl] at m1 m2
  rw [col] at m2
  have lv : ∀ x, x ≠ c.yieldAddr → x ≠ c.warpAddr → (∀ ch, x ≠ c.escrowAddr ch) →
      s'.balance x = s2.balance x := by
    intro x h1 h2 h3
    have a1 := (Acct.claimExternalIBC c env h1 h3).ok hr.ibc
    have a2 := (Acct.claimExternalHyperlane c env h1 h2).ok hr.hyp
    have a3 : s'.balance x = s4.balance x := by rw [hr.last]; rfl
    rw [a3]
    exact (congrArg Prod.fst a2).trans (congrArg Prod.fst a1)
  constructor
  · rw [lv _ hsy (hc.mod_ne (by decide)) (fun ch => (hc.escrow_ne_mod ch _).symm), m2.bal, m1.bal,
      hr.accrued.bal]
    simp only [hsy, hu.ne_staked.symm, if_true, if_false]
    show s.balance _ + 0 - 0 + _ - _ + 0 = _
    omega
  · rw [lv _ hu.ne_yield hu.ne_warp hu.ne_escrow, m2.bal, m1.bal, hr.accrued.bal]
    simp only [hu.ne_yield, hu.ne_staked, if_true, if_false]
    show s.balance _ + 0 - 0 + 0 - 0 + _ = _
    omega

theorem Reachable.index_pos {c : Cfg} (hc : c.WF) {s : State} (h : Reachable c s) : 0 < s.index :=
  (h.led hc).good.index

/-- A delivered index announcement in season two leaves the staked vault's balance alone and pays
the collector (a user account) exactly the yield the staked vault has at the new index.  `s` is any
reachable state; neither vault positions nor reward records change. -/
theorem C33_collector_gets_staked_yield {c : Cfg} (hc : c.WF) (env : Env) (vaa : Bytes) (i : Int)
    (chain : Nat) (s s' : State) (hr : Reachable c s) (hs : s.seasonOneEnded = true)
    (hu : c.IsUser s.collector) (hq : content env vaa = some (.index i chain))
    (h : exec c env (.deliver vaa) s = .ok () s') :
    s'.balance c.stakedAddr = s.balance c.stakedAddr ∧
    s'.balance s.collector = s.balance s.collector + yieldAt s c.stakedAddr i ∧
    s'.rewards = s.rewards ∧ s'.positions = s.positions := by
  have hl := hr.led hc
  obtain ⟨v, sA, _, _, rfl, hA, _, hd⟩ := deliver_did hc hl
    (show deliver c env vaa s = .ok () s' from h)
  rw [hq] at hd
  cases hd with
  | index _ m hm e hui _ =>
    rw [hA] at hm
    have hg : Good c { s with archive := s.archive ++ [v.digest] } := hl.good.congr
    obtain ⟨h1, h2⟩ := seasonTwo_update hc hg hm hs hu
    rw [e]
    refine ⟨h1, h2, ?_, hui.positions⟩
    rcases hui.rewards with h3 | h3
    · exact h3
    · rw [hs] at h3; exact absurd h3.1 (by decide)
  | ignored _ hn => cases hn

theorem LoopOk.rewards_staked {c : Cfg} {signer : String} {a : Addr} {v : Int} {l : List PosEntry}
    {rem removed rem' removed' : Int} {s s' : State} (hv : v ≠ FLEXIBLE)
    (h : LoopOk c signer a v l rem removed s rem' removed' s') :
    s'.rewards = s.rewards ∧ s'.totalFlexible = s.totalFlexible := by
  induction h with
  | nil => exact ⟨rfl, rfl⟩
  | stop => exact ⟨rfl, rfl⟩
  | step p t rem removed s m rem' removed' s' h0 hi h1 _ ih =>
    obtain ⟨i1, i2⟩ := ih
    cases h1 with
    | staked m1 _ _ hm e =>
      rw [i1, i2, e]
      exact ⟨hm.rewards, hm.totalFlexible⟩
    | flexible _ _ _ _ _ hf => exact absurd hf hv

/-- In season two no transaction creates, changes or removes a reward record. -/
theorem C33_no_rewards_in_season_two {c : Cfg} (hc : c.WF) (env : Env) (msg : Msg) (s : State)
    (hr : Reachable c s) (hs : s.seasonOneEnded = true) :
    (step c env msg s).rewards = s.rewards := by
  have hl := hr.led hc
  rcases step_cases c env msg s with h | h
  · rw [h]
  generalize step c env msg s = s' at h
  by_cases ho : msg.noOther = true
  · exact (congrArg (fun x => x.1.2.2.1) ((Other.msg c env msg ho).ok h) :)
  have ho : msg.noOther = false := by simpa using ho
  cases msg with
  | lock signer v amt? =>
    obtain ⟨amt, a, _, hk⟩ := lock_ok (show lock c env signer v amt? s = .ok () s' from h)
    obtain ⟨m, hm, rfl⟩ := hk.run
    exact hm.rewards
  | unlock signer v amt? =>
    obtain ⟨hv, _, amt, a, _, hk⟩ := unlock_ok (show unlock c signer v amt? s = .ok () s' from h)
    obtain ⟨m, removed, hlp, rfl⟩ := hk.run
    have hv' : v ≠ FLEXIBLE := fun e => hv ⟨e, hs⟩
    exact (hlp.rewards_staked hv').1
  | deliver vaa =>
    obtain ⟨v, sA, _, _, rfl, hA, hR, hd⟩ := deliver_did hc hl
      (show deliver c env vaa s = .ok () s' from h)
    have hui : ∀ {i m}, UI c { s with archive := s.archive ++ [v.digest] } i m → m.rewards = s.rewards := by
      intro i m hui
      rcases hui.rewards with h3 | h3
      · exact h3
      · rw [hs] at h3; exact absurd h3.1 (by decide)
    generalize content env vaa = q at hd
    cases hd with
    | ignored _ _ _ _ _ _ _ _ e => rw [e]
    | token amount i rcp s1 _ hu hm =>
      exact (show s'.rewards = s1.rewards from hm.moved.rewards).trans (hui hu)
    | index i m _ e hu _ => rw [e]; exact (show m.rewards = s.rewards from hui hu)
  | _ =>
    first
    | exact (congrArg (fun x => x.2.2.1) ((VaultF.route c env _ ho rfl nofun nofun).ok h) :)
    | exact Bool.noConfusion ho

/-! ### Non-vacuity -/

namespace Demo

/-- A chain in season two. -/
def start2 : State := { start with seasonOneEnded := true }

theorem start2_initial : Initial cfg start2 := by
  constructor <;> first | rfl | decide | (unfold KV.Sorted; decide)

/-- Mint to Alice, who stakes. -/
def histS2 : History := [(env 1, .deliver [1]), (env 3, .lock aliceS 1 (some 3000000))]

def stateS2 : State := run cfg histS2 start2

theorem stateS2_reach : Reachable cfg stateS2 := by
  refine .of_run start2_initial ?_
  intro e he
  simp only [histS2, List.mem_cons, List.not_mem_nil, or_false] at he
  rcases he with rfl | rfl
  · trivial
  · exact aliceS_user

end Demo

/-- The index goes from 1.0 to 1.1: the collector gets the yield of the 3000000 staked units. -/
example : let s := Demo.stateS2
    s.seasonOneEnded = true ∧ s.balance Demo.cfg.stakedAddr = 3000000 ∧
    content (Demo.env 7) [3] = some (.index 1100000000000 4009) ∧
    (exec Demo.cfg (Demo.env 7) (.deliver [3]) s).isOk = true ∧
    yieldAt s Demo.cfg.stakedAddr 1100000000000 = 300000 ∧
    s.balance s.collector = 0 ∧
    (step Demo.cfg (Demo.env 7) (.deliver [3]) s).balance s.collector = 300000 := by
  decide +kernel

example : Demo.cfg.IsUser Demo.stateS2.collector := by
  have : Demo.stateS2.collector = Demo.collector := by decide +kernel
  rw [this]; exact Demo.user _

end Dollar
