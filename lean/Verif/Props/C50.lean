import Verif.Props.C33
import Verif.Props.C53
import Verif.Lemmas.Reward
import Verif.Lemmas.NoPanic

/-
C50: what an index announcement does to the vaults in season one.
-/
set_option maxRecDepth 100000
set_option linter.unusedSimpArgs false
namespace Dollar
open MM Spec

/-- The principal moved together with staked yield is the floor of `y * 10^12 / i`, up to the
rounding of the 18-digit decimals, which is invisible below an index of `2 * 10^18`. -/
theorem yieldPrincipal_bounds {y i : Int} (hy : 0 ≤ y) (hi : 0 < i) :
    y * SCALE < (yieldPrincipal y i + 1) * i ∧
    2 * DEC * (yieldPrincipal y i * i - y * SCALE) ≤ i := by
  have hS : SCALE = 1000000000000 := rfl
  have hD : DEC = 1000000000000000000 := rfl
  unfold yieldPrincipal decQuo
  have e1 : decQuoInt (decOfInt i) SCALE = i * 1000000 := by
    unfold decQuoInt decOfInt
    rw [hS, hD, Int.tdiv_eq_ediv_of_nonneg (by omega)]
    omega
  rw [e1]
  have hn : 0 ≤ decOfInt y * (DEC * DEC) := by unfold decOfInt; rw [hD]; positivity
  have hb := tdiv_bounds hn (show 0 < i * 1000000 by omega)
  have ht0 : 0 ≤ (decOfInt y * (DEC * DEC)).tdiv (i * 1000000) := Int.tdiv_nonneg hn (by omega)
  generalize (decOfInt y * (DEC * DEC)).tdiv (i * 1000000) = t at *
  unfold chopRound
  rw [if_neg (by omega)]
  obtain ⟨c1, c2, c3⟩ := chopRoundPos_bounds ht0
  generalize chopRoundPos t = q at *
  unfold decTrunc
  have hp := tdiv_bounds c3 (show 0 < DEC by rw [hD]; omega)
  generalize q.tdiv DEC = p at *
  unfold decOfInt at hb
  rw [hD] at *
  rw [hS]
  constructor
  · have h1 : 2 * t + 2 ≤ 2000000000000000000000000000000000000 * (p + 1) := by nlinarith [hp.2]
    have h2 : (2 * t + 2) * i ≤ (2000000000000000000000000000000000000 * (p + 1)) * i :=
      mul_le_mul_of_nonneg_right h1 hi.le
    nlinarith [hb.2]
  · have h1 : 2000000000000000000000000000000000000 * p ≤ 2 * t + 1000000000000000000 := by
      nlinarith [hp.1]
    have h2 : (2000000000000000000000000000000000000 * p) * i ≤ (2 * t + 1000000000000000000) * i :=
      mul_le_mul_of_nonneg_right h1 hi.le
    nlinarith [hb.1]

/-- Season one: the stages of the vault distribution. -/
theorem handleSeasonOne_ok {c : Cfg} (hc : c.WF) {i : Int} {s s' : State} {u : Unit}
    (h : handleSeasonOne c i s = .ok u s') :
    let yF := claimable s c.flexibleAddr
    let yS := claimable s c.stakedAddr
    ∃ p, (p = yieldPrincipal yS s.index ∨ (yS = 0 ∧ p = 0)) ∧
      (∀ x, s'.balance x = s.balance x - (if x = c.yieldAddr then yS + yF else 0)
        + (if x = c.flexibleAddr then yS + yF else 0)) ∧
      (∀ x, s'.principalOf x = s.principalOf x - (if x = c.stakedAddr then p else 0)
        + (if x = c.flexibleAddr then p else 0)) ∧
      s'.rewards = s.rewards.set i ⟨i, s.totalFlexible, yS + yF⟩ ∧
      s'.index = s.index ∧ s'.totalFlexible = s.totalFlexible := by
  intro yF yS
  unfold handleSeasonOne at h
  simp only [bind_ok, modify_ok] at h
  obtain ⟨y1, m, h1, y2, m2, h2, rfl⟩ := h
  obtain ⟨rfl, hm⟩ := (claimModuleYield_wp c _ _).of_ok h1
  have hsf : c.stakedAddr ≠ c.flexibleAddr := hc.mod_ne (by decide)
  have hcl : claimable m c.stakedAddr = yS :=
    claimable_congr (by unfold bp; rw [hm.same hc.staked_ne_yield hsf, hm.prin_same hc.staked_ne_yield hsf]) hm.index
  have hmp : ∀ x, m.principalOf x = s.principalOf x := fun x => by
    have := (hm.skip (.inl rfl)).1
    unfold State.principalOf; rw [this]
  unfold claimStakedVaultYield at h2
  simp only [bind_ok, get_ok] at h2
  obtain ⟨_, _, ⟨rfl, rfl⟩, h2⟩ := h2
  rw [hcl] at h2
  rw [ite_ok] at h2
  rcases h2 with ⟨hpos, h2⟩ | ⟨hn, h2⟩
  · simp only [bind_ok, get_ok] at h2
    obtain ⟨_, m3, h3, _, _, ⟨rfl, rfl⟩, h2⟩ := h2
    obtain ⟨_, hm3⟩ := (sendModuleToAccount_wp c _ _ _ _).of_ok h3
    rw [ite_ok] at h2
    rcases h2 with ⟨_, h2⟩ | ⟨_, h2⟩
    · cases h2
    simp only [addPrincipal, bind_ok, modify_ok, pure_ok] at h2
    obtain ⟨_, _, rfl, _, _, rfl, rfl, rfl⟩ := h2
    have hi : m3.index = s.index := hm3.index.trans hm.index
    refine ⟨yieldPrincipal yS s.index, .inl rfl, fun x => ?_, fun x => ?_, ?_, hi, ?_⟩
    · show m3.balance x = _
      rw [hm3.bal, hm.bal]
      by_cases e1 : x = c.yieldAddr <;> by_cases e2 : x = c.flexibleAddr <;>
        simp only [e1, e2, if_true, if_false] <;> (try split) <;> omega
    · have hm3p : m3.principalOf x = s.principalOf x := by
        rw [← hmp x]
        unfold State.principalOf
        rw [(hm3.skip (.inl rfl)).1]
      show (prinAdded (prinAdded m3 c.stakedAddr (-(yieldPrincipal yS m3.index))) c.flexibleAddr
        (yieldPrincipal yS m3.index)).principalOf x = _
      rw [prinAdded_principalOf, prinAdded_principalOf, hm3p, hi]
      split <;> split <;> omega
    · show m3.rewards.set i ⟨i, m3.totalFlexible, _⟩ = _
      rw [hm3.rewards, hm.rewards, hm3.totalFlexible, hm.totalFlexible]
    · exact hm3.totalFlexible.trans hm.totalFlexible
  · have h0 : yS = 0 := by have : 0 ≤ yS := claimable_nonneg s _; omega
    obtain ⟨rfl, rfl⟩ := pure_ok.1 h2
    refine ⟨0, .inr ⟨h0, rfl⟩, fun x => ?_, fun x => ?_, ?_, hm.index, hm.totalFlexible⟩
    · show m.balance x = _
      rw [hm.bal, h0]
      by_cases e1 : x = c.yieldAddr <;> by_cases e2 : x = c.flexibleAddr <;>
        simp only [e1, e2, if_true, if_false] <;> (try split) <;> omega
    · show m.principalOf x = _
      rw [hmp]; simp
    · show m.rewards.set i ⟨i, m.totalFlexible, _⟩ = _
      rw [hm.rewards, hm.totalFlexible, h0]

theorem seasonOne_update {c : Cfg} (hc : c.WF) {env : Env} {i : Int} {s s' : State} {u : Unit}
    (hg : Good c s) (h : updateIndex c env i s = .ok u s') (hs : s.seasonOneEnded = false) :
    let yF := yieldAt s c.flexibleAddr i
    let yS := yieldAt s c.stakedAddr i
    ∃ p, (p = yieldPrincipal yS i ∨ (yS = 0 ∧ p = 0)) ∧
      s'.balance c.stakedAddr = s.balance c.stakedAddr ∧
      s'.balance c.flexibleAddr = s.balance c.flexibleAddr + yS + yF ∧
      s'.principalOf c.stakedAddr = s.principalOf c.stakedAddr - p ∧
      s'.principalOf c.flexibleAddr = s.principalOf c.flexibleAddr + p ∧
      s'.rewards = s.rewards.set i ⟨i, s.totalFlexible, yS + yF⟩ := by
  intro yF yS
  obtain ⟨s1, s2, s3, s4, hr⟩ := updateIndex_run hc hg h
  have hi : 0 < i := hg.index.trans hr.greater
  have h2 : handleSeasonOne c i s1 = .ok () s2 := by
    have hv := hr.vaults
    unfold handleVaults at hv
    simp only [bind_ok, get_ok] at hv
    obtain ⟨_, _, ⟨rfl, rfl⟩, hv⟩ := hv
    rw [ite_ok, hr.accrued.season] at hv
    rcases hv with ⟨hn, _⟩ | ⟨_, hv⟩
    · rw [show (indexSet s i).seasonOneEnded = s.seasonOneEnded from rfl, hs] at hn
      exact absurd hn (by decide)
    · exact hv
  have hi1 : s1.index = i := hr.accrued.index
  have ecl : ∀ x, x ≠ c.yieldAddr → claimable s1 x = yieldAt s x i := by
    intro x hx
    rw [claimable_congr (hr.accrued.same hx) hr.accrued.index,
      claimable_eq_yieldAt (s := indexSet s i) (hg.bal _) hi]
    rfl
  have hsy := hc.staked_ne_yield
  have hfy := hc.flexible_ne_yield
  have hsf : c.stakedAddr ≠ c.flexibleAddr := hc.mod_ne (by decide)
  obtain ⟨p, hp, hb, hq, hw, _, _⟩ := handleSeasonOne_ok hc h2
  rw [ecl _ hsy] at hp
  rw [ecl _ hsy, ecl _ hfy] at hb hw
  rw [hi1] at hp
  have lv : ∀ x, x ≠ c.yieldAddr → x ≠ c.warpAddr → (∀ ch, x ≠ c.escrowAddr ch) →
      s'.balance x = s2.balance x ∧ s'.principalOf x = s2.principalOf x := by
    intro x h1 h2 h3
    have a1 := (Acct.claimExternalIBC c env h1 h3).ok hr.ibc
    have a2 := (Acct.claimExternalHyperlane c env h1 h2).ok hr.hyp
    have a3 : s'.balance x = s4.balance x := by rw [hr.last]; rfl
    have a4 : s'.principalOf x = s4.principalOf x := by rw [hr.last]; rfl
    rw [a3, a4]
    exact ⟨(congrArg Prod.fst a2).trans (congrArg Prod.fst a1),
      (congrArg Prod.snd a2).trans (congrArg Prod.snd a1)⟩
  have lS := lv _ hsy (hc.mod_ne (by decide)) (fun ch => (hc.escrow_ne_mod ch _).symm)
  have lF := lv _ hfy (hc.mod_ne (by decide)) (fun ch => (hc.escrow_ne_mod ch _).symm)
  have b1 : ∀ x, x ≠ c.yieldAddr → s1.balance x = s.balance x ∧ s1.principalOf x = s.principalOf x := by
    intro x hx
    have := hr.accrued.same hx
    exact ⟨congrArg Prod.fst this, congrArg Prod.snd this⟩
  refine ⟨p, hp, ?_, ?_, ?_, ?_, ?_⟩
  · rw [lS.1, hb, (b1 _ hsy).1]; simp [hsy, hsf]
  · rw [lF.1, hb, (b1 _ hfy).1]; simp [hfy]; omega
  · rw [lS.2, hq, (b1 _ hsy).2]; simp [hsf]
  · rw [lF.2, hq, (b1 _ hfy).2]; simp [hsf.symm]
  · have hg1 : Good c s1 := hr.accrued.good (hg.indexSet hi)
    have hg2 : Good c s2 := by
      obtain ⟨m, r, gm, _, _, _, rfl⟩ := (handleSeasonOne_wp hc i hg1).of_ok h2
      exact gm.congr
    obtain ⟨⟨hg3, u3⟩, _⟩ := (claimExternalIBC_dist hc env hg2).of_ok hr.ibc
    obtain ⟨⟨_, u4⟩, _⟩ := (claimExternalHyperlane_dist hc env hg3).of_ok hr.hyp
    have r1 : s3.rewards = s2.rewards := (congrArg State.rewards u3.frame :)
    have r2 : s4.rewards = s3.rewards := (congrArg State.rewards u4.frame :)
    have r3 : s'.rewards = s4.rewards := by rw [hr.last]
    have r0 : s1.rewards = s.rewards := hr.accrued.rewards
    have t0 : s1.totalFlexible = s.totalFlexible := (congrArg State.totalFlexible hr.accrued.frame :)
    rw [r3, r2, r1, hw, r0, t0]

/-- An index announcement in season one, in any reachable state.  Let `yS` and `yF` be the yield of
the staked and of the flexible vault at the new index.  The flexible vault is paid `yS + yF`, the
staked vault's coins stay where they are, the principal `yS` is worth (rounded down) moves from the
staked to the flexible vault, and exactly one reward record is written: of the new index, holding
`yS + yF` for the flexible principal locked at that moment.  No position changes. -/
theorem C50_season_one {c : Cfg} (hc : c.WF) (env : Env) (vaa : Bytes) (i : Int)
    (chain : Nat) (s s' : State) (hr : Reachable c s) (hs : s.seasonOneEnded = false)
    (hq : content env vaa = some (.index i chain))
    (h : exec c env (.deliver vaa) s = .ok () s') :
    let yF := yieldAt s c.flexibleAddr i
    let yS := yieldAt s c.stakedAddr i
    (∃ p, (i < 2 * 10 ^ 18 → IsFloor (yS * 10 ^ 12) i p) ∧
      s'.principalOf c.stakedAddr = s.principalOf c.stakedAddr - p ∧
      s'.principalOf c.flexibleAddr = s.principalOf c.flexibleAddr + p) ∧
    s'.balance c.stakedAddr = s.balance c.stakedAddr ∧
    s'.balance c.flexibleAddr = s.balance c.flexibleAddr + yS + yF ∧
    s'.rewards.get? i = some ⟨i, s.totalFlexible, yS + yF⟩ ∧
    (∀ j, j ≠ i → s'.rewards.get? j = s.rewards.get? j) ∧
    s'.positions = s.positions ∧ s'.totalFlexible = s.totalFlexible := by
  intro yF yS
  have hl := hr.led hc
  obtain ⟨v, sA, _, _, rfl, hA, _, hd⟩ := deliver_did hc hl
    (show deliver c env vaa s = .ok () s' from h)
  rw [hq] at hd
  cases hd with
  | index _ m hm e hui _ =>
    rw [hA] at hm
    have hg : Good c { s with archive := s.archive ++ [v.digest] } := hl.good.congr
    obtain ⟨p, hp, h1, h2, h3, h4, h5⟩ := seasonOne_update hc hg hm hs
    have hi : 0 < i := by
      obtain ⟨_, _, _, _, hx⟩ := updateIndex_run hc hg hm
      exact hg.index.trans hx.greater
    rw [e]
    refine ⟨⟨p, fun hlt => ?_, h3, h4⟩, h1, h2, ?_, fun j hj => ?_, hui.positions, hui.totalFlexible⟩
    · have hy : 0 ≤ yS := by
        show 0 ≤ yieldAt _ _ _
        unfold yieldAt
        split <;> omega
      have hb : yS * 10 ^ 12 < (p + 1) * i ∧ p * i ≤ yS * 10 ^ 12 := by
        rcases hp with hp | ⟨h0, hp⟩
        · have hp : p = yieldPrincipal yS i := hp
          have := yieldPrincipal_bounds hy hi
          rw [← hp] at this
          have hS : SCALE = 10 ^ 12 := rfl
          have hD : DEC = 10 ^ 18 := rfl
          rw [hS, hD] at this
          refine ⟨this.1, ?_⟩
          have h6 := this.2
          generalize p * i = a at *
          generalize yS * 10 ^ 12 = b at *
          omega
        · have h0 : yS = 0 := h0
          rw [h0, hp]; omega
      refine ⟨hb.2, fun x hx => ?_⟩
      have : x * i < (p + 1) * i := lt_of_le_of_lt hx hb.1
      have := lt_of_mul_lt_mul_right this hi.le
      omega
    · show m.rewards.get? i = _
      rw [h5, KV.get?_set, if_pos rfl]; rfl
    · show m.rewards.get? j = _
      rw [h5, KV.get?_set, if_neg hj]
  | ignored _ hn => cases hn

/-- Nothing is left behind: right after the announcement the flexible vault has nothing more to
claim, and what the staked vault could still claim is worth at most one unit of principal plus one
unit. -/
theorem C50_nothing_left {c : Cfg} (hc : c.WF) (env : Env) (vaa : Bytes) (i : Int)
    (chain : Nat) (s s' : State) (hr : Reachable c s) (hs : s.seasonOneEnded = false)
    (hq : content env vaa = some (.index i chain)) (hi : i < 2 * 10 ^ 18)
    (h : exec c env (.deliver vaa) s = .ok () s') :
    yieldAt s' c.flexibleAddr i = 0 ∧ yieldAt s' c.stakedAddr i ≤ i / 10 ^ 12 + 1 := by
  have hi0 : 0 < i := by
    have hl := hr.led hc
    obtain ⟨v, sA, _, _, rfl, hA, _, hd⟩ := deliver_did hc hl
      (show deliver c env vaa s = .ok () s' from h)
    rw [hq] at hd
    cases hd with
    | index _ m hm e hui _ =>
      rw [hA] at hm
      have hg : Good c { s with archive := s.archive ++ [v.digest] } := hl.good.congr
      obtain ⟨_, _, _, _, hx⟩ := updateIndex_run hc hg hm
      exact hg.index.trans hx.greater
    | ignored _ hn => cases hn
  obtain ⟨⟨p, hp, h3, h4⟩, h1, h2, _⟩ := C50_season_one hc env vaa i chain s s' hr hs hq h
  have hp := hp hi
  have hp2 : yieldAt s c.stakedAddr i * 10 ^ 12 < (p + 1) * i := by
    by_contra hn
    have := hp.2 (p + 1) (by omega)
    omega
  have hp1 := hp.1
  have hp0 : 0 ≤ p * i := by
    have hy : 0 ≤ yieldAt s c.stakedAddr i := by unfold yieldAt; split <;> omega
    exact mul_nonneg (hp.2 0 (by omega)) hi0.le
  have eF : (s.principalOf c.flexibleAddr + p) * i = s.principalOf c.flexibleAddr * i + p * i := by ring
  have eS : (s.principalOf c.stakedAddr - p) * i = s.principalOf c.stakedAddr * i - p * i := by ring
  have e1 : (p + 1) * i = p * i + i := by ring
  constructor
  · unfold yieldAt at h2 ⊢
    rw [h4, h2, eF]
    unfold yieldAt at hp1
    generalize s.principalOf c.flexibleAddr * i = a at *
    generalize s.principalOf c.stakedAddr * i = b at *
    generalize p * i = d at *
    rw [if_neg]
    split at hp1 <;> split <;> omega
  · unfold yieldAt
    rw [h3, h1, eS]
    unfold yieldAt at hp2
    rw [e1] at hp2
    generalize s.principalOf c.flexibleAddr * i = a at *
    generalize s.principalOf c.stakedAddr * i = b at *
    generalize p * i = d at *
    split at hp2 <;> split <;> omega

/-- Non-vacuity: in season one, with both vaults in use, the index rises from 1.1 to 1.3. -/
example : let s := run Demo.cfg Demo.hist1 Demo.start
    Reachable Demo.cfg s ∧ s.seasonOneEnded = false ∧ s.totalFlexible = 2000000 ∧
    content (Demo.env 8) [5] = some (.index 1300000000000 4009) ∧
    (exec Demo.cfg (Demo.env 8) (.deliver [5]) s).isOk = true ∧
    yieldAt s Demo.cfg.stakedAddr 1300000000000 = 909091 ∧
    yieldAt s Demo.cfg.flexibleAddr 1300000000000 = 90908 ∧
    (step Demo.cfg (Demo.env 8) (.deliver [5]) s).rewards.get? 1300000000000 =
      some ⟨1300000000000, 2000000, 999999⟩ :=
  ⟨Demo.reach1, by decide +kernel⟩

end Dollar
