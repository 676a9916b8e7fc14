import Verif.Lemmas.Local
import Verif.Lemmas.Yield

/-
The stages of a successful index update.
-/
set_option linter.unusedSimpArgs false
namespace Dollar
open MM

/-- The intermediate states of a successful index update. -/
structure UpdateRun (c : Cfg) (env : Env) (i : Int) (s s1 s2 s3 s4 s' : State) : Prop where
  greater : s.index < i
  accrued : Accrued c (indexSet s i) (present s.totalPrincipal i - s.supply) s1
  vaults : handleVaults c i s1 = .ok () s2
  ibc : claimExternalIBC c env s2 = .ok () s3
  hyp : claimExternalHyperlane c env s3 = .ok () s4
  last : s' = { s4 with events := s'.events }

theorem updateIndex_run {c : Cfg} (hc : c.WF) {env : Env} {i : Int} {s s' : State} {u : Unit}
    (hg : Good c s) (h : updateIndex c env i s = .ok u s') :
    ∃ s1 s2 s3 s4, UpdateRun c env i s s1 s2 s3 s4 s' := by
  unfold updateIndex at h
  simp only [bind_ok, get_ok] at h
  obtain ⟨_, _, ⟨rfl, rfl⟩, h⟩ := h
  rw [ite_ok] at h
  rcases h with ⟨_, h⟩ | ⟨h0, h⟩
  · cases h
  simp only [bind_ok, modify_ok] at h
  obtain ⟨_, _, rfl, _, s1, h1, _, s2, h2, _, s3, h3, _, s4, h4, h5⟩ := h
  have hi : s.index < i := by omega
  have h1 := (accrueYield_wp hc _ (hg.indexSet (hg.index.trans hi))).of_ok
    (show accrueYield c _ (indexSet s i) = .ok _ s1 from h1)
  have h5 := emit_ok h5
  exact ⟨s1, s2, s3, s4, hi, h1, h2, h3, h4, by rw [h5]⟩

namespace Accrued
variable {c : Cfg} {s s' : State} {d : Int}

theorem principal (h : Accrued c s d s') : s'.principal = s.principal := (congrArg State.principal h.frame :)
theorem rewards (h : Accrued c s d s') : s'.rewards = s.rewards := (congrArg State.rewards h.frame :)
theorem index (h : Accrued c s d s') : s'.index = s.index := (congrArg State.index h.frame :)
theorem collector (h : Accrued c s d s') : s'.collector = s.collector := (congrArg State.collector h.frame :)
theorem season (h : Accrued c s d s') : s'.seasonOneEnded = s.seasonOneEnded :=
  (congrArg State.seasonOneEnded h.frame :)
theorem retry (h : Accrued c s d s') : s'.retry = s.retry := (congrArg State.retry h.frame :)
theorem extYield (h : Accrued c s d s') : s'.extYield = s.extYield := (congrArg State.extYield h.frame :)
theorem recipients (h : Accrued c s d s') : s'.recipients = s.recipients := (congrArg State.recipients h.frame :)
theorem collateral (h : Accrued c s d s') : s'.collateral = s.collateral := (congrArg State.collateral h.frame :)
theorem ibcOut (h : Accrued c s d s') : s'.ibcOut = s.ibcOut := (congrArg State.ibcOut h.frame :)
theorem warpOut (h : Accrued c s d s') : s'.warpOut = s.warpOut := (congrArg State.warpOut h.frame :)

theorem same (h : Accrued c s d s') {x : Addr} (hx : x ≠ c.yieldAddr) : bp x s' = bp x s := by
  unfold bp State.principalOf
  rw [h.bal, h.principal, if_neg hx, add_zero]

end Accrued

/-- Season two: what happens to the staked vault and the collector. -/
theorem handleSeasonTwo_ok {c : Cfg} {s s' : State} {u : Unit} (h : handleSeasonTwo c s = .ok u s') :
    ∃ m, Moved c s c.yieldAddr c.stakedAddr (claimable s c.stakedAddr) m ∧
      Moved c m c.stakedAddr s.collector (claimable s c.stakedAddr) s' := by
  unfold handleSeasonTwo at h
  simp only [bind_ok] at h
  obtain ⟨y, m, h1, h⟩ := h
  obtain ⟨rfl, hm⟩ := (claimModuleYield_wp c _ _).of_ok h1
  refine ⟨m, hm, ?_⟩
  rw [ite_ok] at h
  rcases h with ⟨_, h⟩ | ⟨h0, h⟩
  · simp only [bind_ok, get_ok] at h
    obtain ⟨_, _, ⟨rfl, rfl⟩, h⟩ := h
    have := sendCoins_ok h
    rwa [hm.collector] at this
  · obtain ⟨_, rfl⟩ := pure_ok.1 h
    have : claimable s c.stakedAddr = 0 := by have := claimable_nonneg s c.stakedAddr; omega
    rw [this]
    exact Moved.refl _ _ _ _

theorem claimable_congr {s s' : State} {x : Addr} (h : bp x s' = bp x s) (hi : s'.index = s.index) :
    claimable s' x = claimable s x := by
  have h1 : s'.balance x = s.balance x := congrArg Prod.fst h
  have h2 : s'.principalOf x = s.principalOf x := congrArg Prod.snd h
  unfold claimable
  rw [h1, h2, hi]

end Dollar
