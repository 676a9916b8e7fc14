import Verif.Lemmas.Deliver
import Verif.Spec.Demo
import Verif.Spec.Arith

/-
C03: a successful index update makes the supply equal to the value of the total principal and
books the difference as yield.
-/
set_option maxRecDepth 100000
namespace Dollar
open Spec

/-- `UpdateIndex` itself.  The supply is `totalPrincipal * I / 10^12` truncated; for a non-negative
total principal that is the floor.  (The statistic can become negative by rounding, see DESIGN.md.) -/
theorem C03_update_index {c : Cfg} (hc : c.WF) {s s' : State} (hr : Reachable c s) (env : Env) (i : Int)
    (h : updateIndex c env i s = .ok () s') :
    s.index < i ∧ s'.index = i ∧ s'.totalPrincipal = s.totalPrincipal ∧
    s'.supply = (s.totalPrincipal * i).tdiv (10 ^ 12) ∧
    (0 ≤ s.totalPrincipal → IsFloor (s.totalPrincipal * i) (10 ^ 12) s'.supply) ∧
    s'.supply - s.supply = s'.totalYield - s.totalYield ∧ s.supply ≤ s'.supply ∧
    s'.events = s.events ++ [.indexUpdated s.index i s.totalPrincipal (s'.supply - s.supply)] := by
  have hl := hr.led hc
  obtain ⟨hu, hp⟩ := (updateIndex_wp hc env i hl.good).of_ok h
  have hs : s'.supply = (s.totalPrincipal * i).tdiv (10 ^ 12) := hp.supply
  have hi : 0 < i := hl.good.index.trans hp.greater
  refine ⟨hp.greater, hp.index, hu.totalPrincipal, hs, ?_, hu.yield, hu.supply_mono, ?_⟩
  · intro h0
    obtain ⟨h1, h2⟩ := present_bounds h0 hi
    rw [hp.supply]
    exact ⟨h1, fun x hx => le_of_mul_le_lt SCALE_pos hx h2⟩
  · rw [hp.events, hp.supply]

/-- The same for a delivered index update. -/
theorem C03_delivered_index {c : Cfg} (hc : c.WF) {s s' : State} (hr : Reachable c s) (env : Env)
    (vaa : Bytes) (i : Int) (ch : Nat) (hv : content env vaa = some (.index i ch))
    (h : exec c env (.deliver vaa) s = .ok () s') :
    s.index < i ∧ s'.index = i ∧ s'.totalPrincipal = s.totalPrincipal ∧
    s'.supply = (s.totalPrincipal * i).tdiv (10 ^ 12) ∧
    (0 ≤ s.totalPrincipal → IsFloor (s.totalPrincipal * i) (10 ^ 12) s'.supply) ∧
    s'.supply - s.supply = s'.totalYield - s.totalYield ∧ s.supply ≤ s'.supply := by
  have hl := hr.led hc
  obtain ⟨v, sA, _, _, rfl, _, _, hd⟩ := deliver_did hc hl h
  rw [hv] at hd
  cases hd with
  | ignored _ e => cases e
  | index _ m hx e hu hp =>
    have hi : 0 < i := hl.good.index.trans hp.greater
    rw [e]
    refine ⟨hp.greater, hp.index, hu.totalPrincipal, hp.supply, ?_, hu.yield, hu.supply_mono⟩
    intro h0
    obtain ⟨h1, h2⟩ := present_bounds h0 hi
    show IsFloor _ _ m.supply
    rw [hp.supply]
    exact ⟨h1, fun x hx => le_of_mul_le_lt SCALE_pos hx h2⟩

-- The demo chain: principal 15000000, index 1.0 to 1.1, supply 15000000 to 16500000.
example : Reachable Demo.cfg (run Demo.cfg (Demo.hist1.take 6) Demo.start) ∧
    content (Demo.env 7) [3] = some (.index 1100000000000 4009) ∧
    (run Demo.cfg (Demo.hist1.take 6) Demo.start).supply = 15000000 ∧
    (exec Demo.cfg (Demo.env 7) (.deliver [3]) (run Demo.cfg (Demo.hist1.take 6) Demo.start)).isOk ∧
    (step Demo.cfg (Demo.env 7) (.deliver [3]) (run Demo.cfg (Demo.hist1.take 6) Demo.start)).supply
      = 16500000 :=
  ⟨Demo.reach_take 6, by decide +kernel, by decide +kernel, by decide +kernel, by decide +kernel⟩

end Dollar
