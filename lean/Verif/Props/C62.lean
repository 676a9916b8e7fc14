import Verif.Props.C61
import Verif.Spec.DemoExt

/-
C62: the supply can be computed from the event log.  False of the code: the error of the index update
is ignored while minting, and when the update fails after the yield was minted no event speaks of it.
-/
set_option maxRecDepth 100000
namespace Dollar
open MM Spec

/-- The log never speaks of more yield than was made, and together with the bridged amounts it
explains the supply exactly, if every index quoted by a receipt was announced by an index update.
Missing from the full claim: receipts whose index update failed (`C62_log_misses_yield`). -/
theorem C62_supply_from_log_partial {c : Cfg} (hc : c.WF) {s : State} (hr : Reachable c s) (h : History)
    (hsig : History.Signed c h) :
    ∃ new w, (run c h s).events = s.events ++ new ∧ (onChain s).replay new = some w ∧
      s.totalYield + yieldIn new ≤ (run c h s).totalYield ∧
      w.bridged + (s.totalYield + yieldIn new) ≤ (run c h s).supply ∧
      ((onChain s).caughtUp new = true →
        (run c h s).totalYield = s.totalYield + yieldIn new ∧
        (run c h s).supply = w.bridged + (s.totalYield + yieldIn new)) := by
  obtain ⟨new, h1, h2, h3, h4⟩ := run_logged hc hr h hsig
  have e : (onChain (run c h s)).bridged = (run c h s).supply - (run c h s).totalYield := rfl
  refine ⟨new, _, h1, h2, by omega, by rw [e]; omega, fun hu => ?_⟩
  have := h4 hu
  exact ⟨by omega, by rw [e]; omega⟩

/-- The yield of a token delivery whose index update fails is in the supply but not in the log. -/
theorem C62_log_misses_yield : ∃ (c : Cfg) (s : State) (h : History) (new : List Event),
    c.WF ∧ Reachable c s ∧ History.Signed c h ∧ (run c h s).events = s.events ++ new ∧
    yieldIn new = 0 ∧ s.totalYield < (run c h s).totalYield ∧
    (onChain s).replay new = some (onChain (run c h s)) := by
  let h : History := [({ Demo.env 9 with routers := fun _ => [] }, .deliver [4])]
  have hs : History.Signed Demo.cfg h := fun e he => by cases List.mem_singleton.1 he; trivial
  obtain ⟨new, h1, h2, -⟩ := run_logged Demo.cfg_wf Demo.reachExt h hs
  refine ⟨Demo.cfg, _, h, new, Demo.cfg_wf, Demo.reachExt, hs, h1, ?_, ?_, h2⟩
  · have e : yieldIn (run Demo.cfg h (run Demo.cfg Demo.histExt Demo.start)).events = 0 ∧
      yieldIn (run Demo.cfg Demo.histExt Demo.start).events = 0 := by decide +kernel
    rw [h1, yieldIn_append] at e
    omega
  · decide +kernel

/-- Non-vacuity: in the demo history every index is announced, and the log explains all 3000000 of
yield and the supply of 18000000. -/
example : Reachable Demo.cfg Demo.start ∧ History.Signed Demo.cfg Demo.hist2 ∧
    (onChain Demo.start).caughtUp (run Demo.cfg Demo.hist2 Demo.start).events = true ∧
    yieldIn (run Demo.cfg Demo.hist2 Demo.start).events = 3000000 ∧
    (run Demo.cfg Demo.hist2 Demo.start).supply = 18000000 :=
  ⟨.fresh Demo.start_initial, Demo.hist2_signed,
    by decide +kernel, by decide +kernel, by decide +kernel⟩

end Dollar
