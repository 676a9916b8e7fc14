import Verif.Lemmas.Deliver
import Verif.Spec.Demo

/-
C05: supply = earlier supply + bridged in - bridged out + accrued yield.
-/
set_option maxRecDepth 100000
namespace Dollar
open Spec

/-- One successful transaction. -/
theorem C05_supply_tx {c : Cfg} (hc : c.WF) {s s' : State} (hr : Reachable c s) (env : Env) (m : Msg)
    (hm : m.SignedByUser c) (h : exec c env m s = .ok () s') :
    s'.supply = s.supply + bridged env m + (s'.totalYield - s.totalYield) := by
  have hl := hr.led hc
  cases hq : m.isPortal with
  | false =>
    have q := (exec_quiet hc hl hm hq h).2
    rw [q.supply, q.totalYield]
    have : bridged env m = 0 := by cases m <;> first | rfl | cases hq
    omega
  | true =>
    cases m with
    | deliver vaa =>
      obtain ⟨v, sA, _, _, rfl, _, _, hd⟩ := deliver_did hc hl h
      have hb : bridged env (.deliver vaa) = (match content env vaa with
        | some q => q.minted
        | none => 0) := rfl
      rw [hb]
      generalize content env vaa = cn at hd
      cases hd with
      | ignored _ e _ h2 h3 =>
        subst e
        show _ = s.supply + 0 + _
        rw [h2, h3]
        show s.supply = s.supply + 0 + (s.totalYield - s.totalYield)
        omega
      | token amount i rcp s1 _ hu hmt =>
        have h1 : s'.supply = s1.supply + amount := hmt.supply
        have h2 : s'.totalYield = s1.totalYield := hmt.moved.totalYield
        have h3 := hu.yield
        show s'.supply = s.supply + (amount : Int) + _
        have e1 : ({ s with archive := s.archive ++ [v.digest] } : State).supply = s.supply := rfl
        have e2 : ({ s with archive := s.archive ++ [v.digest] } : State).totalYield = s.totalYield := rfl
        rw [e1, e2] at h3
        omega
      | index i m hx e hu hup =>
        have h3 := hu.yield
        show s'.supply = s.supply + 0 + _
        rw [e]
        show m.supply = s.supply + 0 + (m.totalYield - s.totalYield)
        have e1 : ({ s with archive := s.archive ++ [v.digest] } : State).supply = s.supply := rfl
        have e2 : ({ s with archive := s.archive ++ [v.digest] } : State).totalYield = s.totalYield := rfl
        rw [e1, e2] at h3
        omega
    | transfer signer a ch tk r =>
      obtain ⟨amt, rfl, hk⟩ := transfer_ok h
      obtain ⟨a, ha⟩ := hk.sender
      have hd := hk.did ha
      rw [hd.supply, hd.totalYield]
      show _ = s.supply + -amt + _
      omega
    | _ => cases hq

/-- Along every history. -/
theorem C05_supply_ledger {c : Cfg} (hc : c.WF) {s : State} (hr : Reachable c s) (h : History)
    (hs : h.Signed c) :
    (run c h s).supply = s.supply + netBridged c h s + ((run c h s).totalYield - s.totalYield) := by
  induction h generalizing s with
  | nil => simp [run, netBridged]
  | cons e t ih =>
    have he := hs e List.mem_cons_self
    have := ih (hr.step (env := e.1) he) (fun e' h' => hs e' (List.mem_cons_of_mem _ h'))
    have h2 : (step c e.1 e.2 s).supply = s.supply +
        (match exec c e.1 e.2 s with
          | .ok _ _ => bridged e.1 e.2
          | _ => 0) + ((step c e.1 e.2 s).totalYield - s.totalYield) := by
      cases hx : exec c e.1 e.2 s with
      | ok u s' =>
        have h3 := C05_supply_tx hc hr e.1 e.2 he hx
        have h4 : step c e.1 e.2 s = s' := by unfold step runTx; rw [hx]
        rw [h4]; exact h3
      | err er s' =>
        have h4 : step c e.1 e.2 s = s := by unfold step runTx; rw [hx]
        rw [h4]; simp
      | panic =>
        have h4 : step c e.1 e.2 s = s := by unfold step runTx; rw [hx]
        rw [h4]; simp
    have h5 : netBridged c (e :: t) s = (match exec c e.1 e.2 s with
          | .ok _ _ => bridged e.1 e.2
          | _ => 0) + netBridged c t (step c e.1 e.2 s) := rfl
    have h6 : run c (e :: t) s = run c t (step c e.1 e.2 s) := rfl
    rw [h5, h6]
    generalize (match exec c e.1 e.2 s with
          | .ok _ _ => bridged e.1 e.2
          | _ => 0) = z at *
    omega

/-- From a fresh chain the supply is what was bridged in minus what was bridged out plus the
total-yield statistic. -/
theorem C05_supply_from_start {c : Cfg} (hc : c.WF) {s : State} (hi : Initial c s) (h : History)
    (hs : h.Signed c) : (run c h s).supply = netBridged c h s + (run c h s).totalYield := by
  have hr : Reachable c s := .fresh hi
  have := C05_supply_ledger hc hr h hs
  rw [hi.supply, hi.totalYield] at this
  omega

-- 10, 5 and 1 USDN come in, 1 goes out, the rest of the supply is yield.
example : Demo.hist2.Signed Demo.cfg ∧ netBridged Demo.cfg Demo.hist2 Demo.start = 15000000 ∧
    (run Demo.cfg Demo.hist2 Demo.start).supply = 18000000 ∧
    (run Demo.cfg Demo.hist2 Demo.start).totalYield = 3000000 :=
  ⟨Demo.hist2_signed, by decide +kernel, by decide +kernel, by decide +kernel⟩

end Dollar
