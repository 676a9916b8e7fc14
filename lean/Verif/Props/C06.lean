import Verif.Lemmas.Deliver
import Verif.Spec.Demo

/-
C06: recorded principals never exceed the total-principal statistic.
-/
set_option maxRecDepth 100000
namespace Dollar
open Spec

theorem C06_principal_le_total {c : Cfg} (hc : c.WF) {s : State} (hr : Reachable c s) :
    totalPrincipals s ≤ s.totalPrincipal := (hr.led hc).gap

/-- Transfers between holders, vault operations, yield claims, IBC and warp traffic and settings
leave both the recorded principals (in sum) and the statistic unchanged. -/
theorem C06_unchanged {c : Cfg} (hc : c.WF) {s s' : State} (hr : Reachable c s) (env : Env) (m : Msg)
    (hm : m.SignedByUser c) (h : exec c env m s = .ok () s') (hd : ∀ vaa, m ≠ .deliver vaa)
    (ht : ∀ signer a ch tk r, m ≠ .transfer signer a ch tk r) :
    totalPrincipals s' = totalPrincipals s ∧ s'.totalPrincipal = s.totalPrincipal := by
  have hq : m.isPortal = false := by
    cases m <;> first | rfl | exact absurd rfl (hd _) | exact absurd rfl (ht _ _ _ _ _)
  have q := (exec_quiet hc (hr.led hc) hm hq h).2
  exact ⟨q.sumP, q.totalPrincipal⟩

/-- A portal transfer removes the same amount from both. -/
theorem C06_transfer_gap {c : Cfg} (hc : c.WF) {s s' : State} (_hr : Reachable c s) (env : Env)
    (signer : String) (a : Option Int) (ch : Nat) (tk r : Bytes)
    (hm : (Msg.transfer signer a ch tk r).SignedByUser c)
    (h : exec c env (.transfer signer a ch tk r) s = .ok () s') :
    s'.totalPrincipal - totalPrincipals s' = s.totalPrincipal - totalPrincipals s := by
  obtain ⟨amt, rfl, hk⟩ := transfer_ok h
  obtain ⟨x, hx⟩ := hk.sender
  exact (hk.did hx).gap (hm x hx)

/-- A delivery widens the gap by at most one unit. -/
theorem C06_deliver_gap {c : Cfg} (hc : c.WF) {s s' : State} (hr : Reachable c s) (env : Env)
    (vaa : Bytes) (h : exec c env (.deliver vaa) s = .ok () s') :
    s.totalPrincipal - totalPrincipals s ≤ s'.totalPrincipal - totalPrincipals s' ∧
      s'.totalPrincipal - totalPrincipals s' ≤ s.totalPrincipal - totalPrincipals s + 1 := by
  have hl := hr.led hc
  simp only [totalPrincipals_eq]
  obtain ⟨v, sA, _, _, rfl, _, _, hd⟩ := deliver_did hc hl h
  generalize content env vaa = cn at hd
  cases hd with
  | ignored _ e _ _ _ h4 _ h6 =>
    have : sumPrin s' = sumPrin s := by unfold sumPrin; rw [h6]
    rw [h4, this]
    show s.totalPrincipal - _ ≤ s.totalPrincipal - _ ∧ s.totalPrincipal - _ ≤ s.totalPrincipal - _ + 1
    omega
  | token amount i rcp s1 _ hu hmt =>
    have h1 := hmt.gap hc hu.good.index
    have h2 : sumPrin s1 = sumPrin s := hu.sumP
    have h3 : s1.totalPrincipal = s.totalPrincipal := hu.totalPrincipal
    rw [h2, h3] at h1
    exact h1
  | index i m hx e hu hup =>
    have h2 : sumPrin m = sumPrin s := hu.sumP
    have h3 : m.totalPrincipal = s.totalPrincipal := hu.totalPrincipal
    rw [e]
    show s.totalPrincipal - sumPrin s ≤ m.totalPrincipal - sumPrin m ∧
      m.totalPrincipal - sumPrin m ≤ s.totalPrincipal - sumPrin s + 1
    omega

-- The demo chain: a token delivery at index 1.2 (1000000/1.2 is not whole) opens a gap of one.
example : Reachable Demo.cfg (run Demo.cfg Demo.hist2 Demo.start) ∧
    totalPrincipals (run Demo.cfg Demo.hist1 Demo.start) = 15000000 ∧
    (run Demo.cfg Demo.hist1 Demo.start).totalPrincipal = 15000000 ∧
    totalPrincipals (run Demo.cfg Demo.hist2 Demo.start) + 1 =
      (run Demo.cfg Demo.hist2 Demo.start).totalPrincipal :=
  ⟨Demo.reach2, by decide +kernel, by decide +kernel, by decide +kernel⟩

end Dollar
