import Verif.Lemmas.Deliver
import Verif.Spec.Demo

/-
C02: the index never decreases; only an accepted delivery changes it, to the announced value.
-/
set_option maxRecDepth 100000
namespace Dollar
open Spec

/-- One transaction: the index stays, or the transaction is a successful delivery of a VAA that
announces the new, larger index. -/
theorem C02_index_step {c : Cfg} (hc : c.WF) {s : State} (hr : Reachable c s) (env : Env) (m : Msg)
    (hm : m.SignedByUser c) :
    (step c env m s).index = s.index ∨
      ∃ vaa q, m = .deliver vaa ∧ exec c env m s = .ok () (step c env m s) ∧
        content env vaa = some q ∧ (step c env m s).index = q.announced ∧ s.index < q.announced := by
  have hl := hr.led hc
  rcases step_cases c env m s with h | h
  · left; rw [h]
  generalize step c env m s = s' at h
  cases hq : m.isPortal with
  | false => exact .inl (exec_quiet hc hl hm hq h).2.index
  | true =>
    cases m with
    | deliver vaa =>
      obtain ⟨v, sA, _, _, rfl, _, _, hd⟩ := deliver_did hc hl h
      generalize hcn : content env vaa = cn at hd
      cases hd with
      | ignored _ _ hi => exact .inl hi
      | token amount i rcp s1 _ hu hmt =>
        have : s'.index = s1.index := hmt.moved.index
        rcases hu.index with e | ⟨e, hlt⟩
        · left; rw [this, e]
        · right; exact ⟨vaa, _, rfl, h, hcn, by rw [this, e]; rfl, hlt⟩
      | index i m hx e hu hup =>
        right
        refine ⟨vaa, _, rfl, h, hcn, ?_, hup.greater⟩
        rw [e]; exact hup.index
    | transfer signer a ch tk r =>
      obtain ⟨amt, _, hk⟩ := transfer_ok h
      obtain ⟨a, ha⟩ := hk.sender
      exact .inl (hk.did ha).index
    | _ => cases hq

/-- Along every history the index is non-decreasing. -/
theorem C02_index_monotone {c : Cfg} (hc : c.WF) {s : State} (hr : Reachable c s) (h : History)
    (hs : h.Signed c) : s.index ≤ (run c h s).index := by
  induction h generalizing s with
  | nil => exact le_refl _
  | cons e t ih =>
    have he := hs e List.mem_cons_self
    refine le_trans ?_ (ih (hr.step he) (fun e' h' => hs e' (List.mem_cons_of_mem _ h')))
    rcases C02_index_step hc hr e.1 e.2 he with h | ⟨_, _, _, _, _, h1, h2⟩
    · rw [h]
    · rw [h1]; exact h2.le

-- The demo chain: the index moves twice, through an index update and a token delivery.
example : Reachable Demo.cfg (run Demo.cfg Demo.hist2 Demo.start) ∧
    Demo.start.index = 1000000000000 ∧
    (run Demo.cfg Demo.hist1 Demo.start).index = 1100000000000 ∧
    (run Demo.cfg Demo.hist2 Demo.start).index = 1200000000000 ∧
    content (Demo.env 7) [3] = some (.index 1100000000000 4009) :=
  ⟨Demo.reach2, by decide +kernel, by decide +kernel, by decide +kernel, by decide +kernel⟩

end Dollar
