import Verif.Lemmas.RouteKeys
import Verif.Props.C79
import Verif.Props.C72

/-
C83: yield for other chains is only ever booked for routes with a yield recipient.
-/
set_option maxRecDepth 100000
namespace Dollar
open Spec MM

namespace Spec

/-- A yield recipient is registered for the route. -/
def Registered (s : State) (provider : Int) (id : String) : Prop := ∃ r, s.recipients.get? (provider, id) = some r

end Spec

/-- No message removes a yield recipient: it can only be replaced by another one. -/
theorem C83_never_removed (c : Cfg) (h : History) (s : State) (provider : Int) (id : String)
    (hr : Registered s provider id) : Registered (run c h s) provider id := by
  induction h generalizing s with
  | nil => exact hr
  | cons e t ih =>
    obtain ⟨env, m⟩ := e
    refine ih _ ?_
    rcases step_cases c env m s with q | q
    · rw [q]; exact hr
    generalize step c env m s = s' at q ⊢
    cases settings_step q with
    | recipients p i r e =>
      have : s'.recipients = s.recipients.set (p, i) r := (congrArg Settings.recipients e :)
      unfold Registered
      rw [this, KV.get?_set]
      split
      · exact ⟨_, rfl⟩
      · exact hr
    | same _ e | paused _ e | vPaused _ _ _ e | owner _ _ e | portalPaused _ _ e | peers _ _ _ _ _ _ e
    | paths _ _ _ _ _ e =>
      have : s'.recipients = s.recipients := (congrArg Settings.recipients e :)
      unfold Registered
      rw [this]; exact hr

theorem keyed_run {c : Cfg} {s0 : State} (h0 : Initial c s0) (h : History) :
    Keyed (fun k => Registered (run c h s0) k.1 k.2) (run c h s0) := by
  induction h using List.reverseRecOn with
  | nil =>
    have hs := h0.recipients
    refine ⟨?_, ?_, ?_, ?_⟩
    · intro e he
      exact ⟨_, KV.get?_of_mem hs he⟩
    · show ∀ e ∈ s0.extYield, _
      rw [h0.extYield]; exact nofun
    · show ∀ e ∈ s0.retry, _
      rw [h0.retry]; exact nofun
    · show ∀ e ∈ s0.inflight, _
      rw [h0.inflight]; exact nofun
  | append_singleton t e ih =>
    obtain ⟨env, m⟩ := e
    have hmono : ∀ k : Int × String, Registered (run c t s0) k.1 k.2 → Registered (run c (t ++ [(env, m)]) s0) k.1 k.2 :=
      fun k hk => by rw [run_append]; exact C83_never_removed c [(env, m)] _ _ _ hk
    have ih : Keyed (fun k => Registered (run c (t ++ [(env, m)]) s0) k.1 k.2) (run c t s0) :=
      ⟨fun e he => hmono _ (ih.recips e he), fun e he => hmono _ (ih.ext e he), fun e he => hmono _ (ih.retry e he),
        fun p hp => hmono _ (ih.infl p hp)⟩
    have e1 : run c (t ++ [(env, m)]) s0 = step c env m (run c t s0) := by rw [run_append]; rfl
    rw [e1] at ih ⊢
    rcases step_cases c env m (run c t s0) with q | q
    · rw [q] at ih ⊢; exact ih
    · refine exec_keyed ih ?_ q
      rintro signer p i r rfl
      obtain ⟨_, _, e⟩ := setYieldRecipient_ok q
      rw [e]
      exact ⟨r, KV.get?_set_self ..⟩

/-- C83: on a chain that started with the module's genesis state, external yield, amounts waiting to be sent again and
IBC packets under way exist only for routes that have a yield recipient. -/
theorem C83_only_registered {c : Cfg} {s0 : State} (h0 : Initial c s0) (h : History) :
    let s := run c h s0
    (∀ provider id, s.extYieldOf provider id ≠ 0 → Registered s provider id) ∧
    (∀ provider id, s.retryOf provider id ≠ 0 → Registered s provider id) ∧
    ∀ p ∈ s.inflight, Registered s 0 p.channel := by
  intro s
  have k : Keyed (fun k => Registered s k.1 k.2) s := keyed_run h0 h
  refine ⟨fun p i hne => ?_, fun p i hne => ?_, fun p hp => k.infl p hp⟩
  · unfold State.extYieldOf at hne
    cases hg : s.extYield.get? (p, i) with
    | none => rw [hg] at hne; exact absurd rfl hne
    | some v => exact k.ext _ (KV.mem_of_get? hg)
  · unfold State.retryOf at hne
    cases hg : s.retry.get? (p, i) with
    | none => rw [hg] at hne; exact absurd rfl hne
    | some v => exact k.retry _ (KV.mem_of_get? hg)

/-- Two routes with an amount to send again, both registered. -/
example : (run Demo.cfg Demo.histFull Demo.start).retryOf 1 "A" ≠ 0 ∧
    (run Demo.cfg Demo.histFull Demo.start).extYieldOf 1 "B" ≠ 0 ∧
    Registered (run Demo.cfg Demo.histFull Demo.start) 1 "A" := by
  have h : (run Demo.cfg Demo.histFull Demo.start).retryOf 1 "A" ≠ 0 ∧
    (run Demo.cfg Demo.histFull Demo.start).extYieldOf 1 "B" ≠ 0 := by decide +kernel
  exact ⟨h.1, h.2, (C83_only_registered Demo.start_initial Demo.histFull).2.1 1 "A" h.1⟩

end Dollar
