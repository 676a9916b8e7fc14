import Verif.Lemmas.Handlers2
import Verif.Spec.Demo

/-
C48: yield recipients can only be set for existing routes.
-/
set_option maxRecDepth 100000
set_option linter.unusedSimpArgs false
namespace Dollar
open MM

/-- The route exists: an IBC channel (provider 0) is known to IBC core; a Hyperlane identifier
(provider 1) decodes, its token exists and has exactly one enrolled router. -/
def Spec.RouteExists (c : Cfg) (env : Env) (s : State) (provider : Int) (identifier : String) : Prop :=
  (provider = 0 → env.channelExists identifier = true) ∧
  (provider = 1 → ∃ raw col domain, c.hexAddr identifier = some raw ∧
    s.collateral.get? (c.internalId raw) = some col ∧ env.routers (c.internalId raw) = [domain])

theorem routeExists_iff (c : Cfg) (env : Env) (s : State) (p : Int) (id : String) :
    Spec.RouteExists c env s p id ↔ RouteOk c env s p id := by
  unfold Spec.RouteExists RouteOk KV.has
  refine and_congr Iff.rfl (imp_congr Iff.rfl ?_)
  constructor
  · rintro ⟨raw, col, d, h1, h2, h3⟩
    exact ⟨raw, d, h1, by rw [h2]; rfl, h3⟩
  · rintro ⟨raw, d, h1, h2, h3⟩
    obtain ⟨col, h2⟩ := Option.isSome_iff_exists.1 h2
    exact ⟨raw, col, d, h1, h2, h3⟩

theorem checkRoute_progress {c : Cfg} {env : Env} {p : Int} {id : String} {s : State}
    (h : RouteOk c env s p id) : checkRoute c env p id s = .ok () s := by
  unfold checkRoute
  by_cases h0 : p = IBC
  · rw [if_pos h0, if_pos (h.1 h0)]; rfl
  rw [if_neg h0]
  by_cases h1 : p = HYPERLANE
  · rw [if_pos h1]
    obtain ⟨raw, d, e1, e2, e3⟩ := h.2 h1
    simp only [e1, bind_apply, get_apply]
    rw [if_pos e2]
    simp only [bind_apply, hypRouter, e3]
    rfl
  · rw [if_neg h1]; rfl

/-- `SetYieldRecipient` succeeds exactly for the authority and an existing route. -/
theorem C48_set_recipient_iff (c : Cfg) (env : Env) (signer : String) (provider : Int)
    (identifier recipient : String) (s : State) :
    (∃ s', exec c env (.setYieldRecipient signer provider identifier recipient) s = .ok () s') ↔
      signer = c.authority ∧ Spec.RouteExists c env s provider identifier := by
  rw [routeExists_iff]
  constructor
  · rintro ⟨s', h⟩
    obtain ⟨h1, h2, _⟩ := setYieldRecipient_ok
      (show setYieldRecipient c env signer provider identifier recipient s = .ok () s' from h)
    exact ⟨h1, h2⟩
  · rintro ⟨h1, h2⟩
    show ∃ s', setYieldRecipient c env signer provider identifier recipient s = .ok () s'
    unfold setYieldRecipient
    rw [if_neg (not_not.2 h1)]
    simp only [bind_apply, checkRoute_progress h2, modify_apply, emit]
    exact ⟨_, rfl⟩

/-- What it stores: exactly the given recipient under the given provider and identifier; every
other recipient and every other field (apart from the event) is unchanged. -/
theorem C48_set_recipient_effect (c : Cfg) (env : Env) (signer : String) (provider : Int)
    (identifier recipient : String) (s s' : State)
    (h : exec c env (.setYieldRecipient signer provider identifier recipient) s = .ok () s') :
    s'.recipients.get? (provider, identifier) = some recipient ∧
    (∀ k, k ≠ (provider, identifier) → s'.recipients.get? k = s.recipients.get? k) ∧
    s'.events = s.events ++ [.yieldRecipientSet provider identifier recipient] ∧
    s' = { s with recipients := s'.recipients, events := s'.events } := by
  obtain ⟨_, _, rfl⟩ := setYieldRecipient_ok
    (show setYieldRecipient c env signer provider identifier recipient s = .ok () s' from h)
  exact ⟨KV.get?_set_self _ _ _, fun k hk => KV.get?_set_ne _ _ hk, rfl, rfl⟩

/-! ### Non-vacuity -/

example : (exec Demo.cfg (Demo.env 1) (.setYieldRecipient "authority" 0 "channel-0" "r") Demo.start).isOk = true ∧
    (exec Demo.cfg (Demo.env 1) (.setYieldRecipient "authority" 0 "channel-1" "r") Demo.start).isOk = false ∧
    (exec Demo.cfg (Demo.env 1) (.setYieldRecipient "authority" 1 "7" "r") Demo.start).isOk = false ∧
    (exec Demo.cfg (Demo.env 1) (.setYieldRecipient "authority" 1 "7" "r")
      (step Demo.cfg (Demo.env 1) (.warpCreate 55) Demo.start)).isOk = true := by
  decide +kernel

end Dollar
