import Verif.Lemmas.Settings
import Verif.Spec.Demo

/-
C09: pausing the module stops yield claims.
C10: administrative settings change only by the right signer.
All theorems hold in every state, reachable or not, and for every signer.
-/
set_option maxRecDepth 100000
namespace Dollar
open MM

/-- The pause flag, the yield recipients and the vault pause state change only in a message of the
corresponding kind signed by the authority, which sets exactly the new value. -/
theorem C10_authority_settings (c : Cfg) (env : Env) (m : Msg) (s : State) :
    ((step c env m s).paused ≠ s.paused →
      m = .setPaused c.authority (step c env m s).paused) ∧
    ((step c env m s).recipients ≠ s.recipients → ∃ p i r,
      m = .setYieldRecipient c.authority p i r ∧
        (step c env m s).recipients = s.recipients.set (p, i) r) ∧
    ((step c env m s).vPaused ≠ s.vPaused →
      m = .vaultsSetPaused c.authority (step c env m s).vPaused) := by
  rcases step_cases c env m s with h | h
  · rw [h]; exact ⟨fun e => absurd rfl e, fun e => absurd rfl e, fun e => absurd rfl e⟩
  generalize step c env m s = s' at h
  have hs := settings_step h
  cases hs with
  | same _ e =>
    exact ⟨fun n => absurd (congrArg Settings.paused e) n,
      fun n => absurd (congrArg Settings.recipients e) n, fun n => absurd (congrArg Settings.vPaused e) n⟩
  | paused b e =>
    refine ⟨fun _ => ?_, fun n => absurd (congrArg Settings.recipients e) n,
      fun n => absurd (congrArg Settings.vPaused e) n⟩
    rw [show s'.paused = b from congrArg Settings.paused e]
  | recipients p i r e =>
    exact ⟨fun n => absurd (congrArg Settings.paused e) n,
      fun _ => ⟨p, i, r, rfl, congrArg Settings.recipients e⟩,
      fun n => absurd (congrArg Settings.vPaused e) n⟩
  | vPaused p _ _ e =>
    refine ⟨fun n => absurd (congrArg Settings.paused e) n,
      fun n => absurd (congrArg Settings.recipients e) n, fun _ => ?_⟩
    rw [show s'.vPaused = p from congrArg Settings.vPaused e]
  | owner o _ e | portalPaused b _ e | peers ch t m _ _ _ e | paths ch t b _ _ e =>
    exact ⟨fun n => absurd (congrArg Settings.paused e) n,
      fun n => absurd (congrArg Settings.recipients e) n, fun n => absurd (congrArg Settings.vPaused e) n⟩

/-- The portal owner, the portal pause flag, the peers and the bridging paths change only in a
message of the corresponding kind signed by the current owner (and there is one), which sets
exactly the new value. -/
theorem C10_owner_settings (c : Cfg) (env : Env) (m : Msg) (s : State) :
    ((step c env m s).owner ≠ s.owner →
      s.owner ≠ "" ∧ m = .transferOwnership s.owner (step c env m s).owner) ∧
    ((step c env m s).portalPaused ≠ s.portalPaused →
      s.owner ≠ "" ∧ m = .portalSetPaused s.owner (step c env m s).portalPaused) ∧
    ((step c env m s).peers ≠ s.peers →
      s.owner ≠ "" ∧ ∃ ch t mg, m = .setPeer s.owner ch t mg ∧
        (step c env m s).peers = s.peers.set ch ⟨t, mg⟩) ∧
    ((step c env m s).paths ≠ s.paths →
      s.owner ≠ "" ∧ ∃ ch t b, m = .setBridgingPath s.owner ch t b ∧
        (step c env m s).paths = s.paths.set (ch, t) b) := by
  rcases step_cases c env m s with h | h
  · rw [h]
    exact ⟨fun e => absurd rfl e, fun e => absurd rfl e, fun e => absurd rfl e, fun e => absurd rfl e⟩
  generalize step c env m s = s' at h
  have hs := settings_step h
  cases hs with
  | same _ e | paused b e | recipients p i r e | vPaused p _ _ e =>
    exact ⟨fun n => absurd (congrArg Settings.owner e) n,
      fun n => absurd (congrArg Settings.portalPaused e) n,
      fun n => absurd (congrArg Settings.peers e) n, fun n => absurd (congrArg Settings.paths e) n⟩
  | owner o h0 e =>
    refine ⟨fun _ => ⟨h0, ?_⟩, fun n => absurd (congrArg Settings.portalPaused e) n,
      fun n => absurd (congrArg Settings.peers e) n, fun n => absurd (congrArg Settings.paths e) n⟩
    rw [show s'.owner = o from congrArg Settings.owner e]
  | portalPaused b h0 e =>
    refine ⟨fun n => absurd (congrArg Settings.owner e) n, fun _ => ⟨h0, ?_⟩,
      fun n => absurd (congrArg Settings.peers e) n, fun n => absurd (congrArg Settings.paths e) n⟩
    rw [show s'.portalPaused = b from congrArg Settings.portalPaused e]
  | peers ch t m h0 _ _ e =>
    exact ⟨fun n => absurd (congrArg Settings.owner e) n,
      fun n => absurd (congrArg Settings.portalPaused e) n,
      fun _ => ⟨h0, ch, t, m, rfl, congrArg Settings.peers e⟩,
      fun n => absurd (congrArg Settings.paths e) n⟩
  | paths ch t b h0 _ e =>
    exact ⟨fun n => absurd (congrArg Settings.owner e) n,
      fun n => absurd (congrArg Settings.portalPaused e) n,
      fun n => absurd (congrArg Settings.peers e) n,
      fun _ => ⟨h0, ch, t, b, rfl, congrArg Settings.paths e⟩⟩

/-- The season flag and the yield collector never change. -/
theorem C10_fixed_settings (c : Cfg) (h : History) (s : State) :
    (run c h s).seasonOneEnded = s.seasonOneEnded ∧ (run c h s).collector = s.collector := by
  induction h generalizing s with
  | nil => exact ⟨rfl, rfl⟩
  | cons e t ih =>
    obtain ⟨env, m⟩ := e
    have := ih (step c env m s)
    have h1 : (step c env m s).seasonOneEnded = s.seasonOneEnded ∧
        (step c env m s).collector = s.collector := by
      rcases step_cases c env m s with h | h
      · rw [h]; exact ⟨rfl, rfl⟩
      · generalize step c env m s = s' at h
        cases settings_step h with
        | same _ e | paused b e | recipients p i r e | vPaused p _ _ e | owner o _ e
        | portalPaused b _ e | peers ch t m _ _ _ e | paths ch t b _ _ e =>
          exact ⟨congrArg Settings.seasonOneEnded e, congrArg Settings.collector e⟩
    exact ⟨this.1.trans h1.1, this.2.trans h1.2⟩

/-- Without an owner no history ever changes the owner, the portal pause flag, the peers or the
bridging paths. -/
theorem C10_no_owner (c : Cfg) (h : History) (s : State) (h0 : s.owner = "") :
    (run c h s).owner = "" ∧ (run c h s).portalPaused = s.portalPaused ∧
      (run c h s).peers = s.peers ∧ (run c h s).paths = s.paths := by
  induction h generalizing s with
  | nil => exact ⟨h0, rfl, rfl, rfl⟩
  | cons e t ih =>
    obtain ⟨env, m⟩ := e
    obtain ⟨h1, h2, h3, h4⟩ := C10_owner_settings c env m s
    have e1 : (step c env m s).owner = s.owner := by_contra fun n => (h1 n).1 h0
    have e2 : (step c env m s).portalPaused = s.portalPaused := by_contra fun n => (h2 n).1 h0
    have e3 : (step c env m s).peers = s.peers := by_contra fun n => (h3 n).1 h0
    have e4 : (step c env m s).paths = s.paths := by_contra fun n => (h4 n).1 h0
    have := ih (step c env m s) (e1.trans h0)
    exact ⟨this.1, this.2.1.trans e2, this.2.2.1.trans e3, this.2.2.2.trans e4⟩

/-- C09: a claim while the module is paused fails and changes nothing. -/
theorem C09_paused_claim_fails (c : Cfg) (env : Env) (signer : String) (s : State)
    (h : s.paused = true) :
    exec c env (.claimYield signer) s = .err .paused s ∧ step c env (.claimYield signer) s = s := by
  have e : exec c env (.claimYield signer) s = .err .paused s := by
    show claimYield c signer s = _
    unfold claimYield
    rw [bind_apply, get_apply]
    simp only [h, if_true]
    rfl
  exact ⟨e, by unfold step runTx; rw [e]⟩

/-- C09: once paused, the module stays paused, and so every claim keeps failing, until the authority
unpauses it. -/
theorem C09_stays_paused (c : Cfg) (h : History) (s : State) (hp : s.paused = true)
    (hn : ∀ e ∈ h, e.2 ≠ .setPaused c.authority false) : (run c h s).paused = true := by
  induction h generalizing s with
  | nil => exact hp
  | cons e t ih =>
    obtain ⟨env, m⟩ := e
    refine ih _ ?_ fun e he => hn e (List.mem_cons_of_mem _ he)
    by_contra hc
    have hf : (step c env m s).paused = false := by
      cases hh : (step c env m s).paused
      · rfl
      · exact absurd hh hc
    have := (C10_authority_settings c env m s).1 (by rw [hf, hp]; decide)
    rw [hf] at this
    exact hn _ List.mem_cons_self this

-- Each kind of change happens: by the authority, by the owner, and not by anyone else.
example :
    (step Demo.cfg (Demo.env 1) (.setPaused "authority" true) Demo.start).paused = true ∧
    (step Demo.cfg (Demo.env 1) (.setPaused "owner" true) Demo.start).paused = false ∧
    (step Demo.cfg (Demo.env 1) (.setYieldRecipient "authority" 0 "channel-0" "x") Demo.start).recipients
      ≠ Demo.start.recipients ∧
    (step Demo.cfg (Demo.env 1) (.vaultsSetPaused "authority" 3) Demo.start).vPaused = 3 ∧
    (step Demo.cfg (Demo.env 1) (.transferOwnership "owner" Demo.aliceS) Demo.start).owner = Demo.aliceS ∧
    (step Demo.cfg (Demo.env 1) (.portalSetPaused "owner" true) Demo.start).portalPaused = true ∧
    (step Demo.cfg (Demo.env 1) (.setPeer "owner" 3 (List.replicate 32 1) (List.replicate 32 2))
      Demo.start).peers ≠ Demo.start.peers ∧
    (step Demo.cfg (Demo.env 1) (.setBridgingPath "owner" 3 (List.replicate 32 1) true)
      Demo.start).paths ≠ Demo.start.paths := by
  decide +kernel

end Dollar
