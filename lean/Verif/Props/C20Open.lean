import Verif.Props.C52
import Verif.Props.C20

/-
C20, continued: there is no way to close a path; only pausing the whole portal stops transfers along it.
-/
set_option maxRecDepth 100000
namespace Dollar
open MM Spec

theorem kept_set {V : Type} {K : Type} [DecidableEq K] [KeyOrd K] (m : KV K V) {k k' : K} {v : V} (h : ∃ w, m.get? k = some w) : ∃ w, (m.set k' v).get? k = some w := by
  rw [KV.get?_set]
  split
  · exact ⟨_, rfl⟩
  · exact h

/-- Once the owner has set a path and a peer for its chain, whatever happens later, and whatever is stored for
the path: a transfer along it succeeds exactly if the portal is not paused, the recipient is well formed and
the sender has the coins. -/
theorem C20_path_never_closed {c : Cfg} (hc : c.WF) {s : State} (hr : Reachable c s) {chain : Nat} {token : Bytes}
    (hpath : ∃ b, s.paths.get? (chain, token) = some b) (hpeer : ∃ p, s.peers.get? chain = some p)
    (h : History) (hsig : History.Signed c h) (env : Env) (signer : String) (amount : Option Int) (recipient : Bytes) :
    let s' := run c h s
    (∃ s'', exec c env (.transfer signer amount chain token recipient) s' = .ok () s'') ↔
      s'.portalPaused = false ∧ recipient.length = 32 ∧ env.postOk = true ∧
      ∃ a amt, c.decode signer = some a ∧ a.length ≤ 32 ∧ amount = some amt ∧ 0 ≤ amt ∧
        amt < 2 ^ 63 ∧ amt ≤ s'.balance a := by
  have key : (∃ b, (run c h s).paths.get? (chain, token) = some b) ∧ ∃ p, (run c h s).peers.get? chain = some p := by
    clear hr hsig
    induction h generalizing s with
    | nil => exact ⟨hpath, hpeer⟩
    | cons e t ih =>
      obtain ⟨env, m⟩ := e
      have : (∃ b, (step c env m s).paths.get? (chain, token) = some b) ∧ ∃ p, (step c env m s).peers.get? chain = some p := by
        rcases step_cases c env m s with h | h
        · rw [h]; exact ⟨hpath, hpeer⟩
        · generalize step c env m s = s' at h
          cases settings_step h with
          | same _ e | paused b e | recipients p i r e | vPaused p _ _ e | owner o _ e | portalPaused b _ e =>
            rw [show s'.paths = s.paths from congrArg Settings.paths e, show s'.peers = s.peers from congrArg Settings.peers e]
            exact ⟨hpath, hpeer⟩
          | peers ch t m _ _ _ e =>
            rw [show s'.paths = s.paths from congrArg Settings.paths e, show s'.peers = s.peers.set ch _ from congrArg Settings.peers e]
            exact ⟨hpath, kept_set _ hpeer⟩
          | paths ch t b _ _ e =>
            rw [show s'.paths = s.paths.set (ch, t) b from congrArg Settings.paths e, show s'.peers = s.peers from congrArg Settings.peers e]
            exact ⟨kept_set _ hpath, hpeer⟩
      exact ih this.1 this.2
  intro s'
  rw [C52_transfer_iff hc (hr.run hsig)]
  constructor
  · rintro ⟨h1, _, _, h2⟩; exact ⟨h1, h2⟩
  · rintro ⟨h1, h2⟩; exact ⟨h1, key.2, key.1, h2⟩

/-- Non-vacuity: the demo chain has a path and a peer, and the owner sets the path to unsupported. -/
example : (∃ b, (run Demo.cfg (Demo.hist1.take 2) Demo.start).paths.get? (2, Demo.path8) = some b) ∧
    (∃ p, (run Demo.cfg (Demo.hist1.take 2) Demo.start).peers.get? 2 = some p) ∧
    (run Demo.cfg Demo.histOff Demo.start).paths.get? (2, Demo.path8) = some false ∧
    (run Demo.cfg Demo.histOff Demo.start).portalPaused = false := by
  exact ⟨⟨true, by decide +kernel⟩, ⟨_, rfl⟩, by decide +kernel, by decide +kernel⟩

end Dollar
