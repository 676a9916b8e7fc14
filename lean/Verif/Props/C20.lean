import Verif.Lemmas.Ledger
import Verif.Lemmas.Settings
import Verif.Model.Queries
import Verif.Spec.Demo

/-
C20: a bridging path set to unsupported cannot be used.  False of the code: `Transfer` asks whether
the path has an entry, not whether the entry says "supported".  What holds: a path that was never
set cannot be used.
C21: a paused portal neither mints nor burns.
-/
set_option maxRecDepth 100000
namespace Dollar
open MM

namespace Demo

/-- The path of the demo chain. -/
def path8 : Bytes := List.replicate 32 8

/-- Bob holds five USDN, then the owner sets the only path to unsupported. -/
def histOff : History :=
  hist1.take 2 ++ [(env 3, .setBridgingPath "owner" 2 path8 false)]

theorem owner_user : ∀ a, cfg.decode "owner" = some a → cfg.IsUser a := by
  intro a h
  have : cfg.decode "owner" = none := by decide
  rw [this] at h; cases h

theorem histOff_signed : History.Signed cfg histOff := by
  intro e he
  rcases List.mem_append.1 he with he | he
  · exact hist1_signed e (List.mem_of_mem_take he)
  · cases List.mem_singleton.1 he; trivial

theorem reachOff : Reachable cfg (run cfg histOff start) :=
  .of_run start_initial histOff_signed

end Demo

/-- The negation of C20: there is a reachable state right after the owner set a path to unsupported
(the path is stored as unsupported and the destination-tokens query no longer lists it) in which a
Transfer along this path succeeds, burns the coins and posts a message. -/
theorem C20_unsupported_path_still_usable :
    ∃ (c : Cfg) (s s1 : State) (chain : Nat) (token : Bytes), c.WF ∧ Reachable c s ∧ Reachable c s1 ∧
      (∃ env, exec c env (.setBridgingPath s.owner chain token false) s = .ok () s1) ∧
      s1.paths.get? (chain, token) = some false ∧ token ∉ queryDestinationTokens s1 chain ∧
      ∃ env signer amount recipient s2,
        exec c env (.transfer signer (some amount) chain token recipient) s1 = .ok () s2 ∧
        s2.supply = s1.supply - amount ∧ 0 < amount ∧ s2.posted.length = s1.posted.length + 1 := by
  have h1 : exec Demo.cfg (Demo.env 3) (.setBridgingPath "owner" 2 Demo.path8 false)
      (run Demo.cfg (Demo.hist1.take 2) Demo.start) = .ok () (run Demo.cfg Demo.histOff Demo.start) := by
    rw [show Demo.histOff = Demo.hist1.take 2 ++ [(Demo.env 3, .setBridgingPath "owner" 2 Demo.path8 false)]
      from rfl, run_append]
    rcases step_cases Demo.cfg (Demo.env 3) (.setBridgingPath "owner" 2 Demo.path8 false)
      (run Demo.cfg (Demo.hist1.take 2) Demo.start) with h | h
    · exfalso
      have h2 := congrArg State.paths h
      revert h2; decide +kernel
    · exact h
  have h2 : step Demo.cfg (Demo.env 4) (.transfer Demo.bobS (some 1000000) 2 Demo.path8 (List.replicate 32 1))
      (run Demo.cfg Demo.histOff Demo.start) ≠ run Demo.cfg Demo.histOff Demo.start := by
    intro h
    have h2 := congrArg State.nonce h
    revert h2; decide +kernel
  refine ⟨Demo.cfg, _, _, 2, Demo.path8, Demo.cfg_wf, Demo.reach_take 2, Demo.reachOff, ⟨Demo.env 3, ?_⟩,
    by decide +kernel, by decide +kernel, Demo.env 4, Demo.bobS, 1000000, List.replicate 32 1, _,
    (step_cases _ _ _ _).resolve_left h2, by decide +kernel, by decide, by decide +kernel⟩
  rw [show (run Demo.cfg (Demo.hist1.take 2) Demo.start).owner = "owner" by decide +kernel]
  exact h1

/-- What holds: along any history in which the owner never set the path, a Transfer along it fails
and changes nothing. -/
theorem C20_unset_path_fails_partial (c : Cfg) (h : History) (s : State) (chain : Nat) (token : Bytes)
    (h0 : s.paths.get? (chain, token) = none)
    (hn : ∀ e ∈ h, ∀ signer b, e.2 ≠ .setBridgingPath signer chain token b)
    (env : Env) (signer : String) (amount : Option Int) (recipient : Bytes) :
    (∀ u s', exec c env (.transfer signer amount chain token recipient) (run c h s) ≠ .ok u s') ∧
    step c env (.transfer signer amount chain token recipient) (run c h s) = run c h s := by
  have key : (run c h s).paths.get? (chain, token) = none := by
    induction h generalizing s with
    | nil => exact h0
    | cons e t ih =>
      obtain ⟨env, m⟩ := e
      refine ih _ ?_ (fun e he => hn e (List.mem_cons_of_mem _ he))
      rcases step_cases c env m s with h | h
      · rw [h]; exact h0
      · generalize step c env m s = s' at h
        cases settings_step h with
        | same _ e | paused b e | recipients p i r e | vPaused p _ _ e | owner o _ e
        | portalPaused b _ e | peers ch t m _ _ _ e =>
          rw [show s'.paths = s.paths from congrArg Settings.paths e]; exact h0
        | paths ch t b h0' h1' e =>
          rw [show s'.paths = s.paths.set (ch, t) b from congrArg Settings.paths e, KV.get?_set,
            if_neg, h0]
          intro he
          cases he
          exact hn _ List.mem_cons_self _ _ rfl
  have hno : ∀ u s', exec c env (.transfer signer amount chain token recipient) (run c h s) ≠ .ok u s' := by
    intro u s' hx
    have hx : transfer c env signer amount chain token recipient (run c h s) = .ok u s' := hx
    have hh : (run c h s).paths.has (chain, token) = false := by
      unfold KV.has; rw [key]; rfl
    unfold transfer at hx
    simp only [bind_ok, get_ok] at hx
    obtain ⟨_, _, ⟨rfl, rfl⟩, hx⟩ := hx
    rw [ite_ok] at hx
    rcases hx with ⟨_, hx⟩ | ⟨_, hx⟩
    · simp at hx
    · cases hp : (run c h s).peers.get? chain with
      | none => simp [hp] at hx
      | some peer => simp [hp, hh] at hx
  refine ⟨hno, ?_⟩
  rcases step_cases c env (.transfer signer amount chain token recipient) (run c h s) with h | h
  · exact h
  · exact absurd h (hno _ _)

/-- The case of the theorem above: on the demo chain, chain 2 with another token. -/
example : Demo.start.paths.get? (2, List.replicate 32 9) = none ∧
    (∀ e ∈ Demo.hist2, ∀ signer b, e.2 ≠ Msg.setBridgingPath signer 2 (List.replicate 32 9) b) := by
  refine ⟨by decide, ?_⟩
  intro e he signer b
  have : e.2 ∈ Demo.hist2.map Prod.snd := List.mem_map_of_mem he
  simp only [Demo.hist2, Demo.hist1, List.map_append, List.map_cons, List.map_nil, List.cons_append,
    List.nil_append, List.mem_cons, List.not_mem_nil, or_false] at this
  rcases this with h | h | h | h | h | h | h | h | h | h | h | h <;> rw [h] <;> exact nofun

/-! ### C21 -/

/-- While the portal is paused every Deliver and Transfer returns an error and changes nothing. -/
theorem C21_paused_calls_fail (c : Cfg) (env : Env) (s : State) (hp : s.portalPaused = true) :
    (∀ vaa, exec c env (.deliver vaa) s = .err .portalPaused s ∧ step c env (.deliver vaa) s = s) ∧
    (∀ signer amount chain token recipient,
      exec c env (.transfer signer amount chain token recipient) s = .err .portalPaused s ∧
      step c env (.transfer signer amount chain token recipient) s = s) := by
  have h1 : ∀ vaa, exec c env (.deliver vaa) s = .err .portalPaused s := by
    intro vaa
    show deliver c env vaa s = _
    simp [deliver, deliverInner, bind_apply, hp]
  have h2 : ∀ signer amount chain token recipient,
      exec c env (.transfer signer amount chain token recipient) s = .err .portalPaused s := by
    intro signer amount chain token recipient
    show transfer c env signer amount chain token recipient s = _
    simp [transfer, bind_apply, hp]
  refine ⟨fun v => ⟨h1 v, ?_⟩, fun a b d e f => ⟨h2 a b d e f, ?_⟩⟩
  · unfold step runTx; rw [h1]
  · unfold step runTx; rw [h2]

/-- Along any history during which the portal is paused before every transaction, the supply, the
index and the messages posted to Wormhole stay the same. -/
theorem C21_supply_constant (c : Cfg) (hc : c.WF) (h : History) (s : State) (hr : Reachable c s)
    (hs : History.Signed c h)
    (hp : ∀ n, n < h.length → (run c (h.take n) s).portalPaused = true) :
    (run c h s).supply = s.supply ∧ (run c h s).index = s.index ∧
      (run c h s).posted = s.posted := by
  induction h generalizing s with
  | nil => exact ⟨rfl, rfl, rfl⟩
  | cons e t ih =>
    obtain ⟨env, m⟩ := e
    have hm : m.SignedByUser c := hs _ List.mem_cons_self
    have h0 : s.portalPaused = true := hp 0 (Nat.succ_pos _)
    have hq : (step c env m s).supply = s.supply ∧ (step c env m s).index = s.index ∧
        (step c env m s).posted = s.posted := by
      rcases step_cases c env m s with h | h
      · rw [h]; exact ⟨rfl, rfl, rfl⟩
      · cases hq : m.isPortal with
        | false =>
          have := (exec_quiet hc (hr.led hc) hm hq h).2
          exact ⟨this.supply, this.index, this.posted⟩
        | true =>
          cases m with
          | deliver v => rw [(C21_paused_calls_fail c env s h0).1 v |>.1] at h; cases h
          | transfer a b d e f => rw [((C21_paused_calls_fail c env s h0).2 a b d e f).1] at h; cases h
          | _ => cases hq
    obtain ⟨i1, i2, i3⟩ := ih (step c env m s) (hr.step hm) (fun e he => hs e (List.mem_cons_of_mem _ he))
      (fun n hn => hp (n + 1) (Nat.succ_lt_succ hn))
    exact ⟨i1.trans hq.1, i2.trans hq.2.1, i3.trans hq.2.2⟩

namespace Demo

/-- The owner pauses the portal; deliveries, claims and locks are attempted. -/
def histPause : History :=
  [(env 20, .deliver [5]), (env 21, .claimYield bobS), (env 22, .lock bobS 1 (some 1000000)),
   (env 23, .transfer bobS (some 1) 2 path8 (List.replicate 32 1))]

/-- The state before: the demo history, then the pause. -/
def pausedState : State := run cfg (hist2 ++ [(env 19, .portalSetPaused "owner" true)]) start

theorem pausedState_reach : Reachable cfg pausedState := by
  refine .of_run start_initial ?_
  intro e he
  rcases List.mem_append.1 he with he | he
  · exact hist2_signed e he
  · cases List.mem_singleton.1 he; trivial

end Demo

/-- The hypotheses are met by a history whose claim and lock change the state. -/
example : Reachable Demo.cfg Demo.pausedState ∧ History.Signed Demo.cfg Demo.histPause ∧
    (∀ n, n < Demo.histPause.length →
      (run Demo.cfg (Demo.histPause.take n) Demo.pausedState).portalPaused = true) ∧
    0 < Demo.pausedState.supply ∧
    (run Demo.cfg Demo.histPause Demo.pausedState).positions ≠ Demo.pausedState.positions := by
  refine ⟨Demo.pausedState_reach, ?_, by decide +kernel, by decide +kernel, by decide +kernel⟩
  intro e he
  simp only [Demo.histPause, List.mem_cons, List.not_mem_nil, or_false] at he
  rcases he with rfl | rfl | rfl | rfl
  · trivial
  · exact Demo.bobS_user
  · exact Demo.bobS_user
  · exact Demo.bobS_user

end Dollar
