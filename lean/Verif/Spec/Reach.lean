import Verif.Model.System

/-
Which states and histories the history properties range over.
-/
namespace Dollar

/-- A chain on which no USDN exists yet: the module's stores hold no amounts.  The index, owner,
peers, bridging paths, yield recipients, pause flags, season flag, archived VAAs and the yield
collector are arbitrary (the collector is neither of the two accounts that may not receive
USDN from a holder). -/
structure Initial (c : Cfg) (s : State) : Prop where
  bal : s.bal = []
  supply : s.supply = 0
  index : 0 < s.index
  principal : s.principal = []
  holders : s.holders = 0
  totalPrincipal : s.totalPrincipal = 0
  totalYield : s.totalYield = 0
  extYield : s.extYield = []
  retry : s.retry = []
  positions : s.positions = []
  totalFlexible : s.totalFlexible = 0
  rewards : s.rewards = []
  vstats : s.vstats = ⟨0, 0, 0, 0, 0⟩
  posted : s.posted = []
  collateral : s.collateral = []
  ibcOut : s.ibcOut = []
  inflight : s.inflight = []
  vouchers : s.vouchers = []
  warpOut : s.warpOut = []
  nonce : s.nonce < 2 ^ 32
  /-- the remaining stores are proper maps: strictly ascending keys -/
  recipients : s.recipients.Sorted
  peers : s.peers.Sorted
  paths : s.paths.Sorted
  collector_yield : s.collector ≠ c.yieldAddr
  collector_module : s.collector ≠ c.moduleAddr

/-- What a coordinated software upgrade, or a restart from an exported genesis, may do to the module
between two blocks: the settings become anything (the season flag, which no message can set, the pause
flags, owner, collector, peers, bridging paths and yield recipients); amounts, positions, statistics,
the index and what other modules hold stay. -/
structure Upgrade (c : Cfg) (s s' : State) : Prop where
  rest : ∃ paused portalPaused vPaused season owner collector peers paths recipients,
    s' = { s with
      paused := paused, portalPaused := portalPaused, vPaused := vPaused, seasonOneEnded := season,
      owner := owner, collector := collector, peers := peers, paths := paths,
      recipients := recipients }
  recipients : s'.recipients.Sorted
  peers : s'.peers.Sorted
  paths : s'.paths.Sorted
  collector_yield : s'.collector ≠ c.yieldAddr
  collector_module : s'.collector ≠ c.moduleAddr

/-- A state reached from a fresh chain by any history of transactions signed by users, with any
upgrades in between. -/
inductive Reachable (c : Cfg) : State → Prop
  | fresh {s : State} (h : Initial c s) : Reachable c s
  /-- one more transaction -/
  | step {s : State} (h : Reachable c s) {env : Env} {m : Msg} (hm : m.SignedByUser c) :
      Reachable c (Dollar.step c env m s)
  | upgrade {s s' : State} (h : Reachable c s) (hu : Upgrade c s s') : Reachable c s'

/-- Induction over histories. -/
theorem run_append (c : Cfg) (h h' : History) (s : State) : run c (h ++ h') s = run c h' (run c h s) := by
  induction h generalizing s with
  | nil => rfl
  | cons e t ih => exact ih _

/-- A property that holds initially and is kept by every transaction and every upgrade holds in every
reachable state. -/
theorem Reachable.induct {c : Cfg} {P : State → Prop} (h0 : ∀ s, Initial c s → P s)
    (hs : ∀ s env m, P s → Msg.SignedByUser c m → P (Dollar.step c env m s))
    (hu : ∀ s s', P s → Upgrade c s s' → P s') {s : State} (h : Reachable c s) : P s := by
  induction h with
  | fresh h => exact h0 _ h
  | step _ hm ih => exact hs _ _ _ ih hm
  | upgrade _ h ih => exact hu _ _ ih h

/-- More transactions. -/
theorem Reachable.run {c : Cfg} {s : State} (hr : Reachable c s) {h : History} (hsig : History.Signed c h) :
    Reachable c (Dollar.run c h s) := by
  induction h generalizing s with
  | nil => exact hr
  | cons e t ih =>
    exact ih (hr.step (hsig e List.mem_cons_self)) fun e' he => hsig e' (List.mem_cons_of_mem _ he)

/-- The state after a history on a fresh chain. -/
theorem Reachable.of_run {c : Cfg} {s0 : State} (h0 : Initial c s0) {h : History} (hsig : History.Signed c h) :
    Reachable c (Dollar.run c h s0) := (Reachable.fresh h0).run hsig

end Dollar
