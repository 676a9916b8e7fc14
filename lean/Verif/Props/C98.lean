import Verif.Props.C95

/-
C98: the collateral recorded for the warp tokens is backed by coins.
-/
set_option maxRecDepth 100000
namespace Dollar
open MM Spec

theorem colroom_run {c : Cfg} (hc : c.WF) (h : History) (s : State) (k : Int) (hr : Reachable c s)
    (hs : History.Signed c h) (hn : ∀ e ∈ h, ∀ t, e.1.warp t ≠ .failLate) (hk : Room c colW k s) :
    Room c colW k (run c h s) := by
  induction h generalizing s with
  | nil => exact hk
  | cons e r ih =>
    obtain ⟨env, m⟩ := e
    have hm : m.SignedByUser c := hs _ List.mem_cons_self
    have h1 : Room c colW (k - 0) (Dollar.step c env m s) := by
      refine room_step hc (colW_gauge (hn _ List.mem_cons_self)) hr hm ?_ (fun _ => rfl) hk
      rintro hok t a x rfl col hcol
      show colW (s.collateral.set t (col - x)) [] + x ≤ colW s.collateral [] + 0
      rw [colW_set, hcol, Option.getD_some]
      omega
    rw [sub_zero] at h1
    exact ih _ (hr.step hm) (fun e' he => hs e' (List.mem_cons_of_mem _ he))
      (fun e' he => hn e' (List.mem_cons_of_mem _ he)) h1

/-- **C98.** As long as no transfer of the module fails after the warp module
has booked it, the balance of the warp account covers the collateral recorded for all warp tokens,
together with everything that waits for a retry.  (Missing from the full statement: histories in which
a transfer fails after its booking, see `C98_late_failure_breaks_collateral`.) -/
theorem C98_collateral_backed_partial {c : Cfg} (hc : c.WF) {s0 : State} (hi : Initial c s0) (h : History)
    (hs : History.Signed c h) (hn : ∀ e ∈ h, ∀ t, e.1.warp t ≠ .failLate) :
    let s := run c h s0
    collateralTotal s + hypWaiting s ≤ s.balance c.warpAddr := by
  have h0 : Room c colW 0 s0 := by
    refine ⟨(Reachable.fresh hi).hypInv hc, ?_⟩
    rw [hi.retry, hi.collateral]
    have := ((Reachable.fresh hi).led hc).good.bal c.warpAddr
    show 0 ≤ s0.balance _ - 0 - 0
    omega
  have h1 := (colroom_run hc h s0 0 (.fresh hi) hs hn h0).room
  have h1 : 0 ≤ (run c h s0).balance c.warpAddr - (run c h s0).collateral.sum (fun _ v => v) -
    hypAll (run c h s0).retry := h1
  show collateralTotal (run c h s0) + hypWaiting (run c h s0) ≤ _
  rw [hypWaiting_eq, collateralTotal_eq]
  omega

/-- Non-vacuity: yield waits for a retry, is dispatched later, and coins come back. -/
example : Demo.cfg.WF ∧ Initial Demo.cfg Demo.start ∧ History.Signed Demo.cfg Demo.histBack ∧
    (∀ e ∈ Demo.histBack, ∀ t, e.1.warp t ≠ .failLate) ∧
    (let s := run Demo.cfg Demo.histExtFailed Demo.start;
      collateralTotal s = 3000000 ∧ hypWaiting s = 299998 ∧ s.balance Demo.cfg.warpAddr = 3300000) ∧
    (let s := run Demo.cfg Demo.histBack Demo.start;
      hypWaiting s = 0 ∧ collateralTotal s = 3599996 ∧ s.balance Demo.cfg.warpAddr = 3600000) := by
  refine ⟨Demo.cfg_wf, Demo.start_initial, Demo.histBack_signed, ?_, ?_, ?_⟩
  · intro e he t
    simp only [Demo.histBack, Demo.histRetried, Demo.histExtFailed, Demo.histExt, List.cons_append,
      List.nil_append, List.mem_cons, List.not_mem_nil, or_false] at he
    rcases he with rfl | rfl | rfl | rfl | rfl | rfl | rfl | rfl | rfl | rfl <;> exact Ext.noConfusion
  all_goals decide +kernel

/-- Without that assumption the recorded collateral can exceed the coins: two announcements during
which the dispatch fails after the warp module has raised the collateral.  The module keeps that
booking and sends the same amount again at the next announcement. -/
theorem C98_late_failure_breaks_collateral : ∃ (c : Cfg) (s0 : State) (h : History),
    c.WF ∧ Initial c s0 ∧ History.Signed c h ∧
    (run c h s0).balance c.warpAddr < collateralTotal (run c h s0) := by
  refine ⟨Demo.cfg, Demo.start, Demo.histExt ++ [({ Demo.env 8 with warp := fun _ => .failLate }, .deliver [3]),
    ({ Demo.env 9 with warp := fun _ => .failLate }, .deliver [5])], Demo.cfg_wf,
    Demo.start_initial, fun e he => ?_, by decide +kernel⟩
  rcases List.mem_append.1 he with he | he
  · exact Demo.hist3_signed e he
  · simp only [List.mem_cons, List.not_mem_nil, or_false] at he
    rcases he with rfl | rfl <;> trivial

end Dollar
