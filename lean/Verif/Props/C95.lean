import Verif.Lemmas.WarpBack
import Verif.Spec.Warp
import Verif.Props.C65
import Verif.Props.C92

/-
C95: Hyperlane vouchers are backed: the coins held for the warp tokens cover everything dispatched and
not come back, and what waits for a retry.
-/
set_option maxRecDepth 100000
namespace Dollar
open MM Spec

theorem hypWaiting_eq (s : State) : hypWaiting s = hypAll s.retry := by
  unfold hypWaiting hypAll
  induction s.retry with
  | nil => rfl
  | cons e r ih =>
    rw [KV.sum_cons, ← ih, List.filter_cons]
    by_cases h : e.1.1 = 1
    · rw [if_pos (decide_eq_true h)]
      have h : e.1.1 = HYPERLANE := h
      rw [if_pos h]; rfl
    · rw [if_neg (by simpa using h)]
      have h : ¬ e.1.1 = HYPERLANE := h
      rw [if_neg h, zero_add]

theorem collateralTotal_eq (s : State) : collateralTotal s = s.collateral.sum fun _ v => v := by
  unfold collateralTotal
  induction s.collateral with
  | nil => rfl
  | cons e r ih => rw [KV.sum_cons, ← ih]; rfl

/-- Only what was dispatched counts. -/
def outW (_ : KV Nat Int) (out : List WarpOut) : Int := (out.map WarpOut.amount).sum

theorem outW_gauge (env : Env) : Gauge env outW where
  sent col out t d bz x v _ _ := by
    unfold outW
    rw [List.map_append, List.sum_append]; exact le_of_eq (by simp)
  new _ _ _ _ := le_refl _
  late _ _ _ _ _ _ _ _ := le_refl _

/-- Only the recorded collateral counts. -/
def colW (col : KV Nat Int) (_ : List WarpOut) : Int := col.sum fun _ v => v

theorem colW_set (col : KV Nat Int) (t : Nat) (v : Int) :
    colW (col.set t v) [] = colW col [] - (col.get? t).getD 0 + v := by
  unfold colW
  rw [KV.sum_set]
  unfold KV.at'
  cases col.get? t <;> rfl

theorem colW_gauge {env : Env} (hn : ∀ t, env.warp t ≠ .failLate) : Gauge env colW where
  sent col out t d bz x v hx _ := by
    show colW (col.set t (x + v)) [] ≤ colW col [] + v
    rw [colW_set]; omega
  new col out t h := by
    show colW (col.set t 0) [] ≤ colW col []
    rw [colW_set, h]; simp
  late col out t x v h _ _ := absurd h (hn t)

/-- One transaction. -/
theorem room_step {c : Cfg} (hc : c.WF) {W : KV Nat Int → List WarpOut → Int} {k b : Int} {env : Env} (g : Gauge env W)
    {m : Msg} {s : State} (hr : Reachable c s) (hm : m.SignedByUser c)
    (hb : (exec c env m s).isOk = true → ∀ t a x, m = .warpReceive t a x → ∀ col, s.collateral.get? t = some col →
      W (s.collateral.set t (col - x)) s.warpOut + x ≤ W s.collateral s.warpOut + b)
    (h0 : (∀ t a x, m ≠ .warpReceive t a x) ∨ (exec c env m s).isOk = false → b = 0)
    (hs : Room c W k s) : Room c W (k - b) (Dollar.step c env m s) := by
  cases e : (exec c env m s).isOk with
  | false =>
    rw [step_failed (by rw [e]; exact Bool.false_ne_true), h0 (.inr e), sub_zero]; exact hs
  | true =>
    have he := exec_of_isOk e
    generalize Dollar.step c env m s = s' at he ⊢
    by_cases hw : ∀ t a x, m ≠ .warpReceive t a x
    · rw [h0 (.inl hw), sub_zero]
      exact room_exec hc g (hr.led hc) (hr.vinv hc) hm hw he hs
    · push Not at hw
      obtain ⟨t, a, x, rfl⟩ := hw
      obtain ⟨h1, _, col, hcol, h2, hv⟩ := warpReceive_ok (show warpReceive c t a x s = .ok () s' from he)
      have hb := hb e t a x rfl col hcol
      refine ⟨⟨hv.retry ▸ hs.inv.sorted, fun p i => by
        have := hv.retryOf (p := p) (i := i); exact this ▸ hs.inv.retry p i, fun y hy => ?_⟩, ?_⟩
      · rw [hv.collateral] at hy
        rcases KV.mem_set hy with rfl | h
        · show 0 ≤ col - x; omega
        · exact hs.inv.col _ h
      · have h3 : s.balance c.warpAddr - x ≤ s'.balance c.warpAddr := by
          rw [hv.bal, if_pos rfl]
          show _ ≤ s.balance c.warpAddr - _ + _
          split <;> omega
        rw [hv.collateral, hv.warpOut, hv.retry]
        have := hs.room
        show k - b ≤ s'.balance c.warpAddr - W (s.collateral.set t (col - x)) s.warpOut - hypAll s.retry
        omega

theorem room_run {c : Cfg} (hc : c.WF) (h : History) (s : State) (k : Int) (hr : Reachable c s)
    (hs : History.Signed c h) (hk : Room c outW k s) :
    Room c outW (k - returned c warpBackAny h s) (run c h s) := by
  induction h generalizing s k with
  | nil => exact hk.mono (by show k - 0 ≤ k; omega)
  | cons e r ih =>
    obtain ⟨env, m⟩ := e
    have hm : m.SignedByUser c := hs _ List.mem_cons_self
    have h1 : Room c outW (k - if (exec c env m s).isOk then warpBackAny m else 0) (Dollar.step c env m s) := by
      refine room_step hc (outW_gauge env) hr hm ?_ ?_ hk
      · rintro hok t a x rfl col hcol
        rw [if_pos hok]
        exact le_refl _
      · rintro (hw | hf)
        · cases m with
          | warpReceive t a x => exact absurd rfl (hw t a x)
          | _ => exact ite_self _
        · rw [if_neg (by rw [hf]; exact Bool.false_ne_true)]
    have := ih _ _ (hr.step hm) (fun e' he => hs e' (List.mem_cons_of_mem _ he)) h1
    refine this.mono ?_
    show _ - ((if (exec c env m s).isOk then warpBackAny m else 0) + _) ≤ _
    omega

/-- From every reachable state, over every history: what the warp account holds beyond the USDN
dispatched and the amounts waiting for a retry falls by no more than what comes back. -/
theorem C95_backing_kept {c : Cfg} (hc : c.WF) {s : State} (hr : Reachable c s) (h : History)
    (hs : History.Signed c h) :
    let s' := run c h s
    s.balance c.warpAddr - warpDispatched s - hypWaiting s - returned c warpBackAny h s ≤
      s'.balance c.warpAddr - warpDispatched s' - hypWaiting s' := by
  have h1 := (room_run hc h s _ hr hs ⟨hr.hypInv hc, le_refl _⟩).room
  rw [← hypWaiting_eq, ← hypWaiting_eq] at h1
  have e : ∀ x : State, outW x.collateral x.warpOut = warpDispatched x := fun _ => rfl
  rw [e, e] at h1
  show _ ≤ (run c h s).balance _ - _ - _
  omega

/-- **C95.** Over every history from a fresh chain, the balance of the warp account covers all the
USDN ever dispatched through warp tokens, by users or by the module, and not yet come back, together
with everything that waits for a retry. -/
theorem C95_vouchers_backed {c : Cfg} (hc : c.WF) {s0 : State} (hi : Initial c s0) (h : History)
    (hs : History.Signed c h) :
    let s := run c h s0
    warpDispatched s - returned c warpBackAny h s0 + hypWaiting s ≤ s.balance c.warpAddr := by
  have h1 := C95_backing_kept hc (.fresh hi) h hs
  have h2 : warpDispatched s0 = 0 := by unfold warpDispatched; rw [hi.warpOut]; rfl
  have h3 : hypWaiting s0 = 0 := by unfold hypWaiting; rw [hi.retry]; rfl
  have h4 := ((Reachable.fresh hi).led hc).good.bal c.warpAddr
  simp only [h2, h3] at h1
  show _ ≤ (run c h s0).balance _
  have h1 : s0.balance c.warpAddr - 0 - 0 - returned c warpBackAny h s0 ≤
    (run c h s0).balance c.warpAddr - warpDispatched (run c h s0) - hypWaiting (run c h s0) := h1
  show warpDispatched (run c h s0) - _ + hypWaiting (run c h s0) ≤ _
  omega

/-- Demo: a user brings 300000 back through token 65 after a dispatch by users and by the module. -/
def Demo.histBack : History :=
  Demo.histRetried ++ [(Demo.env 10, .warpReceive 65 Demo.alice 300000)]

theorem Demo.histBack_signed : History.Signed Demo.cfg Demo.histBack := by
  intro e he
  rcases List.mem_append.1 he with he | he
  · rcases List.mem_append.1 he with he | he
    · exact Demo.hist3Failed_signed e he
    · cases List.mem_singleton.1 he; trivial
  · cases List.mem_singleton.1 he; trivial

/-- Non-vacuity: everything happens in one history: yield waits for a retry, is dispatched later, and
coins come back. -/
example : Demo.cfg.WF ∧ Initial Demo.cfg Demo.start ∧ History.Signed Demo.cfg Demo.histBack ∧
    (let s := run Demo.cfg Demo.histExtFailed Demo.start;
      warpDispatched s = 3000000 ∧ hypWaiting s = 299998 ∧ s.balance Demo.cfg.warpAddr = 3300000) ∧
    (let s := run Demo.cfg Demo.histBack Demo.start;
      warpDispatched s = 3899996 ∧ returned Demo.cfg warpBackAny Demo.histBack Demo.start = 300000 ∧
      hypWaiting s = 0 ∧ s.balance Demo.cfg.warpAddr = 3600000) := by
  refine ⟨Demo.cfg_wf, Demo.start_initial, Demo.histBack_signed, ?_, ?_⟩
  all_goals decide +kernel

end Dollar
