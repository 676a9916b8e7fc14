import Verif.Lemmas.WarpRedeem
import Verif.Props.C95
import Verif.Props.C83

/-
C97: USDN that left through a Hyperlane warp token can come home.
-/
set_option maxRecDepth 100000
namespace Dollar
open MM Spec

/-- No two Hyperlane identifiers with a yield recipient are written for the same warp token. -/
def Spec.OneIdentifierPerToken (c : Cfg) (s : State) : Prop :=
  ∀ id id' t, Registered s 1 id → Registered s 1 id' → tokenOf c id = some t → tokenOf c id' = some t → id = id'

/-- What was dispatched through a warp token and has not come back. -/
def Spec.warpVouchers (c : Cfg) (h : History) (s0 : State) (t : Nat) : Int :=
  warped (run c h s0) t - returned c (warpBackOn t) h s0

theorem OneIdentifierPerToken.oneEach {c : Cfg} {s : State} (hs : s.recipients.Sorted) (h : OneIdentifierPerToken c s) :
    Slack.OneEach c s.recipients := by
  intro i j r r' b b' hi hj hb hb' e
  refine h i j (c.internalId b) ⟨r, KV.get?_of_mem hs hi⟩ ⟨r', KV.get?_of_mem hs hj⟩ ?_ ?_
  · unfold tokenOf; rw [hb]; rfl
  · unfold tokenOf; rw [hb', e]; rfl

theorem OneIdentifierPerToken.before {c : Cfg} {s : State} {h : History} (hk : OneIdentifierPerToken c (run c h s)) :
    OneIdentifierPerToken c s := fun i j t hi hj =>
  hk i j t (C83_never_removed c h s 1 i hi) (C83_never_removed c h s 1 j hj)

/-- From every reachable state, over every history after which no two Hyperlane identifiers stand for
the same token: the collateral of a token grows by at least what is dispatched through it, less what
comes back. -/
theorem C97_collateral_kept_partial {c : Cfg} {s : State} (hr : Reachable c s) (h : History)
    (hs : History.Signed c h) (hk : OneIdentifierPerToken c (run c h s)) (t : Nat) :
    let s' := run c h s
    (s.collateral.get? t).getD 0 - warped s t - returned c (warpBackOn t) h s ≤
      (s'.collateral.get? t).getD 0 - warped s' t := by
  show _ ≤ ((run c h s).collateral.get? t).getD 0 - warped (run c h s) t
  induction h generalizing s with
  | nil => show _ - 0 ≤ _; rw [sub_zero]; exact le_refl _
  | cons e r ih =>
    obtain ⟨env, m⟩ := e
    have hm : m.SignedByUser c := hs _ List.mem_cons_self
    have h1 := ih (hr.step (env := env) hm) (fun e' he => hs e' (List.mem_cons_of_mem _ he)) hk
    refine le_trans ?_ h1
    show _ - ((if (exec c env m s).isOk then warpBackOn t m else 0) + _) ≤ _
    cases e : (exec c env m s).isOk with
    | false =>
      rw [step_failed (by rw [e]; exact Bool.false_ne_true)]
      simp
    | true =>
      have he := exec_of_isOk e
      have h2 := exec_slack hr.shape.recipients (OneIdentifierPerToken.oneEach hr.shape.recipients
        (OneIdentifierPerToken.before (h := (env, m) :: r) hk)) he t
      rw [warped_eq, warped_eq, if_pos rfl]
      omega

/-- **C97.** From a fresh chain: if no two Hyperlane identifiers with a yield recipient stand for the
same warp token, the collateral recorded for each token covers everything dispatched through it and not
come back.  (Missing from the full statement: identifiers written in two ways for one token, see
`C97_two_identifiers_break_it`.) -/
theorem C97_collateral_covers_partial {c : Cfg} {s0 : State} (hi : Initial c s0) (h : History)
    (hs : History.Signed c h) (hk : OneIdentifierPerToken c (run c h s0)) (t : Nat) :
    warpVouchers c h s0 t ≤ ((run c h s0).collateral.get? t).getD 0 := by
  have h1 := C97_collateral_kept_partial (.fresh hi) h hs hk t
  have h2 : warped s0 t = 0 := by unfold warped; rw [hi.warpOut]; rfl
  have h3 : s0.collateral.get? t = none := by rw [hi.collateral]; rfl
  have h1 : (s0.collateral.get? t).getD 0 - warped s0 t - returned c (warpBackOn t) h s0 ≤
    ((run c h s0).collateral.get? t).getD 0 - warped (run c h s0) t := h1
  rw [h2, h3] at h1
  unfold warpVouchers
  simp only [Option.getD_none] at h1
  omega

/-- **C97, redemption.** Then any part of what left through a token can come back: the transfer is
accepted and the receiver gets the coins.  The other tokens only matter in that no more has come back
through them than was dispatched through them.  (The receiver may not be the yield account, nor an
account the bank blocks.) -/
theorem C97_redeemable_partial {c : Cfg} (hc : c.WF) {s0 : State} (hi : Initial c s0) (h : History)
    (hs : History.Signed c h) (hk : OneIdentifierPerToken c (run c h s0)) (t : Nat)
    (hother : returned c warpBackAny h s0 - returned c (warpBackOn t) h s0 ≤
      warpDispatched (run c h s0) - warped (run c h s0) t)
    (env : Env) (receiver : Addr) (amount : Int) (h0 : 0 < amount) (hv : amount ≤ warpVouchers c h s0 t)
    (hb : c.blocked receiver = false) (hy : receiver ≠ c.yieldAddr) :
    let s := run c h s0
    ∃ s', exec c env (.warpReceive t receiver amount) s = .ok () s' ∧
      (receiver ≠ c.warpAddr → s'.balance receiver = s.balance receiver + amount ∧
        s'.balance c.warpAddr = s.balance c.warpAddr - amount) := by
  intro s
  have hr : Reachable c s := .of_run hi hs
  have h1 := C97_collateral_covers_partial hi h hs hk t
  have h2 := C95_vouchers_backed hc hi h hs
  have h2 : warpDispatched s - returned c warpBackAny h s0 + hypWaiting s ≤ s.balance c.warpAddr := h2
  have h3 : 0 ≤ hypWaiting s := by
    unfold hypWaiting
    refine List.sum_nonneg fun x hx => ?_
    obtain ⟨e, he, rfl⟩ := List.mem_map.1 hx
    have := (hr.led hc).good.retry e.1.1 e.1.2
    unfold State.retryOf at this
    rw [KV.get?_of_mem hr.shape.retry (List.mem_filter.1 he).1] at this
    exact this
  have hcol : ∃ col, s.collateral.get? t = some col ∧ amount ≤ col := by
    have h1 : warpVouchers c h s0 t ≤ (s.collateral.get? t).getD 0 := h1
    cases e : s.collateral.get? t with
    | none => rw [e] at h1; exact absurd (h0.trans_le (hv.trans h1)) (lt_irrefl _)
    | some col => rw [e] at h1; exact ⟨col, rfl, hv.trans h1⟩
  obtain ⟨col, hcol, hle⟩ := hcol
  have hw : amount ≤ warped s t - returned c (warpBackOn t) h s0 := hv
  have hother : returned c warpBackAny h s0 - returned c (warpBackOn t) h s0 ≤ warpDispatched s - warped s t := hother
  obtain ⟨m, e, hmv⟩ := sendCoins_progress (c := c) (a := c.warpAddr) (b := receiver) (amt := amount)
    (s := { s with collateral := s.collateral.set t (col - amount) })
    (by show _ ≤ s.balance c.warpAddr; omega) (hr.led hc).good.index.ne' (.inl hy)
  refine ⟨m, ?_, fun hne => ?_⟩
  · show warpReceive c t receiver amount s = _
    unfold warpReceive sendModuleToAccount
    have h1 : ¬ (amount ≤ 0 ∨ col < amount) := by omega
    simp only [bind_apply, get_apply, hcol, h1, if_false, modify_apply, hb, Bool.false_eq_true, e]
  · rw [hmv.bal, hmv.bal, if_neg hne, if_pos rfl, if_pos rfl, if_neg (Ne.symm hne)]
    show s.balance receiver - 0 + amount = _ ∧ s.balance c.warpAddr - amount + 0 = _
    omega

/-- The recipients after `Demo.histBack`. -/
theorem Demo.histBack_recipients : (run Demo.cfg Demo.histBack Demo.start).recipients =
    [((0, "channel-0"), "noble1remote"), ((1, "A"), "R"), ((1, "B"), "S")] := by decide +kernel

/-- Non-vacuity: the demo history registers "A" for token 65 and "B" for token 66.  Of the 2599998
dispatched through token 65, 300000 came back; the rest can still come back. -/
example : Initial Demo.cfg Demo.start ∧ History.Signed Demo.cfg Demo.histBack ∧
    OneIdentifierPerToken Demo.cfg (run Demo.cfg Demo.histBack Demo.start) ∧
    warped (run Demo.cfg Demo.histBack Demo.start) 65 = 2599998 ∧
    warpVouchers Demo.cfg Demo.histBack Demo.start 65 = 2299998 ∧
    (run Demo.cfg Demo.histBack Demo.start).collateral.get? 65 = some 2299998 ∧
    returned Demo.cfg warpBackAny Demo.histBack Demo.start - returned Demo.cfg (warpBackOn 65) Demo.histBack Demo.start ≤
      warpDispatched (run Demo.cfg Demo.histBack Demo.start) - warped (run Demo.cfg Demo.histBack Demo.start) 65 ∧
    Demo.cfg.blocked Demo.alice = false ∧ Demo.alice ≠ Demo.cfg.yieldAddr := by
  refine ⟨Demo.start_initial, Demo.histBack_signed, ?_, ?_⟩
  · have reg : ∀ id, Registered (run Demo.cfg Demo.histBack Demo.start) 1 id → id = "A" ∨ id = "B" := by
      rintro id ⟨r, hr⟩
      have := KV.mem_of_get? hr
      rw [Demo.histBack_recipients] at this
      simp only [List.mem_cons, Prod.mk.injEq, List.not_mem_nil, or_false] at this
      rcases this with ⟨⟨h, _⟩, _⟩ | ⟨⟨_, h⟩, _⟩ | ⟨⟨_, h⟩, _⟩
      · exact absurd h (by decide)
      · exact .inl h
      · exact .inr h
    have hA : tokenOf Demo.cfg "A" = some 65 := by decide +kernel
    have hB : tokenOf Demo.cfg "B" = some 66 := by decide +kernel
    intro i j t hi hj e1 e2
    rcases reg i hi with rfl | rfl <;> rcases reg j hj with rfl | rfl
    · rfl
    · rw [hA] at e1; rw [hB] at e2; cases e1; cases e2
    · rw [hB] at e1; rw [hA] at e2; cases e1; cases e2
    · rfl
  · decide +kernel

/-- One token under two identifiers. -/
def Demo.histTwice : History :=
  [(Demo.env 1, .deliver [1]), (Demo.env 2, .warpCreate 65),
   (Demo.env 3, .setYieldRecipient "authority" 1 "A" "R"), (Demo.env 4, .setYieldRecipient "authority" 1 "xA" "R"),
   (Demo.env 5, .warpTransfer Demo.alice 65 7 [1] 2000000), (Demo.env 6, .deliver [3])]

/-- Without the assumption it is false: two identifiers of the same token have recipients, the module
dispatches a share for each of them, but raises the collateral only once (it uses the collateral it
read before the first dispatch).  The coins are there, but the last holder cannot get them. -/
theorem C97_two_identifiers_break_it : ∃ (c : Cfg) (s0 : State) (h : History) (t : Nat) (env : Env) (receiver : Addr),
    c.WF ∧ Initial c s0 ∧ History.Signed c h ∧
    ((run c h s0).collateral.get? t).getD 0 < warpVouchers c h s0 t ∧
    warpVouchers c h s0 t ≤ (run c h s0).balance c.warpAddr ∧
    c.blocked receiver = false ∧ receiver ≠ c.yieldAddr ∧
    (exec c env (.warpReceive t receiver (warpVouchers c h s0 t)) (run c h s0)).isOk = false := by
  refine ⟨Demo.cfg, Demo.start, Demo.histTwice, 65, Demo.env 7, Demo.alice, Demo.cfg_wf, Demo.start_initial,
    fun e he => ?_, by decide +kernel⟩
  simp only [Demo.histTwice, List.mem_cons, List.not_mem_nil, or_false] at he
  rcases he with rfl | rfl | rfl | rfl | rfl | rfl
  · trivial
  · trivial
  · trivial
  · trivial
  · exact Demo.alice_user
  · trivial

end Dollar
