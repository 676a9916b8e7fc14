import Verif.Lemmas.IbcLedger
import Verif.Props.C34
import Verif.Props.C37
import Verif.Props.C41

/-
C60: the books of IBC yield: over the life of the chain, the yield claimed for a channel is what the
module sent over the channel, less what came back, plus what still waits for a retry.
-/
set_option maxRecDepth 100000
namespace Dollar
open MM Spec

/-- Total of the packets that were sent over a channel by the escrow account of the channel, that
is, by the module and not by a user. -/
def Spec.yieldSent (c : Cfg) (s : State) (channel : String) : Int :=
  ((s.ibcOut.filter fun p => decide (p.channel = channel ∧ p.sender = c.escrow "transfer" channel)).map
    IbcOut.amount).sum

/-- The amount that an accepted message reports as failed (timed out or refused by the other chain)
among the packets the module sent over a channel. -/
def Spec.cameBack (c : Cfg) (channel : String) : Msg → Int
  | .ibcTimeout p | .ibcAckError p =>
    if p.channel = channel ∧ p.sender = c.escrow "transfer" channel then p.amount else 0
  | _ => 0

/-- Total of the failed packets that the module sent over a channel, over a history. -/
def Spec.yieldReturned (c : Cfg) (channel : String) : History → State → Int
  | [], _ => 0
  | (env, m) :: rest, s =>
    (if (exec c env m s).isOk then cameBack c channel m else 0) +
      yieldReturned c channel rest (Dollar.step c env m s)

theorem yieldSent_eq (c : Cfg) (s : State) (ch : String) : yieldSent c s ch = ownSent c s.ibcOut ch := by
  unfold yieldSent ownSent
  induction s.ibcOut with
  | nil => rfl
  | cons p t ih =>
    rw [List.filter_cons, List.map_cons, List.sum_cons, ← ih]
    by_cases h : p.channel = ch ∧ p.sender = c.escrow "transfer" ch
    · rw [if_pos (decide_eq_true h), if_pos h]; rfl
    · rw [if_neg (by simpa using h), if_neg h, zero_add]

theorem exec_books {c : Cfg} (hc : c.WF) {env : Env} {m : Msg} {s s' : State} (hr : Reachable c s)
    (hm : m.SignedByUser c) (h : exec c env m s = .ok () s') {ch : String} {q : Int}
    (hB : Books c ch q s) : Books c ch (q - cameBack c ch m) s' := by
  have same (h0 : cameBack c ch m = 0) (e : routeF s' = routeF s) :
      Books c ch (q - cameBack c ch m) s' := by
    rw [h0, sub_zero]; exact hB.congr e
  have failed : ∀ p b, packetFailed c p b s = .ok () s' → cameBack c ch m =
      (if p.channel = ch ∧ p.sender = c.escrow "transfer" ch then p.amount else 0) →
      Books c ch (q - cameBack c ch m) s' := by
    intro p b hp e
    obtain ⟨hin, _, n, hmv, rfl⟩ := packetFailed_ok hp
    have h0 := ((hr.led hc).good.infl p hin).1
    have hX : n.extYieldOf IBC ch = s.extYieldOf IBC ch := by
      unfold State.extYieldOf; rw [hmv.extYield]; split <;> rfl
    have hO : n.ibcOut = s.ibcOut := by rw [hmv.ibcOut]; split <;> rfl
    have hR : n.retryOf IBC ch = s.retryOf IBC ch + cameBack c ch m := by
      rw [e, hmv.retryOf]
      by_cases ho : p.sender = c.escrowAddr p.channel
      · rw [if_pos ((ownPacket_iff hc p).2 ho), retryAdded_retryOf]
        simp only [Prod.mk.injEq, true_and]
        by_cases hch : ch = p.channel
        · subst hch; rw [if_pos rfl, if_pos ⟨rfl, ho⟩]
        · rw [if_neg hch, if_neg (fun k => hch k.1.symm)]
      · rw [if_neg (fun k => ho ((ownPacket_iff hc p).1 k)), if_neg (fun k => ho (by rw [k.2, ← k.1]; rfl)),
          add_zero]
    have h1 : 0 ≤ cameBack c ch m := by rw [e]; split <;> omega
    have := hB.eq
    have := hB.nonneg
    refine ⟨?_, ?_⟩
    · show n.extYieldOf IBC ch = _ + ownSent c n.ibcOut ch + n.retryOf IBC ch
      rw [hX, hO, hR]; omega
    · show 0 ≤ n.retryOf IBC ch
      omega
  by_cases hno : m.noOther = true
  · have e : otherF s' = otherF s := (Other.msg c env m hno).ok h
    refine same ?_ (congrArg Prod.snd e)
    cases m <;> first | rfl | exact Bool.noConfusion hno
  cases m with
  | lock x v a => exact same rfl ((RouteF.lock c env x v a).ok h)
  | unlock x v a => exact same rfl ((RouteF.unlock c x v a).ok h)
  | deliver vaa =>
    show Books c ch (q - 0) s'
    rw [sub_zero]
    exact (Books.deliver hc env vaa).ok h hB
  | ibcTransfer a id r amt =>
    obtain ⟨h0, _, n, hmv, rfl⟩ := userIbcTransfer_ok h
    have hu : c.IsUser a := hm
    have := hB.eq
    show Books c ch (q - 0) _
    rw [sub_zero]
    refine ⟨?_, ?_⟩
    · show n.extYieldOf IBC ch = q + ownSent c (n.ibcOut ++ [_]) ch + n.retryOf IBC ch
      rw [ownSent_append, hmv.ibcOut, hmv.retryOf,
        show n.extYieldOf IBC ch = s.extYieldOf IBC ch by unfold State.extYieldOf; rw [hmv.extYield], hB.eq]
      show _ = _ + (_ + ((if id = ch ∧ a = c.escrow "transfer" ch then amt else 0) + 0)) + _
      rw [if_neg (fun k => hu.ne_escrow ch k.2)]
      omega
    · show 0 ≤ n.retryOf IBC ch
      rw [hmv.retryOf]; exact hB.nonneg
  | ibcReceive id r amt =>
    obtain ⟨h0, _, hb, n, hmv, rfl⟩ := ibcReceive_ok h
    show Books c ch (q - 0) _
    rw [sub_zero]
    refine hB.of_eq ?_ hmv.ibcOut (hmv.retryOf _ _)
    show (n.extYield.get? _).getD 0 = _
    rw [hmv.extYield]; rfl
  | ibcTimeout p => exact failed p true h rfl
  | ibcAckError p => exact failed p false h rfl
  | ibcAckSuccess p =>
    obtain ⟨_, rfl⟩ := packetAcked_ok h
    show Books c ch (q - 0) _
    rw [sub_zero]; exact hB.of_eq rfl rfl rfl
  | warpCreate t =>
    have h : warpCreate t s = .ok () s' := h
    unfold warpCreate at h
    have h := modify_ok.1 h
    subst h
    show Books c ch (q - 0) _
    rw [sub_zero]
    split
    · exact hB
    · exact hB.of_eq rfl rfl rfl
  | warpTransfer a t d r amt =>
    obtain ⟨_, _, n, _, hmv, rfl⟩ := warpSend_ok h
    show Books c ch (q - 0) _
    rw [sub_zero]
    refine hB.of_eq ?_ hmv.ibcOut (hmv.retryOf _ _)
    show (n.extYield.get? _).getD 0 = _
    rw [hmv.extYield]; rfl
  | warpReceive t a amt =>
    obtain ⟨_, _, _, _, _, hmv⟩ := warpReceive_ok h
    show Books c ch (q - 0) _
    rw [sub_zero]
    refine hB.of_eq ?_ hmv.ibcOut (hmv.retryOf _ _)
    show (s'.extYield.get? _).getD 0 = _
    rw [hmv.extYield]; rfl
  | _ => exact absurd rfl hno

theorem run_books {c : Cfg} (hc : c.WF) {s : State} (hr : Reachable c s) (h : History)
    (hsig : History.Signed c h) {ch : String} {q : Int} (hB : Books c ch q s) :
    Books c ch (q - yieldReturned c ch h s) (run c h s) := by
  induction h generalizing s q with
  | nil => rw [yieldReturned, sub_zero]; exact hB
  | cons e t ih =>
    obtain ⟨env, m⟩ := e
    have hm : m.SignedByUser c := hsig (env, m) List.mem_cons_self
    have h1 : Books c ch (q - (if (exec c env m s).isOk then cameBack c ch m else 0)) (step c env m s) := by
      unfold step runTx
      cases hx : exec c env m s with
      | ok u s' => simp only [Res.isOk, if_true]; exact exec_books hc hr hm hx hB
      | err => simp [Res.isOk]; exact hB
      | panic => simp [Res.isOk]; exact hB
    have := ih (Reachable.step hr hm) (fun e he => hsig e (List.mem_cons_of_mem _ he)) h1
    rw [yieldReturned]
    rw [sub_sub] at this
    exact this

/-- The books of IBC yield, from any state of the chain on: the growth of the external yield that the
chain reports for a channel is the growth of what the module sent over it, plus the growth of what
waits for a retry, less the packets that were reported as failed. -/
theorem C60_yield_books {c : Cfg} (hc : c.WF) {s : State} (hr : Reachable c s) (h : History)
    (hsig : History.Signed c h) (channel : String) :
    (run c h s).extYieldOf 0 channel - s.extYieldOf 0 channel =
      (yieldSent c (run c h s) channel - yieldSent c s channel) - yieldReturned c channel h s +
      ((run c h s).retryOf 0 channel - s.retryOf 0 channel) := by
  have hB : Books c channel
      (s.extYieldOf IBC channel - ownSent c s.ibcOut channel - s.retryOf IBC channel) s :=
    ⟨by omega, (hr.led hc).good.retry _ _⟩
  have := (run_books hc hr h hsig hB).eq
  rw [yieldSent_eq, yieldSent_eq]
  show (run c h s).extYieldOf IBC channel - s.extYieldOf IBC channel = _ +
    ((run c h s).retryOf IBC channel - s.retryOf IBC channel)
  omega

/-- From a fresh chain: external yield = sent − returned + waiting. -/
theorem C60_yield_books_from_start {c : Cfg} (hc : c.WF) {s0 : State} (hi : Initial c s0) (h : History)
    (hsig : History.Signed c h) (channel : String) :
    (run c h s0).extYieldOf 0 channel =
      yieldSent c (run c h s0) channel - yieldReturned c channel h s0 + (run c h s0).retryOf 0 channel := by
  have := C60_yield_books (s := s0) hc (.fresh hi) h hsig channel
  have e1 : s0.extYieldOf 0 channel = 0 := by unfold State.extYieldOf; rw [hi.extYield]; rfl
  have e2 : s0.retryOf 0 channel = 0 := by unfold State.retryOf; rw [hi.retry]; rfl
  have e3 : yieldSent c s0 channel = 0 := by unfold yieldSent; rw [hi.ibcOut]; rfl
  omega

/-- Non-vacuity: `hist1` claims and sends 100000; nothing has failed yet. -/
example : let s := run Demo.cfg Demo.hist1 Demo.start
    s.extYieldOf 0 "channel-0" = 100000 ∧ yieldSent Demo.cfg s "channel-0" = 100000 ∧
    s.retryOf 0 "channel-0" = 0 ∧ s.ibcOut.length = 2 := by
  decide +kernel

/-- Non-vacuity: then the packet times out, and the 100000 wait for a retry. -/
example : let s := run Demo.cfg Demo.hist1 Demo.start
    let p : IbcOut := ⟨"channel-0", Demo.cfg.escrowAddr "channel-0", "noble1remote", 100000⟩
    let h : History := [(Demo.env 9, .ibcTimeout p)]
    History.Signed Demo.cfg h ∧ yieldReturned Demo.cfg "channel-0" h s = 100000 ∧
    (run Demo.cfg h s).retryOf 0 "channel-0" = 100000 ∧
    (run Demo.cfg h s).extYieldOf 0 "channel-0" = 100000 := by
  intro s p h
  have h1 : p ∈ s.inflight := by decide +kernel
  have h2 : ¬ s.vouchersOf p.channel < p.amount := by decide +kernel
  have e := packetFailed_eq Demo.cfg p true s h1 h2
  have h3 : (match refund Demo.cfg p (if ownPacket Demo.cfg p then retryAdded s IBC p.channel p.amount
      else s) with
    | .ok _ s' => decide (s'.retryOf 0 "channel-0" = 100000 ∧ s'.extYieldOf 0 "channel-0" = 100000)
    | _ => false) = true := by decide +kernel
  have hx : exec Demo.cfg (Demo.env 9) (.ibcTimeout p) s = packetFailed Demo.cfg p true s := rfl
  rw [e] at hx
  refine ⟨fun x hx => ?_, ?_, ?_⟩
  · rw [List.mem_singleton.1 hx]; exact trivial
  · show (if (exec Demo.cfg (Demo.env 9) (.ibcTimeout p) s).isOk then _ else _) + 0 = _
    rw [hx]
    split at h3
    · rename_i e3; rw [e3]
      show cameBack Demo.cfg "channel-0" (.ibcTimeout p) + 0 = 100000
      decide +kernel
    · cases h3
  · show (step Demo.cfg (Demo.env 9) (.ibcTimeout p) s).retryOf _ _ = _ ∧
      (step Demo.cfg (Demo.env 9) (.ibcTimeout p) s).extYieldOf _ _ = _
    unfold Dollar.step runTx
    rw [hx]
    split at h3
    · rename_i e3; rw [e3]; exact of_decide_eq_true h3
    · cases h3

end Dollar
