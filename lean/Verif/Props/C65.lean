import Verif.Lemmas.HypLedger
import Verif.Props.C35
import Verif.Props.C60

/-
C65: the books of Hyperlane yield: over the life of the chain, the yield reported for a warp token is
what the module dispatched for it plus what waits for a retry.
-/
set_option maxRecDepth 100000
namespace Dollar
open MM Spec

/-- Total of a store of amounts over the Hyperlane identifiers (provider 1) of a warp token. -/
def Spec.ofToken (c : Cfg) (t : Nat) (m : KV (Int × String) Int) : Int :=
  ((m.filter fun e => decide (e.1.1 = 1 ∧ tokenOf c e.1.2 = some t)).map Prod.snd).sum

/-- Total of the messages dispatched for a warp token. -/
def Spec.warped (s : State) (t : Nat) : Int :=
  ((s.warpOut.filter fun w => decide (w.tokenId = t)).map WarpOut.amount).sum

/-- The amount a user sends through a warp token with a message. -/
def Spec.userWarp (t : Nat) : Msg → Int
  | .warpTransfer _ t' _ _ amount => if t' = t then amount else 0
  | _ => 0

/-- Total of the accepted transfers of users through a warp token, over a history. -/
def Spec.warpedByUsers (c : Cfg) (t : Nat) : History → State → Int
  | [], _ => 0
  | (env, m) :: rest, s =>
    (if (exec c env m s).isOk then userWarp t m else 0) + warpedByUsers c t rest (Dollar.step c env m s)

/-- If the message delivers a token transfer, it quotes an index that the chain has already reached. -/
def Spec.QuotesKnown (env : Env) (s : State) (m : Msg) : Prop :=
  ∀ vaa amount i rcp chain token, m = .deliver vaa →
    content env vaa = some (.token amount i rcp chain token) → i ≤ s.index

/-- Every token transfer of the history quotes an index that the chain has already reached. -/
def Spec.Announced (c : Cfg) : History → State → Prop
  | [], _ => True
  | (env, m) :: rest, s => QuotesKnown env s m ∧ Announced c rest (Dollar.step c env m s)

theorem ofToken_eq (c : Cfg) (t : Nat) (m : KV (Int × String) Int) : ofToken c t m = hypSum c t m := by
  unfold ofToken hypSum
  induction m with
  | nil => rfl
  | cons e r ih =>
    rw [KV.sum_cons, ← ih, List.filter_cons]
    by_cases h : e.1.1 = 1 ∧ tokenOf c e.1.2 = some t
    · rw [if_pos (decide_eq_true h)]
      have h : e.1.1 = HYPERLANE ∧ (c.hexAddr e.1.2).map c.internalId = some t := h
      rw [if_pos h]; rfl
    · rw [if_neg (by simpa using h)]
      have h : ¬ (e.1.1 = HYPERLANE ∧ (c.hexAddr e.1.2).map c.internalId = some t) := h
      rw [if_neg h, zero_add]

theorem warped_eq (s : State) (t : Nat) : warped s t = warpSum t s.warpOut := by
  unfold warped warpSum
  induction s.warpOut with
  | nil => rfl
  | cons w r ih =>
    rw [List.filter_cons, List.map_cons, List.sum_cons, ← ih]
    by_cases h : w.tokenId = t
    · rw [if_pos (decide_eq_true h), if_pos h]; rfl
    · rw [if_neg (by simpa using h), if_neg h, zero_add]

theorem Reachable.hypInv {c : Cfg} (hc : c.WF) {s : State} (hr : Reachable c s) : HypInv s :=
  ⟨hr.shape.retry, (hr.led hc).good.retry, (hr.led hc).good.col⟩

/-- What one message does to the books. -/
theorem exec_tally {c : Cfg} (hc : c.WF) {env : Env} {m : Msg} {s s' : State} (hr : Reachable c s)
    (h : exec c env m s = .ok () s') (t : Nat) :
    hypOff c t s - userWarp t m ≤ hypOff c t s' ∧
    (QuotesKnown env s m → hypOff c t s' = hypOff c t s - userWarp t m) := by
  have hI := hr.hypInv hc
  have same (e : hypOff c t s' = hypOff c t s) (z : Int) (hz : z = 0) (P : Prop) :
      hypOff c t s - z ≤ hypOff c t s' ∧ (P → hypOff c t s' = hypOff c t s - z) := by
    subst hz; exact ⟨by omega, fun _ => by omega⟩
  have off {n n' : State} (e1 : n'.extYield = n.extYield) (e2 : n'.retry = n.retry)
      (e3 : n'.warpOut = n.warpOut) : hypOff c t n' = hypOff c t n := by
    unfold hypOff; rw [e1, e2, e3]
  have failed : ∀ p b, packetFailed c p b s = .ok () s' → hypOff c t s' = hypOff c t s := by
    intro p b hp
    obtain ⟨hin, _, n, hmv, rfl⟩ := packetFailed_ok hp
    have e1 : hypOff c t n = hypOff c t (if ownPacket c p then retryAdded s IBC p.channel p.amount else s) :=
      off hmv.extYield hmv.retry hmv.warpOut
    have e2 : hypOff c t (if ownPacket c p then retryAdded s IBC p.channel p.amount else s) = hypOff c t s := by
      split
      · rw [hypOff_retryAdded, Tally.part_ibc]; omega
      · rfl
    exact (off rfl rfl rfl).trans (e1.trans e2)
  by_cases hno : m.noOther = true
  · have e : otherF s' = otherF s := (Other.msg c env m hno).ok h
    have e := hypOff_congr c t (congrArg Prod.snd e)
    cases m <;> first | exact same e _ rfl _ | exact Bool.noConfusion hno
  cases m with
  | lock x v a => exact same (hypOff_congr c t ((RouteF.lock c env x v a).ok h)) _ rfl _
  | unlock x v a => exact same (hypOff_congr c t ((RouteF.unlock c x v a).ok h)) _ rfl _
  | deliver vaa =>
    obtain ⟨v, sA, _, _, rfl, hA, hR, hd⟩ := deliver_did hc (hr.led hc)
      (show deliver c env vaa s = .ok () s' from h)
    generalize hcn : content env vaa = cn at hd
    have hI2 : HypInv { { s with archive := s.archive ++ [v.digest] } with archive := s'.archive } :=
      ⟨hI.sorted, hI.retry, hI.col⟩
    show hypOff c t s - 0 ≤ hypOff c t s' ∧ (_ → hypOff c t s' = hypOff c t s - 0)
    simp only [sub_zero]
    cases hd with
    | ignored _ _ _ _ _ _ _ _ e =>
      have := same (off (n := s) (n' := s') (by rw [e]) (by rw [e]) (by rw [e])) 0 rfl
      simpa using this _
    | index i n hm e _ _ =>
      have k := ((Tally.updateIndex (t := t) hc env i) _ hI2).of_ok hm
      have e' : hypOff c t s' = hypOff c t n := off (by rw [e]) (by rw [e]) (by rw [e])
      have k2 : hypOff c t n = hypOff c t s := k.2
      exact ⟨by omega, fun _ => by omega⟩
    | token amount i rcp s1 hm hui hmint =>
      have e' : hypOff c t s' = hypOff c t s1 :=
        (off (n' := s') (n := { s' with events := s1.events }) rfl rfl rfl).trans
          (off hmint.moved.extYield hmint.moved.retry hmint.moved.warpOut)
      rw [ignore_apply] at hm
      constructor
      · have k := (Tally.updateIndex (t := t) hc env i) _ hI2
        unfold wp at k
        generalize updateIndex c env i _ = res at k hm
        rw [e']
        cases res with
        | ok _ n => cases hm; exact k.2.ge
        | err _ n => cases hm; exact k.2
        | panic => cases hm
      · intro hk
        have hle : i ≤ s.index := hk vaa amount i rcp _ _ rfl hcn
        rw [e']
        have hf : updateIndex c env i { { s with archive := s.archive ++ [v.digest] } with archive := s'.archive } =
            .err .decreasingIndex { { s with archive := s.archive ++ [v.digest] } with archive := s'.archive } := by
          unfold updateIndex
          rw [bind_apply]
          simp only [get_apply]
          rw [if_pos hle]; rfl
        rw [hf] at hm
        cases hm
        rfl
  | ibcTransfer a id r amt =>
    obtain ⟨_, _, n, hmv, rfl⟩ := userIbcTransfer_ok h
    exact same (off hmv.extYield hmv.retry hmv.warpOut) _ rfl _
  | ibcReceive id r amt =>
    obtain ⟨_, _, _, n, hmv, rfl⟩ := ibcReceive_ok h
    exact same (off hmv.extYield hmv.retry hmv.warpOut) _ rfl _
  | ibcTimeout p => exact same (failed p true h) _ rfl _
  | ibcAckError p => exact same (failed p false h) _ rfl _
  | ibcAckSuccess p =>
    obtain ⟨_, rfl⟩ := packetAcked_ok h
    exact same (off rfl rfl rfl) _ rfl _
  | warpCreate t' =>
    have h : warpCreate t' s = .ok () s' := h
    unfold warpCreate at h
    have h := modify_ok.1 h
    subst h
    refine same ?_ _ rfl _
    split
    · rfl
    · exact off rfl rfl rfl
  | warpTransfer a t' d r amt =>
    obtain ⟨_, _, n, _, hmv, rfl⟩ := warpSend_ok h
    have e : hypOff c t n = hypOff c t s := off hmv.extYield hmv.retry hmv.warpOut
    have e2 : hypOff c t { n with
        collateral := n.collateral.set t' (‹Int› + amt), warpOut := n.warpOut ++ [⟨t', d, r, amt⟩] } =
        hypOff c t n - (if t' = t then amt else 0) := by
      unfold hypOff
      show hypSum c t n.extYield - hypSum c t n.retry - warpSum t (n.warpOut ++ [_]) = _
      rw [warpSum_append]
      show hypSum c t n.extYield - hypSum c t n.retry - (_ + ((if t' = t then amt else 0) + 0)) = _
      omega
    rw [e] at e2
    exact ⟨e2.ge, fun _ => e2⟩
  | warpReceive t' a amt =>
    obtain ⟨_, _, _, _, _, hmv⟩ := warpReceive_ok h
    exact same (off hmv.extYield hmv.retry hmv.warpOut) _ rfl _
  | _ => exact absurd rfl hno

theorem run_tally {c : Cfg} (hc : c.WF) {s : State} (hr : Reachable c s) (h : History)
    (hsig : History.Signed c h) (t : Nat) :
    hypOff c t s - warpedByUsers c t h s ≤ hypOff c t (run c h s) ∧
    (Announced c h s → hypOff c t (run c h s) = hypOff c t s - warpedByUsers c t h s) := by
  induction h generalizing s with
  | nil => exact ⟨by simp [warpedByUsers, run], fun _ => by simp [warpedByUsers, run]⟩
  | cons e r ih =>
    obtain ⟨env, m⟩ := e
    have hm : m.SignedByUser c := hsig (env, m) List.mem_cons_self
    have ih := ih (Reachable.step (env := env) hr hm) (fun e he => hsig e (List.mem_cons_of_mem _ he))
    rw [warpedByUsers]
    show _ ≤ hypOff c t (run c r (step c env m s)) ∧ (_ → hypOff c t (run c r (step c env m s)) = _)
    generalize hu : warpedByUsers c t r (step c env m s) = u at ih
    generalize hz : hypOff c t (run c r (step c env m s)) = z at ih
    generalize hv : (if (exec c env m s).isOk then userWarp t m else 0) = v
    have key : hypOff c t s - v ≤ hypOff c t (step c env m s) ∧
        (QuotesKnown env s m → hypOff c t (step c env m s) = hypOff c t s - v) := by
      cases hx : exec c env m s with
      | ok w s' =>
        have k := exec_tally hc hr hx t
        have e1 : step c env m s = s' := by unfold step runTx; rw [hx]
        rw [e1]
        rw [hx] at hv
        simp only [Res.isOk, if_true] at hv
        rw [hv] at k
        exact k
      | err _ _ =>
        have e1 : step c env m s = s := by unfold step runTx; rw [hx]
        rw [hx] at hv
        simp only [Res.isOk, Bool.false_eq_true, if_false] at hv
        rw [e1]
        exact ⟨by omega, fun _ => by omega⟩
      | panic =>
        have e1 : step c env m s = s := by unfold step runTx; rw [hx]
        rw [hx] at hv
        simp only [Res.isOk, Bool.false_eq_true, if_false] at hv
        rw [e1]
        exact ⟨by omega, fun _ => by omega⟩
    refine ⟨by omega, fun ha => ?_⟩
    have h1 := key.2 ha.1
    have h2 := ih.2 ha.2
    omega

/-- The books of Hyperlane yield, from any state of the chain on.  The growth of the external yield
that the chain reports for the identifiers of a warp token is at least the growth of what was
dispatched for the token (apart from transfers of users), plus the growth of what waits for a retry.
They are equal when no token transfer quotes an index ahead of the chain. -/
theorem C65_yield_books {c : Cfg} (hc : c.WF) {s : State} (hr : Reachable c s) (h : History)
    (hsig : History.Signed c h) (t : Nat) :
    let s' := run c h s
    (warped s' t - warped s t - warpedByUsers c t h s) + (ofToken c t s'.retry - ofToken c t s.retry) ≤
      ofToken c t s'.extYield - ofToken c t s.extYield ∧
    (Announced c h s →
      ofToken c t s'.extYield - ofToken c t s.extYield =
      (warped s' t - warped s t - warpedByUsers c t h s) + (ofToken c t s'.retry - ofToken c t s.retry)) := by
  intro s'
  have e : s' = run c h s := rfl
  clear_value s'
  subst e
  have := run_tally hc hr h hsig t
  simp only [ofToken_eq, warped_eq]
  unfold hypOff at this
  refine ⟨?_, fun ha => ?_⟩
  · have := this.1
    omega
  · have := this.2 ha
    omega

/-- From a fresh chain: the module never dispatched more for a token than it reports, and what it
reports is dispatched or waits, when every quoted index was announced. -/
theorem C65_yield_books_from_start {c : Cfg} (hc : c.WF) {s0 : State} (hi : Initial c s0) (h : History)
    (hsig : History.Signed c h) (t : Nat) :
    let s' := run c h s0
    warped s' t - warpedByUsers c t h s0 + ofToken c t s'.retry ≤ ofToken c t s'.extYield ∧
    (Announced c h s0 →
      ofToken c t s'.extYield = warped s' t - warpedByUsers c t h s0 + ofToken c t s'.retry) := by
  intro s'
  have e : s' = run c h s0 := rfl
  clear_value s'
  subst e
  have := C65_yield_books (s := s0) hc (.fresh hi) h hsig t
  have e1 : ofToken c t s0.extYield = 0 := by rw [hi.extYield]; rfl
  have e2 : ofToken c t s0.retry = 0 := by rw [hi.retry]; rfl
  have e3 : warped s0 t = 0 := by unfold warped; rw [hi.warpOut]; rfl
  rw [e1, e2, e3] at this
  refine ⟨by have := this.1; omega, fun ha => ?_⟩
  have := this.2 ha
  omega

/-- When a token has a single identifier, the totals are the reported amounts. -/
theorem C65_single {c : Cfg} {t : Nat} {m : KV (Int × String) Int} (hs : m.Sorted) (id : String)
    (ht : tokenOf c id = some t)
    (hone : ∀ id' v, ((1, id'), v) ∈ m → tokenOf c id' = some t → id' = id) :
    ofToken c t m = (m.get? (1, id)).getD 0 := by
  rw [ofToken_eq]
  have h1 := hypSum_erase c t hs HYPERLANE id
  have h2 : hypSum c t (m.erase (HYPERLANE, id)) = 0 := by
    unfold hypSum
    have : (m.erase (HYPERLANE, id)).sum (fun k v =>
        if k.1 = HYPERLANE ∧ (c.hexAddr k.2).map c.internalId = some t then v else 0) =
        (m.erase (HYPERLANE, id)).sum fun _ _ => 0 := by
      refine KV.sum_congr fun p hp => ?_
      refine if_neg fun hk => ?_
      obtain ⟨⟨a, b⟩, v⟩ := p
      unfold KV.erase at hp
      obtain ⟨h3, h4⟩ := List.mem_filter.1 hp
      have ha : a = HYPERLANE := hk.1
      subst ha
      have := hone b v h3 hk.2
      subst this
      simp at h4
    rw [this]
    generalize m.erase (HYPERLANE, id) = l
    induction l with
    | nil => rfl
    | cons e r ih => rw [KV.sum_cons, ih]; rfl
  have h3 : hypPart c t HYPERLANE id ((m.get? (HYPERLANE, id)).getD 0) = (m.get? (1, id)).getD 0 := by
    unfold hypPart; exact if_pos ⟨rfl, ht⟩
  omega

/-- `Announced`, computed. -/
def announcedB (c : Cfg) : History → State → Bool
  | [], _ => true
  | (env, m) :: rest, s =>
    (match m with
      | .deliver vaa =>
        match content env vaa with
        | some (.token _ i _ _ _) => decide (i ≤ s.index)
        | _ => true
      | _ => true) && announcedB c rest (step c env m s)

theorem announced_of {c : Cfg} {h : History} {s : State} (hb : announcedB c h s = true) : Announced c h s := by
  induction h generalizing s with
  | nil => trivial
  | cons e r ih =>
    obtain ⟨env, m⟩ := e
    unfold announcedB at hb
    rw [Bool.and_eq_true] at hb
    refine ⟨?_, ih hb.2⟩
    rintro vaa amount i rcp chain token rfl hq
    have h1 := hb.1
    simp only [hq] at h1
    exact of_decide_eq_true h1

/-- The demo history whose warp transfers fail at first, and go through at the next announcement. -/
def Demo.histRetried : History := Demo.histExtFailed ++ [(Demo.env 9, .deliver [5])]

/-- Non-vacuity: while the transfers fail, all the reported yield waits; afterwards all of it is
dispatched, and users have dispatched 2000000 of their own. -/
example : Initial Demo.cfg Demo.start ∧ History.Signed Demo.cfg Demo.histRetried ∧
    Announced Demo.cfg Demo.histRetried Demo.start ∧
    (let s := run Demo.cfg Demo.histExtFailed Demo.start;
      ofToken Demo.cfg 65 s.extYield = 199999 ∧ ofToken Demo.cfg 65 s.retry = 199999 ∧ warped s 65 = 2000000) ∧
    (let s := run Demo.cfg Demo.histRetried Demo.start;
      ofToken Demo.cfg 65 s.extYield = 599998 ∧ ofToken Demo.cfg 65 s.retry = 0 ∧ warped s 65 = 2599998) ∧
    warpedByUsers Demo.cfg 65 Demo.histRetried Demo.start = 2000000 := by
  refine ⟨Demo.start_initial, fun e he => ?_, announced_of ?_, ?_, ?_, ?_⟩
  · rcases List.mem_append.1 he with he | he
    · exact Demo.hist3Failed_signed e he
    · cases List.mem_singleton.1 he; trivial
  all_goals decide +kernel

/-- The inequality can be strict: a transfer that quotes a newer index arrives while the routers of
the tokens are missing.  Its index update fails half-way, the failure is ignored, and the 199999 that
waited are neither dispatched nor waiting any more. -/
theorem C65_books_can_be_off : ∃ (c : Cfg) (s0 : State) (h : History) (t : Nat),
    c.WF ∧ Initial c s0 ∧ History.Signed c h ∧
    warped (run c h s0) t - warpedByUsers c t h s0 + ofToken c t (run c h s0).retry <
      ofToken c t (run c h s0).extYield := by
  refine ⟨Demo.cfg, Demo.start,
    Demo.histExtFailed ++ [({ Demo.env 9 with routers := fun _ => [] }, .deliver [4])], 65, Demo.cfg_wf,
    Demo.start_initial, fun e he => ?_, by decide +kernel⟩
  rcases List.mem_append.1 he with he | he
  · exact Demo.hist3Failed_signed e he
  · cases List.mem_singleton.1 he; trivial

end Dollar
