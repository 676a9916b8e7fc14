import Verif.Lemmas.CheckedAll4
import Verif.Model.Queries
import Verif.Spec.DemoExt

/-
C122: no message of any kind overflows the 256-bit integers and decimals of the chain, in any history of up to 2^39
messages.
-/
set_option linter.unusedSimpArgs false
set_option linter.unusedVariables false

namespace Dollar
open MM Spec Checked.Full

theorem recipientSets_le (c : Cfg) (h : History) (s : State) : recipientSets c h s ≤ h.length := by
  induction h generalizing s with
  | nil => exact le_refl _
  | cons e t ih =>
    obtain ⟨env, m⟩ := e
    have h1 := ih (step c env m s)
    have h2 : recipientSets c ((env, m) :: t) s ≤ 1 + recipientSets c t (step c env m s) := by
      cases m <;> simp only [recipientSets] <;> first | omega | (split <;> omega)
    rw [List.length_cons]
    omega

/-- The collateral of every warp token grows by at most 2^128 with each message. -/
theorem exec_col {c : Cfg} {env : Env} {m : Msg} {s s' : State} {Q : Int} (hs : Checked.Full.Start Q s) (hQ : 0 ≤ Q)
    (h : exec c env m s = .ok () s') : ∀ k v, s'.collateral.get? k = some v → 0 ≤ v ∧ v ≤ Q + 2 ^ 128 := by
  have same : ∀ {s' : State}, s'.collateral = s.collateral →
      ∀ k v, s'.collateral.get? k = some v → 0 ≤ v ∧ v ≤ Q + 2 ^ 128 := by
    intro s' e k v hk
    rw [e] at hk
    have := hs.tame.col k v hk
    omega
  by_cases ho : m.noOther = true
  · have e := (Other.msg c env m ho).ok h
    exact same (congrArg (fun x => x.2.2.2.1) e :)
  have failed : ∀ {p : IbcOut} {b : Bool}, packetFailed c p b s = .ok () s' → s'.collateral = s.collateral := by
    intro p b hp
    obtain ⟨_, _, m, hmv, rfl⟩ := packetFailed_ok hp
    show m.collateral = _
    rw [hmv.collateral]; split <;> rfl
  cases m with
  | lock signer v amt? =>
    have e := (RouteF.lock c env signer v amt?).ok (show lock c env signer v amt? s = .ok () s' from h)
    exact same (congrArg (fun x => x.2.2.1) e :)
  | unlock signer v amt? =>
    have e := (RouteF.unlock c signer v amt?).ok (show unlock c signer v amt? s = .ok () s' from h)
    exact same (congrArg (fun x => x.2.2.1) e :)
  | deliver vaa =>
    have := (deliver_at (c := c) (env := env) hs vaa).post
    unfold wp at this
    rw [show deliver c env vaa s = .ok () s' from h] at this
    exact this.col
  | ibcTransfer a ch r amt =>
    obtain ⟨h0, hy, m, hmv, rfl⟩ := userIbcTransfer_ok (show userIbcTransfer c env a ch r amt s = .ok () s' from h)
    exact same hmv.collateral
  | ibcReceive ch r amt =>
    obtain ⟨h0, h1, _, m, hmv, rfl⟩ := ibcReceive_ok (show ibcReceive c ch r amt s = .ok () s' from h)
    exact same hmv.collateral
  | ibcTimeout p => exact same (failed h)
  | ibcAckError p => exact same (failed h)
  | ibcAckSuccess p =>
    obtain ⟨_, rfl⟩ := packetAcked_ok (show packetAcked c p s = .ok () s' from h)
    exact same rfl
  | warpCreate t =>
    have h : warpCreate t s = .ok () s' := h
    unfold warpCreate at h
    have h := modify_ok.1 h
    subst h
    split
    · exact same rfl
    · intro k v hk
      change (s.collateral.set t 0).get? k = some v at hk
      rw [KV.get?_set] at hk
      split at hk
      · cases hk; omega
      · have := hs.tame.col k v hk; omega
  | warpTransfer a t d r amt =>
    obtain ⟨h0, col, m, hcol, hmv, rfl⟩ := warpSend_ok (show warpSend c t d a r amt s = .ok () s' from h)
    intro k v hk
    change (m.collateral.set t (col + amt)).get? k = some v at hk
    rw [KV.get?_set, hmv.collateral] at hk
    have hle : amt ≤ 2 ^ 127 := by
      rcases hmv.enough with e | e
      · omega
      · exact e.trans (hs.tame.bal_le _)
    split at hk
    · cases hk
      have := hs.tame.col t col hcol
      omega
    · have := hs.tame.col k v hk; omega
  | warpReceive t a x =>
    obtain ⟨_, _, col, hcol, _, hv⟩ := warpReceive_ok (show warpReceive c t a x s = .ok () s' from h)
    intro k v hk
    rw [hv.collateral] at hk
    change (s.collateral.set t (col - x)).get? k = some v at hk
    rw [KV.get?_set] at hk
    split at hk
    · cases hk
      have := hs.tame.col t col hcol
      omega
    · have := hs.tame.col k v hk; omega
  | _ => exact absurd rfl ho

/-- Everything but the collateral. -/
theorem start_of_run {c : Cfg} (hc : c.WF) {s0 : State} (h0 : Initial c s0) (hlo : 10 ^ 12 ≤ s0.index)
    (hhi : s0.index < 2 ^ 63) (hrec : s0.recipients.length ≤ 2 ^ 39) {h : History} (hsig : History.Signed c h)
    (hlen : h.length ≤ 2 ^ 39) {Q : Int} (hQ : Q ≤ 2 ^ 190)
    (hcol : ∀ k v, (run c h s0).collateral.get? k = some v → 0 ≤ v ∧ v ≤ Q) : Checked.Full.Start Q (run c h s0) := by
  have hr : Reachable c (run c h s0) := .of_run h0 hsig
  have n := nrange_run hc h0 hlo hhi hsig
  obtain ⟨⟨sup, bal⟩, _⟩ := C85_no_overflow hc h0 hlo hhi hsig hlen
  obtain ⟨hi, ht1, ht2, _, _⟩ := C70_absolute hc h0 hlo hhi hsig
  obtain ⟨hp, ht⟩ := C71_principal_bounded hc h0 hlo hhi hsig
  have hd := deliveries_le c h s0
  have hrs := C109_recipients (c := c) (s := s0) h
  have hrl := recipientSets_le c h s0
  have hesc := fun ch => C34_escrow_covers hc hr ch
  have hT : (2 ^ 88 * (deliveries c h s0 * h.length : Nat) : Int) ≤ 2 ^ 166 := by
    have : deliveries c h s0 * h.length ≤ 2 ^ 39 * 2 ^ 39 := Nat.mul_le_mul (by omega) hlen
    have : ((deliveries c h s0 * h.length : Nat) : Int) ≤ 2 ^ 39 * 2 ^ 39 := by exact_mod_cast this
    omega
  have hlo' := hlo.trans (C02_index_monotone hc (.fresh h0) h hsig)
  have hl := hr.led hc
  generalize hs : run c h s0 = s at *
  have hb := hl.good.bal
  have hsum := balance_le_sum hr.shape.bal hb c.yieldAddr
  have hby := hb c.yieldAddr
  have hsup := hl.sum
  generalize deliveries c h s0 = d at *
  have ed : (d : Int) ≤ 2 ^ 39 := by omega
  refine ⟨⟨hr.shape.bal, hb, by omega, by omega, fun x => ?_, ?_, ⟨hlo', hi⟩, fun p i => ?_, fun p i => ?_, hcol, ?_, by omega⟩,
    by omega, hQ⟩
  · have := abs_le.1 (hp x); omega
  · have := abs_le.1 ht; omega
  · refine ⟨hl.good.retry p i, ?_⟩
    by_cases e : p = IBC
    · subst e
      have h1 := hesc i
      have h2 := bal (c.escrow "transfer" i)
      have h3 : s.retryOf IBC i = s.retryOf 0 i := rfl
      omega
    · have := n.retry p i e; omega
  · have := n.ext p i; omega
  · have := n.yield; omega

theorem col_run {c : Cfg} (hc : c.WF) {s0 : State} (h0 : Initial c s0) (hlo : 10 ^ 12 ≤ s0.index)
    (hhi : s0.index < 2 ^ 63) (hrec : s0.recipients.length ≤ 2 ^ 39) {h : History} (hsig : History.Signed c h)
    (hlen : h.length ≤ 2 ^ 39) :
    ∀ k v, (run c h s0).collateral.get? k = some v → 0 ≤ v ∧ v ≤ 2 ^ 128 * h.length := by
  induction h using List.reverseRecOn with
  | nil =>
    intro k v hk
    change s0.collateral.get? k = some v at hk
    rw [h0.collateral] at hk
    cases hk
  | append_singleton t e ih =>
    obtain ⟨env, m⟩ := e
    have ht : History.Signed c t := fun e he => hsig e (List.mem_append_left _ he)
    rw [List.length_append, List.length_singleton] at hlen ⊢
    have h1 := start_of_run hc h0 hlo hhi hrec ht (by omega) (Q := 2 ^ 128 * t.length) (by omega) (ih ht (by omega))
    rw [run_append]
    intro k v hk
    change (step c env m (run c t s0)).collateral.get? k = some v at hk
    push_cast
    rcases step_cases c env m (run c t s0) with e | e
    · rw [e] at hk
      have := h1.tame.col k v hk
      omega
    · have := exec_col h1 (by omega) e k v hk
      omega

/-- C122: in every state a chain reaches within 2^39 messages, the next message, whatever it is, does the same with the
chain's bounded integers and decimals as with unbounded ones. -/
theorem C122_messages {c : Cfg} (hc : c.WF) {s0 : State} (h0 : Initial c s0) (hlo : 10 ^ 12 ≤ s0.index)
    (hhi : s0.index < 2 ^ 63) (hrec : s0.recipients.length ≤ 2 ^ 39) {h : History} (hsig : History.Signed c h)
    (hlen : h.length ≤ 2 ^ 39) (env : Env) {m : Msg} (hm : m.SignedByUser c) :
    Checked.Full.exec c env m (run c h s0) = exec c env m (run c h s0) := by
  have hs := start_of_run hc h0 hlo hhi hrec hsig hlen (Q := 2 ^ 128 * h.length) (by omega)
    (col_run hc h0 hlo hhi hrec hsig hlen)
  have hr : Reachable c (run c h s0) := .of_run h0 hsig
  have h119 := C119_messages hc h0 hlo hhi hsig hlen env hm
  have hk := fun a => run_keys hc (.fresh h0) h hsig a
  have hp := fun a v => length_positionsOf (run c h s0) a v
  have hll := fun a => locksBy_le c a h s0
  have hz : ∀ a, (keysOf s0 a).length = 0 := fun a => by unfold keysOf; rw [h0.positions]; rfl
  have hesc := fun ch => C34_escrow_covers hc hr ch
  have hinf := (hr.led hc).good.infl
  generalize run c h s0 = s at *
  have hv : ∀ ch, s.vouchersOf ch ≤ 2 ^ 127 := fun ch => by
    have h1 := hesc ch
    have h2 := hs.tame.bal_le (c.escrow "transfer" ch)
    omega
  cases m with
  | claimYield signer => exact (claim_at hs.tame signer).eq
  | deliver vaa => exact (deliver_at hs vaa).eq
  | transfer signer a chain token recipient => exact (transfer_at hs.tame signer a chain token recipient).eq
  | lock signer v a => exact (lock_at hs.tame signer v a).eq.trans h119
  | unlock signer v a =>
    refine (unlock_at hs.tame signer v a fun x => ?_).eq.trans h119
    have h1 := hk x
    have h2 := hp x v
    have h3 := hll x
    have h4 := hz x
    omega
  | bankSend a b v => exact (bankSend_at hs.tame).eq
  | bankMultiSend a outs => exact bankMultiSend_eq hm.ne_yield hm.ne_module outs hs.tame
  | keeperSend a b v => exact (keeperSend_at hs.tame).eq
  | ibcTransfer a ch r v => exact (userIbc_at hs.tame).eq
  | ibcReceive ch r v => exact (ibcReceive_at hs.tame).eq
  | ibcTimeout p => exact (packetFailed_at hs.tame (fun h => (hinf p h).1) (hv _)).eq
  | ibcAckError p => exact (packetFailed_at hs.tame (fun h => (hinf p h).1) (hv _)).eq
  | warpTransfer a t d r v => exact (warpSend_at hs).eq
  | warpReceive t a v => exact (warpReceive_at hs).eq
  | _ => rfl

/-- C122: the whole history runs as if numbers were unbounded. -/
theorem C122_run {c : Cfg} (hc : c.WF) {s0 : State} (h0 : Initial c s0) (hlo : 10 ^ 12 ≤ s0.index)
    (hhi : s0.index < 2 ^ 63) (hrec : s0.recipients.length ≤ 2 ^ 39) {h : History} (hsig : History.Signed c h)
    (hlen : h.length ≤ 2 ^ 39) : Checked.Full.run c h s0 = run c h s0 := by
  have key : ∀ t r : History, History.Signed c (t ++ r) → (t ++ r).length ≤ 2 ^ 39 →
      Checked.Full.run c r (run c t s0) = run c r (run c t s0) := by
    intro t r
    induction r generalizing t with
    | nil => intro _ _; rfl
    | cons e r ih =>
      intro hs hl
      obtain ⟨env, m⟩ := e
      have e1 := C122_messages hc h0 hlo hhi hrec (h := t) (fun e he => hs e (List.mem_append_left _ he))
        (by rw [List.length_append] at hl; omega) env (hs (env, m) (List.mem_append_right _ List.mem_cons_self))
      have e2 : Checked.Full.step c env m (run c t s0) = step c env m (run c t s0) := by
        unfold Checked.Full.step step runTx
        rw [e1]
      have e3 : step c env m (run c t s0) = run c (t ++ [(env, m)]) s0 := by rw [run_append]; rfl
      show Checked.Full.run c r (Checked.Full.step c env m (run c t s0)) = run c r (step c env m (run c t s0))
      rw [e2, e3]
      exact ih (t ++ [(env, m)]) (by simpa using hs) (by simpa using hl)
  exact key [] h hsig hlen

/-- C122: nor does the computation of anyone's claimable yield, of which the query gives the answer. -/
theorem C122_yield {c : Cfg} (hc : c.WF) {s0 : State} (h0 : Initial c s0) (hlo : 10 ^ 12 ≤ s0.index)
    (hhi : s0.index < 2 ^ 63) (hrec : s0.recipients.length ≤ 2 ^ 39) {h : History} (hsig : History.Signed c h)
    (hlen : h.length ≤ 2 ^ 39) (account : String) :
    ((c.decode account).bind fun a => Checked.Full.claimable (run c h s0) a) = queryYield c (run c h s0) account := by
  have hs := start_of_run hc h0 hlo hhi hrec hsig hlen (Q := 2 ^ 128 * h.length) (by omega)
    (col_run hc h0 hlo hhi hrec hsig hlen)
  unfold queryYield
  cases c.decode account with
  | none => rfl
  | some a => exact claimable_eq (by decide) (by decide) hs.tame

/-! ## The hypotheses are met, and the panic is there -/

/-- Deliveries, locks, an IBC transfer, a claim, unlocks and a portal transfer. -/
example : Checked.Full.run Demo.cfg Demo.hist2 Demo.start = run Demo.cfg Demo.hist2 Demo.start ∧
    (run Demo.cfg Demo.hist2 Demo.start).supply ≠ 0 ∧ (run Demo.cfg Demo.hist2 Demo.start).posted ≠ [] :=
  ⟨C122_run Demo.cfg_wf Demo.start_initial (by decide +kernel) (by decide +kernel) (by decide +kernel) Demo.hist2_signed
    (by decide +kernel), by decide +kernel, by decide +kernel⟩

/-- Warp tokens with collateral and yield that waits for a retry. -/
example : Checked.Full.run Demo.cfg Demo.histExtFailed Demo.start = run Demo.cfg Demo.histExtFailed Demo.start ∧
    (run Demo.cfg Demo.histExtFailed Demo.start).retry ≠ [] ∧
    (run Demo.cfg Demo.histExtFailed Demo.start).collateral.length = 2 :=
  ⟨C122_run Demo.cfg_wf Demo.start_initial (by decide +kernel) (by decide +kernel) (by decide +kernel)
    Demo.hist3Failed_signed (by decide +kernel), by decide +kernel, by decide +kernel⟩

/-- In states no chain gets to in that time the panics are there.  First, a transfer to an account that holds almost
2^256; then an announced index with a total principal of 2^255; then a warp token with the largest collateral. -/
example :
    let s := run Demo.cfg (Demo.hist2.take 2) Demo.start
    let s1 := { s with bal := s.bal.set Demo.bob (2 ^ 256 - 1000) }
    let s2 := { s with totalPrincipal := 2 ^ 255 }
    let s3 := { s with collateral := [(65, 2 ^ 256 - 1)] }
    let send : Msg := .bankSend Demo.alice Demo.bob 1000
    let less : Msg := .bankSend Demo.alice Demo.bob 999
    let index : Msg := .deliver [3]
    let warp : Msg := .warpTransfer Demo.alice 65 7 [1] 1000
    (Checked.Full.exec Demo.cfg (Demo.env 9) send s1).isOk = false ∧ (exec Demo.cfg (Demo.env 9) send s1).isOk = true ∧
    (Checked.Full.exec Demo.cfg (Demo.env 9) less s1).isOk = true ∧
    (exec Demo.cfg (Demo.env 9) less s1).isOk = true ∧
    (Checked.Full.exec Demo.cfg (Demo.env 9) index s2).isOk = false ∧ (exec Demo.cfg (Demo.env 9) index s2).isOk = true ∧
    (Checked.Full.exec Demo.cfg (Demo.env 9) warp s3).isOk = false ∧ (exec Demo.cfg (Demo.env 9) warp s3).isOk = true := by
  decide +kernel

/-- One for every place where the code adds, subtracts or multiplies: with the largest number there the handler with
the checks stops and the one without them does not. -/
example :
    let top : Int := 2 ^ 256 - 1
    let s := run Demo.cfg (Demo.hist2.take 2) Demo.start
    let c := Demo.cfg
    let a := Demo.alice
    let b := Demo.bob
    let e := Demo.env 9
    let pos : PosEntry := ⟨a, FLEXIBLE, 0, s.index, 2 ^ 255, 1⟩
    (Checked.Full.sendRestriction c c.moduleAddr b (2 ^ 220)
      s).isOk = false ∧
    (Dollar.sendRestriction c c.moduleAddr b (2 ^ 220)
      s).isOk = true ∧
    (Checked.Full.sendRestriction c a b (2 ^ 220)
      { s with principal := [(a, top)] }).isOk = false ∧
    (Dollar.sendRestriction c a b (2 ^ 220)
      { s with principal := [(a, top)] }).isOk = true ∧
    (Checked.Full.multiSendOutputs c a [(b, 1), (b, 1)]
      { s with bal := [(b, top - 1)], principal := [(a, 10)] }).isOk = false ∧
    (Dollar.multiSendOutputs c a [(b, 1), (b, 1)]
      { s with bal := [(b, top - 1)], principal := [(a, 10)] }).isOk = true ∧
    (Checked.Full.mintCoins c 1
      { s with supply := top }).isOk = false ∧
    (Dollar.mintCoins c 1
      { s with supply := top }).isOk = true ∧
    (Checked.Full.mintCoins c 1
      { s with bal := [(c.moduleAddr, top)] }).isOk = false ∧
    (Dollar.mintCoins c 1
      { s with bal := [(c.moduleAddr, top)] }).isOk = true ∧
    (Checked.Full.burnCoins c 1
      { s with bal := [(c.moduleAddr, 1)], supply := -top }).isOk = false ∧
    (Dollar.burnCoins c 1
      { s with bal := [(c.moduleAddr, 1)], supply := -top }).isOk = true ∧
    (Checked.Full.claimModuleYield c b
      { s with principal := [(b, 2 ^ 255)], bal := [(c.yieldAddr, 2 ^ 255)] }).isOk = false ∧
    (Dollar.claimModuleYield c b
      { s with principal := [(b, 2 ^ 255)], bal := [(c.yieldAddr, 2 ^ 255)] }).isOk = true ∧
    (Checked.Full.claimStakedVaultYield c
      { s with principal := [(c.stakedAddr, 2 ^ 222)], bal := [(c.yieldAddr, 2 ^ 223)] }).isOk = false ∧
    (Dollar.claimStakedVaultYield c
      { s with principal := [(c.stakedAddr, 2 ^ 222)], bal := [(c.yieldAddr, 2 ^ 223)] }).isOk = true ∧
    (Checked.Full.ibcOne c e [] "channel-0"
      { s with retry := [((IBC, "channel-0"), top)], principal := [(c.escrowAddr "channel-0", 2)], bal := [(c.yieldAddr, 2)] }).isOk = false ∧
    (Dollar.ibcOne c e [] "channel-0"
      { s with retry := [((IBC, "channel-0"), top)], principal := [(c.escrowAddr "channel-0", 2)], bal := [(c.yieldAddr, 2)] }).isOk = true ∧
    (Checked.Full.incrementExtYield 0 "x" 1
      { s with extYield := [((0, "x"), top)] }).isOk = false ∧
    (Dollar.incrementExtYield 0 "x" 1
      { s with extYield := [((0, "x"), top)] }).isOk = true ∧
    (Checked.Full.incrementRetry 0 "x" 1
      { s with retry := [((0, "x"), top)] }).isOk = false ∧
    (Dollar.incrementRetry 0 "x" 1
      { s with retry := [((0, "x"), top)] }).isOk = true ∧
    (Checked.Full.warpTransfer c e ⟨"A", 65, top⟩ 7 [1] 1
      { s with bal := [(c.warpAddr, 1)], principal := [(c.warpAddr, 1)] }).isOk = false ∧
    (Dollar.warpTransfer c e ⟨"A", 65, top⟩ 7 [1] 1
      { s with bal := [(c.warpAddr, 1)], principal := [(c.warpAddr, 1)] }).isOk = true ∧
    (Checked.Full.hypOne c e [] 1 (2 ^ 100) ⟨"A", 65, -(2 ^ 250)⟩
      s).isOk = false ∧
    (Dollar.hypOne c e [] 1 (2 ^ 100) ⟨"A", 65, -(2 ^ 250)⟩
      s).isOk = true ∧
    (Checked.Full.hypOne c e [] 3 1 ⟨"A", 65, -3⟩
      { s with retry := [((HYPERLANE, "A"), -top)] }).isOk = false ∧
    (Dollar.hypOne c e [] 3 1 ⟨"A", 65, -3⟩
      { s with retry := [((HYPERLANE, "A"), -top)] }).isOk = true ∧
    (Checked.Full.handleSeasonOne c 5
      { s with principal := [(c.stakedAddr, 2 ^ 215), (c.flexibleAddr, top)], index := 10 ^ 12, bal := [(c.yieldAddr, 2 ^ 257)] }).isOk = false ∧
    (Dollar.handleSeasonOne c 5
      { s with principal := [(c.stakedAddr, 2 ^ 215), (c.flexibleAddr, top)], index := 10 ^ 12, bal := [(c.yieldAddr, 2 ^ 257)] }).isOk = true ∧
    (Checked.Full.incrementTotalYield 1
      { s with totalYield := top }).isOk = false ∧
    (Dollar.incrementTotalYield 1
      { s with totalYield := top }).isOk = true ∧
    (Checked.Full.updateIndex c e (2 * 10 ^ 12)
      { s with supply := -top, totalPrincipal := 10 }).isOk = false ∧
    (Dollar.updateIndex c e (2 * 10 ^ 12)
      { s with supply := -top, totalPrincipal := 10 }).isOk = true ∧
    (Checked.Full.warpReceive c 65 b (2 ^ 257)
      { s with collateral := [(65, 2 ^ 258)], bal := [(c.warpAddr, 2 ^ 257)], principal := [(c.warpAddr, 2 ^ 257)] }).isOk = false ∧
    (Dollar.warpReceive c 65 b (2 ^ 257)
      { s with collateral := [(65, 2 ^ 258)], bal := [(c.warpAddr, 2 ^ 257)], principal := [(c.warpAddr, 2 ^ 257)] }).isOk = true ∧
    (Checked.Full.claimRewards c pos (2 ^ 220)
      { s with principal := [(c.flexibleAddr, 1)] }).isOk = false ∧
    (Dollar.claimRewards c pos (2 ^ 220)
      { s with principal := [(c.flexibleAddr, 1)] }).isOk = true ∧
    (Checked.Full.unlockFlexible c Demo.aliceS FLEXIBLE pos 1 1
      { s with totalFlexible := -top }).isOk = false ∧
    (Dollar.unlockFlexible c Demo.aliceS FLEXIBLE pos 1 1
      { s with totalFlexible := -top }).isOk = true ∧
    (Checked.Full.unlockOne c Demo.aliceS a STAKED { pos with vault := STAKED } (2 ^ 220)
      { s with bal := [(posAddr c Demo.aliceS STAKED 1, top)], principal := [(posAddr c Demo.aliceS STAKED 1, top)] }).isOk = false ∧
    (Dollar.unlockOne c Demo.aliceS a STAKED { pos with vault := STAKED } (2 ^ 220)
      { s with bal := [(posAddr c Demo.aliceS STAKED 1, top)], principal := [(posAddr c Demo.aliceS STAKED 1, top)] }).isOk = true ∧
    (Checked.Full.unlockInner c Demo.aliceS STAKED (some (2 ^ 200))
      { s with positions := [((a, STAKED, 1), ⟨top, s.index, top, 1⟩), ((a, STAKED, 2), ⟨top, s.index, top, 2⟩)], bal := [(posAddr c Demo.aliceS STAKED 1, top)], principal := [(posAddr c Demo.aliceS STAKED 1, top)] }).isOk = false ∧
    (Dollar.unlockInner c Demo.aliceS STAKED (some (2 ^ 200))
      { s with positions := [((a, STAKED, 1), ⟨top, s.index, top, 1⟩), ((a, STAKED, 2), ⟨top, s.index, top, 2⟩)], bal := [(posAddr c Demo.aliceS STAKED 1, top)], principal := [(posAddr c Demo.aliceS STAKED 1, top)] }).isOk = true := by
  decide +kernel

/-- Only `GetYield` takes an overflow for a number: where `SafeSub` fails the claim is zero, in the checked handlers too. -/
example : Checked.Full.claimable
    { Demo.start with principal := [(Demo.alice, 2 ^ 255)], index := 1, bal := [(Demo.alice, -(2 ^ 256 - 1))] }
    Demo.alice = some 0 := by decide +kernel

end Dollar
