import Verif.Lemmas.Cover
import Verif.Spec.Rounds
import Verif.Props.C54

/-
How far all principals together may fall behind the balances: every message.
-/
set_option linter.unnecessarySeqFocus false
namespace Dollar
open MM Spec

/-- The accounts one withdrawal rounds against. -/
theorem OneOk.covered {c : Cfg} (hc : c.WF) {signer : String} {u : Addr} {v : Int} {p : PosEntry}
    {amt : Int} {R : List Addr} {s s' : State} (hd : c.decode signer = some u) (hpv : p.vault = v)
    (h : OneOk c signer u v p amt s s') (hs : CoveredBy c R s) :
    CoveredBy c ((if v = 2 then [vaultAccount c u v p.time, c.modAddr "dollar/vaults/flexible"]
      else [vaultAccount c u v p.time]) ++ R) s' := by
  have ev : acctOf c u p.vault p.time = vaultAccount c u v p.time := by rw [hpv]; rfl
  cases h with
  | staked m hv ha hm e =>
    rw [posAddr_eq hc hd] at hm
    subst e
    rw [if_neg (show ¬ v = 2 from hv), ← ev]
    exact (hs.moved hm ha (acctOf_ne_yield hc _ _ _) (acctOf_ne_module hc _ _ _)).congr
  | flexible s1 m3 m4 owed y hv hr hy h3 hn h4 e =>
    rw [posAddr_eq hc hd] at h3 h4 hy
    subst e
    rw [if_pos (show v = 2 from hv), ← ev]
    have q1 : CoveredBy c (c.flexibleAddr :: R) s1 := by
      rcases hr.run with ⟨_, _, rfl⟩ | ⟨_, _, _, m, hm, rfl⟩
      · exact CoveredBy.congr (hs.more [_])
      · exact (CoveredBy.moved (s := { { s with totalFlexible := s.totalFlexible - roundedDown amt p.index } with
            rewards := rewardsAfter s.rewards p.index s.index (roundedDown amt p.index) }) hs.congr hm
            hr.nonneg hc.flexible_ne_yield hc.flexible_ne_module).congr
    have hy0 : 0 ≤ y := by rw [hy]; exact claimable_nonneg _ _
    have q2 : CoveredBy c (c.flexibleAddr :: R) m3 := CoveredBy.claimed (s := { s1 with vstats := { s1.vstats with
      flexDistributed := s1.vstats.flexDistributed + owed } }) q1.congr h3 (le_of_eq hy) hy0
    exact (q2.moved h4 hn (acctOf_ne_yield hc _ _ _) (acctOf_ne_module hc _ _ _)).congr

theorem LoopOk.covered {c : Cfg} (hc : c.WF) {signer : String} {u : Addr} {v : Int} {l : List PosEntry}
    {rem removed rem' removed' : Int} {R : List Addr} {s s' : State} (hd : c.decode signer = some u)
    (hpv : ∀ p ∈ l, p.vault = v)
    (h : LoopOk c signer u v l rem removed s rem' removed' s') (hs : CoveredBy c R s) :
    CoveredBy c ((l.flatMap fun p => if v = 2 then [vaultAccount c u v p.time, c.modAddr "dollar/vaults/flexible"]
      else [vaultAccount c u v p.time]) ++ R) s' := by
  induction h generalizing R with
  | nil => exact hs
  | stop => exact hs.more _
  | step p t rem removed s m rem' removed' s' hne _ h1 _ ih =>
    refine (ih (fun q hq => hpv q (List.mem_cons_of_mem _ hq)) (h1.covered hc hd (hpv p List.mem_cons_self) hs)).mono ?_
    intro a
    rw [List.flatMap_cons]
    simp only [List.count_append]
    omega

/-- A multi-send rounds once per output, each time against the sender. -/
theorem MultiMoved.covered {c : Cfg} {x : Addr} {outs : List (Addr × Int)} {s s' : State} {R : List Addr}
    (mm : MultiMoved c s x outs s') (hb' : c.blocked c.moduleAddr = true)
    (hx : x ≠ c.moduleAddr) (h2 : CoveredBy c R s) : CoveredBy c ((outs.map fun _ => x) ++ R) s' := by
  have hi : s'.index = s.index := (congrArg State.index mm.frame :)
  have hno : ∀ o ∈ outs, o.1 ≠ c.moduleAddr := fun o ho e => by
    have := mm.allowed o ho
    rw [e, hb'] at this
    cases this
  rw [List.map_const']
  refine ⟨hi ▸ h2.index, fun a => ?_, ?_, fun a k1 k2 => ?_⟩
  · have hb := mm.bal a
    have := outTo_nonneg mm.pos a
    have := h2.bal a
    have := mm.enough
    split at hb
    · next e => subst e; omega
    · omega
  · rw [mm.prin _ (Ne.symm hx) hno]; exact h2.prin
  · obtain ⟨j1, j2⟩ := outs_rounding h2.index a mm.pos
    have hb := mm.bal a
    have hp := mm.prinEq a
    have hd := h2.debt a k1 k2
    rw [List.count_append, List.count_replicate, hb, hp, hi]
    generalize outTo outs a = A at *
    generalize (outs.map Prod.snd).sum = T at *
    generalize (outs.map fun o => roundedUp o.2 s.index).sum = U at *
    generalize (outs.map fun o => if o.1 = a then roundedUp o.2 s.index else 0).sum = V at *
    by_cases hxa : a = x
    · rw [if_pos hxa, if_pos hxa, if_pos (by simp [hxa])]
      have e1 : SCALE * (s.balance a - T + A) = SCALE * s.balance a - SCALE * T + SCALE * A := by ring
      have e2 : s.index * (s.principalOf a - U + V + ((outs.length + R.count a : Nat) : Int)) =
        s.index * (s.principalOf a + R.count a) - s.index * (U - outs.length) + s.index * V := by push_cast; ring
      omega
    · rw [if_neg hxa, if_neg hxa, if_neg (by simpa using Ne.symm hxa)]
      have e1 : SCALE * (s.balance a - 0 + A) = SCALE * s.balance a + SCALE * A := by ring
      have e2 : s.index * (s.principalOf a - 0 + V + ((0 + R.count a : Nat) : Int)) =
        s.index * (s.principalOf a + R.count a) + s.index * V := by push_cast; ring
      omega

theorem ignored_stale {c : Cfg} {env : Env} {i : Int} {t : State} (h : i ≤ t.index) :
    ignore (updateIndex c env i) t = .ok () t := by
  have : updateIndex c env i t = .err .decreasingIndex t := by
    unfold updateIndex
    simp only [bind_apply, get_apply]
    rw [if_pos h]; rfl
  unfold ignore
  rw [this]

theorem positionsOf_vault {s : State} {u : Addr} {v : Int} {p : PosEntry} (h : p ∈ positionsOf s u v) :
    p.vault = v := by
  unfold positionsOf at h
  obtain ⟨e, _, he⟩ := List.mem_filterMap.mp h
  split at he
  · next hq => injection he with he; rw [← he]; exact hq.2
  · exact absurd he (by simp)

/-- Every message, on success. -/
theorem exec_covered {c : Cfg} (hc : c.WF) {env : Env} {m : Msg} {s s' : State} {R : List Addr}
    (hl : Led c s) (hm : m.SignedByUser c) (h : exec c env m s = .ok () s')
    (hs : CoveredBy c R s) : CoveredBy c (roundedIn c env s m ++ R) s' := by
  have packet : ∀ p b, packetFailed c p b s = .ok () s' →
      CoveredBy c ([c.escrow "transfer" p.channel] ++ R) s' := by
    intro p b h
    obtain ⟨hin, _, m1, hmv, rfl⟩ := packetFailed_ok h
    obtain ⟨h0, _⟩ := hl.good.infl p hin
    have q0 : CoveredBy c R (if ownPacket c p then retryAdded s IBC p.channel p.amount else s) := by
      split <;> exact hs.congr
    exact (q0.moved hmv h0.le (hc.escrow_ne_yield _) (hc.escrow_ne_mod _ _)).congr
  cases m with
  | claimYield signer =>
    obtain ⟨_, b, m, hd, hb, hmv, rfl⟩ := claimYield_ok h
    exact (hs.claimed hmv (le_refl _) (claimable_nonneg s b)).congr
  | setPaused signer p =>
    obtain ⟨_, rfl⟩ := setPaused_ok h
    exact hs.congr
  | setYieldRecipient signer p i r =>
    obtain ⟨_, _, rfl⟩ := setYieldRecipient_ok h
    exact hs.congr
  | deliver vaa =>
    obtain ⟨v, sA, _, _, rfl, hA, hR, hd⟩ := deliver_did hc hl h
    have er : roundedIn c env s (.deliver vaa) = match content env vaa with
      | some (.token _ i r _ _) => r :: if s.index < i then [c.stakedAddr, c.flexibleAddr] else []
      | some (.index ..) => [c.stakedAddr, c.flexibleAddr]
      | none => [] := rfl
    rw [er]
    generalize hq : content env vaa = q at hd
    cases hd with
    | ignored _ hn _ _ _ _ _ _ e =>
      rw [e]; exact CoveredBy.congr (hs.more _)
    | token amount i rcp s1 hup hui hmk =>
      have h1 : CoveredBy c ((if s.index < i then [c.stakedAddr, c.flexibleAddr] else []) ++ R) s1 := by
        split
        · exact (CoveredBy.updateIndex hc env i).ignore.ok hup hs.congr
        · next hi =>
          rw [ignored_stale (by show i ≤ s.index; omega)] at hup
          have e1 := (Res.ok.inj hup).2
          rw [← e1]
          exact hs.congr
      have h2 := CoveredBy.credited h1 hmk.nonneg
      have h3 : CoveredBy c ((if s.index < i then [c.stakedAddr, c.flexibleAddr] else []) ++ R)
          (minted s1 c.moduleAddr amount) := CoveredBy.congr (s := credit s1 c.moduleAddr amount) h2
      exact CoveredBy.congr (h3.issued hc hmk.moved hmk.nonneg)
    | index i m hup e hui _ =>
      have h1 := (CoveredBy.updateIndex hc env i).ok hup (R := R) hs.congr
      rw [e]; exact h1.congr
  | transfer signer amt? ch t r =>
    obtain ⟨amt, _, hk⟩ := transfer_ok h
    obtain ⟨peer, sender, m, _, hd, _, _, hb, e⟩ := hk.run
    obtain ⟨m1, hm1, hle, rfl⟩ := hb.mid
    have hu := hm sender hd
    have e0 : roundedIn c env s (.transfer signer amt? ch t r) = (c.decode signer).toList := rfl
    rw [e0, hd]
    have h1 : CoveredBy c (sender :: R) m1 := CoveredBy.moved (s := { s with nonce := (s.nonce + 1) % 2 ^ 32 })
      hs.congr hm1 hb.nonneg hu.ne_yield hu.ne_module
    rw [e]
    exact CoveredBy.congr (h1.debited hle hb.nonneg)
  | portalSetPaused signer p =>
    obtain ⟨_, _, rfl⟩ := portalSetPaused_ok h
    exact hs.congr
  | setPeer signer ch t mg =>
    obtain ⟨_, _, _, _, _, _, _, _, rfl⟩ := setPeer_ok h
    exact hs.congr
  | setBridgingPath signer ch t b =>
    obtain ⟨_, _, _, _, _, rfl⟩ := setBridgingPath_ok h
    exact hs.congr
  | transferOwnership signer o =>
    obtain ⟨_, _, _, _, rfl⟩ := transferOwnership_ok h
    exact hs.congr
  | lock signer v amt? =>
    obtain ⟨amt, b, _, hk⟩ := lock_ok h
    obtain ⟨m, hmv, rfl⟩ := hk.run
    have hu := hm b hk.dec
    have e0 : roundedIn c env s (.lock signer v amt?) = (c.decode signer).toList := rfl
    rw [e0, hk.dec]
    exact (hs.moved hmv hk.nonneg hu.ne_yield hu.ne_module).congr
  | unlock signer v amt? =>
    obtain ⟨_, _, amt, b, _, hk⟩ := unlock_ok h
    obtain ⟨m, removed, hlp, rfl⟩ := hk.run
    have er : roundedIn c env s (.unlock signer v amt?) = match c.decode signer with
      | some u => (positionsOf s u v).flatMap fun p =>
          if v = 2 then [vaultAccount c u v p.time, c.modAddr "dollar/vaults/flexible"] else [vaultAccount c u v p.time]
      | none => [] := rfl
    rw [er, hk.dec]
    exact (hlp.covered hc hk.dec (fun p hp => positionsOf_vault hp) hs).congr
  | vaultsSetPaused signer p =>
    obtain ⟨_, _, _, rfl⟩ := vaultsSetPaused_ok h
    exact hs.congr
  | bankSend x b amt =>
    have hx : c.IsUser x := hm
    obtain ⟨h0, hb, hmv⟩ := bankSend_ok h
    exact hs.moved hmv h0.le hx.ne_yield hx.ne_module
  | keeperSend x b amt =>
    obtain ⟨h0, hmv⟩ := keeperSend_ok h
    exact hs.moved hmv h0 hm.1.ne_yield hm.1.ne_module
  | bankMultiSend x outs =>
    have hx : c.IsUser x := hm
    have mm := bankMultiSend_ok hc hx.ne_yield hx.ne_module hl.good.index.ne'
      (show bankMultiSend c x outs s = .ok () s' from h)
    exact mm.covered hc.module_blocked hx.ne_module hs
  | ibcTransfer x ch r amt =>
    have hx : c.IsUser x := hm
    obtain ⟨h0, _, m, hmv, rfl⟩ := userIbcTransfer_ok h
    exact (hs.moved hmv h0.le hx.ne_yield hx.ne_module).congr
  | ibcReceive ch r amt =>
    obtain ⟨h0, _, hb, m, hmv, rfl⟩ := ibcReceive_ok h
    exact (hs.moved hmv h0.le (hc.escrow_ne_yield _) (hc.escrow_ne_mod _ _)).congr
  | ibcTimeout p => exact packet p true h
  | ibcAckError p => exact packet p false h
  | ibcAckSuccess p =>
    obtain ⟨_, rfl⟩ := packetAcked_ok h
    exact hs.congr
  | warpCreate t =>
    have h : warpCreate t s = .ok () s' := h
    unfold warpCreate at h
    have h := modify_ok.1 h
    subst h
    split <;> exact hs.congr
  | warpTransfer x t d r amt =>
    have hx : c.IsUser x := hm
    obtain ⟨h0, col, m, hcol, hmv, rfl⟩ := warpSend_ok h
    exact (hs.moved hmv h0.le hx.ne_yield hx.ne_module).congr
  | warpReceive t x amt =>
    obtain ⟨h0, hb, col, hcol, hle, hmv⟩ := warpReceive_ok h
    exact CoveredBy.moved (s := { s with collateral := s.collateral.set t (col - amt) }) hs.congr hmv h0.le
      hc.warp_ne_yield hc.warp_ne_module

theorem step_covered {c : Cfg} (hc : c.WF) {env : Env} {m : Msg} {s : State} {R : List Addr}
    (hl : Led c s) (hm : m.SignedByUser c) (hs : CoveredBy c R s) :
    CoveredBy c ((if (exec c env m s).isOk then roundedIn c env s m else []) ++ R) (step c env m s) := by
  unfold step runTx
  cases hx : exec c env m s with
  | ok u s' => exact exec_covered hc hl hm hx hs
  | err => exact hs
  | panic => exact hs

theorem run_covered {c : Cfg} (hc : c.WF) (h : History) {s : State} {R : List Addr} (hl : Led c s)
    (hsig : History.Signed c h) (hs : CoveredBy c R s) : CoveredBy c (rounded c h s ++ R) (run c h s) := by
  induction h generalizing s R with
  | nil => exact hs
  | cons e t ih =>
    obtain ⟨env, m⟩ := e
    have hm : m.SignedByUser c := hsig (env, m) List.mem_cons_self
    refine (ih (hl.step hc hm) (fun e he => hsig e (List.mem_cons_of_mem _ he))
      (step_covered hc (env := env) hl hm hs)).mono fun a => ?_
    show _ ≤ (_ ++ _ ++ R).count a
    simp only [List.count_append]
    omega

theorem CoveredBy.initial {c : Cfg} {s : State} (h : Initial c s) : CoveredBy c [] s := by
  have hb : ∀ a, s.balance a = 0 := fun a => by unfold State.balance; rw [h.bal]; rfl
  have hp : ∀ a, s.principalOf a = 0 := fun a => by unfold State.principalOf; rw [h.principal]; rfl
  refine ⟨h.index, fun a => (hb a).ge, hp _, fun a _ _ => ?_⟩
  rw [hb, hp]; simp

/-- An upgrade changes nothing that matters here. -/
theorem CoveredBy.upgrade {c : Cfg} {R : List Addr} {s s' : State} (h : CoveredBy c R s) (hu : Upgrade c s s') :
    CoveredBy c R s' := by
  obtain ⟨_, _, _, _, _, _, _, _, _, rfl⟩ := hu.rest
  exact h.congr

/-- Only a portal message touches the minting account, and it leaves it as it found it. -/
theorem exec_module {c : Cfg} (hc : c.WF) {env : Env} {m : Msg} {s s' : State}
    (hl : Led c s) (hm : m.SignedByUser c) (h : exec c env m s = .ok () s') :
    s'.balance c.moduleAddr = s.balance c.moduleAddr := by
  cases hq : m.isPortal with
  | false => exact (exec_quiet hc hl hm hq h).2.module
  | true =>
    cases m with
    | deliver vaa =>
      obtain ⟨v, sA, _, _, rfl, hA, hR, hd⟩ := deliver_did hc hl h
      have nd : ∀ t : State, t.collector = s.collector → ¬ Dist c t c.moduleAddr := by
        intro t ht
        rintro (h | h | h | h | ⟨ch, h⟩)
        · exact hc.staked_ne_module h.symm
        · exact hc.flexible_ne_module h.symm
        · exact hc.warp_ne_module h.symm
        · exact hl.good.collm (ht ▸ h.symm)
        · exact hc.escrow_ne_module ch h.symm
      generalize content env vaa = q at hd
      cases hd with
      | ignored _ hn _ _ _ _ e => unfold State.balance; rw [e]
      | token amount i rcp s1 hup hui hmk =>
        have h1 := (hui.same _ hc.yield_ne_module.symm (nd _ rfl)).1
        have h2 := hmk.moved.bal c.moduleAddr
        rw [if_pos rfl, if_neg (hmk.ne_module hc).symm, minted_balance, if_pos rfl] at h2
        exact (h2.trans (by omega)).trans h1
      | index i m hup e hui _ =>
        have h1 := (hui.same _ hc.yield_ne_module.symm (nd _ rfl)).1
        rw [e]; exact h1
    | transfer signer amt? ch t r =>
      obtain ⟨amt, _, hk⟩ := transfer_ok h
      obtain ⟨peer, sender, m, _, hd, _, _, hb, e⟩ := hk.run
      obtain ⟨m1, hm1, hle, rfl⟩ := hb.mid
      have hu := hm sender hd
      have h1 := hm1.bal c.moduleAddr
      rw [if_neg hu.ne_module.symm, if_pos rfl] at h1
      rw [e]
      show (debit m1 c.moduleAddr amt).balance c.moduleAddr = _
      rw [balance_debit, if_pos rfl, h1]
      show s.balance c.moduleAddr - 0 + amt - amt = _
      omega
    | _ => first | exact absurd hq (by decide) | (exact (exec_quiet hc hl hm (by rfl) h).2.module)

end Dollar
