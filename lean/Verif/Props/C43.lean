import Verif.Lemmas.Holders
import Verif.Spec.Views
import Verif.Spec.Demo

/-
C43: the holder statistic equals the number of accounts with a balance - false, with the exact
direction of the error and the transactions that can cause it.
-/
set_option maxRecDepth 100000
namespace Dollar
open Spec MM

/-- Number of accounts with a non-zero balance, not counting the two accounts of the module itself
(the yield account and the account coins are minted to). -/
def Spec.holdersOf (c : Cfg) (s : State) : Nat :=
  (s.bal.filter fun e => e.2 ≠ 0 ∧ e.1 ≠ c.yieldAddr ∧ e.1 ≠ c.moduleAddr).length

/-- The full claim. -/
def Spec.HoldersExact : Prop := ∀ (c : Cfg), c.WF → ∀ s, Reachable c s → s.holders = holdersOf c s

/-- Transactions that keep the statistic exact: all, except
* a multi-send to several outputs that empties the sender,
* a yield claim by an account without coins,
* an unlock of a flexible position over nothing,
* a delivery that raises the index (it pays yield to module and escrow accounts). -/
def Spec.CountsExactly (c : Cfg) (env : Env) (s : State) : Msg → Prop
  | .bankMultiSend a outs => (outs.map Prod.snd).sum < s.balance a ∨ outs.length ≤ 1
  | .claimYield signer => ∀ a, c.decode signer = some a → s.balance a ≠ 0
  | .unlock signer v _ => v = FLEXIBLE → ∀ a, c.decode signer = some a →
      ∀ e ∈ s.positions, e.1.1 = a → e.1.2.1 = FLEXIBLE → 0 < e.2.amount
  | .deliver vaa => match content env vaa with
      | some (.token _ i _ _ _) => i ≤ s.index
      | some (.index i _) => i ≤ s.index
      | none => True
  | _ => True

theorem nz_eq_holdersOf (c : Cfg) (s : State) : nz c s = (holdersOf c s : Int) := by
  unfold nz holdersOf KV.sum
  induction s.bal with
  | nil => rfl
  | cons e t ih =>
    rw [List.map_cons, List.sum_cons, ih]
    by_cases h : e.2 ≠ 0 ∧ e.1 ≠ c.yieldAddr ∧ e.1 ≠ c.moduleAddr
    · rw [List.filter_cons_of_pos (by simpa using h)]
      simp only [ind, if_pos h, List.length_cons]
      push_cast; ring
    · rw [List.filter_cons_of_neg (by simpa using h)]
      simp only [ind, if_neg h]
      ring

theorem Led.hle {c : Cfg} {s : State} (hl : Led c s) (h : (s.holders : Int) ≤ nz c s) : HLe c s :=
  ⟨hl.good.bal, hl.good.coll, h⟩

theorem updateIndex_stale {c : Cfg} {env : Env} {i : Int} {s : State} (h : i ≤ s.index) :
    ignore (updateIndex c env i) s = .ok () s ∧ ∀ u s', updateIndex c env i s ≠ .ok u s' := by
  have : updateIndex c env i s = .err .decreasingIndex s := by
    unfold updateIndex
    simp only [bind_apply, get_apply, if_pos h]
    rfl
  refine ⟨?_, fun u s' e => ?_⟩
  · unfold ignore; rw [this]
  · rw [this] at e; cases e

theorem cnt_minted {c : Cfg} {e : Prop} {s : State} {amt : Int} (h0 : 0 ≤ amt) :
    Cnt c e s (minted s c.moduleAddr amt) := by
  have im : ∀ v, ind c c.moduleAddr v = 0 := fun v => by simp [ind]
  have hn : nz c (minted s c.moduleAddr amt) = nz c s := by
    show nz c (credit s c.moduleAddr amt) = _
    rw [nz_credit, im, im]; ring
  refine ⟨fun hs => ⟨fun x => ?_, hs.coll, ?_⟩, fun _ _ h => ?_⟩
  · rw [minted_balance]
    have := hs.bal x
    split <;> omega
  · rw [hn]; exact hs.le
  · rw [hn]; exact h

/-- Effect of every transaction on the holder statistic. -/
theorem exec_cnt {c : Cfg} (hc : c.WF) {env : Env} {m : Msg} {s s' : State} (hl : Led c s)
    (hv : VInv c s) (hm : m.SignedByUser c) (h : exec c env m s = .ok () s') :
    Cnt c (CountsExactly c env s m) s s' := by
  have packet : ∀ p b, packetFailed c p b s = .ok () s' → Cnt c (CountsExactly c env s m) s s' := by
    intro p b h
    obtain ⟨hin, _, m1, hmv, rfl⟩ := packetFailed_ok h
    obtain ⟨h0, hs⟩ := hl.good.infl p hin
    have q0 : Cnt c (CountsExactly c env s m) s
        (if ownPacket c p then retryAdded s IBC p.channel p.amount else s) := by
      split <;> exact Cnt.of_eq
    exact (q0.trans (Cnt.of_moved hmv h0.le fun _ => .inl (hc.escrow_ne_yield _))).trans Cnt.of_eq
  cases m with
  | claimYield signer =>
    obtain ⟨_, a, m, hd, hb, hmv, rfl⟩ := claimYield_ok h
    exact (Cnt.of_moved hmv (claimable_nonneg s a) fun he => .inr (.inl (he a hd))).trans Cnt.of_eq
  | setPaused signer p =>
    obtain ⟨_, rfl⟩ := setPaused_ok h
    exact Cnt.of_eq
  | setYieldRecipient signer p i r =>
    obtain ⟨_, _, rfl⟩ := setYieldRecipient_ok h
    exact Cnt.of_eq
  | deliver vaa =>
    have hup : ∀ i, Keeps (HLe c) (updateIndex c env i) := HLe.updateIndex hc env
    obtain ⟨v, sA, _, _, rfl, hA, hR, hd⟩ := deliver_did hc hl h
    have e0 : Cnt c (CountsExactly c env s (.deliver vaa)) s { s with archive := s.archive ++ [v.digest] } :=
      Cnt.of_eq
    generalize hq : content env vaa = q at hd
    cases hd with
    | ignored _ _ _ _ _ _ _ _ e => exact e0.trans (by rw [e]; exact Cnt.of_eq)
    | token amount i rcp s1 hup' hu hmk =>
      have e1 : Cnt c (CountsExactly c env s (.deliver vaa)) { s with archive := s'.archive } s1 := by
        refine ⟨fun hs => (Keeps.ignore (hup i)).ok hup' hs, fun he _ hn => ?_⟩
        have he : i ≤ s.index := by simpa only [CountsExactly, hq] using he
        rw [(updateIndex_stale (s := { s with archive := s'.archive }) he).1] at hup'
        cases hup'
        exact hn
      have e2 := (cnt_minted (c := c) (e := CountsExactly c env s (.deliver vaa)) (s := s1) hmk.nonneg).trans
        (Cnt.of_moved hmk.moved hmk.nonneg fun _ => .inl hc.yield_ne_module.symm)
      have e3 : Cnt c (CountsExactly c env s (.deliver vaa)) s { s with archive := s'.archive } := Cnt.of_eq
      exact (e3.trans (e1.trans e2)).trans Cnt.of_eq
    | index i m hup' e hu _ =>
      have e1 : Cnt c (CountsExactly c env s (.deliver vaa)) { s with archive := s'.archive } m := by
        refine ⟨fun hs => (hup i).ok hup' hs, fun he _ hn => ?_⟩
        have he : i ≤ s.index := by simpa only [CountsExactly, hq] using he
        exact absurd hup' ((updateIndex_stale (s := { s with archive := s'.archive }) he).2 _ _)
      have e3 : Cnt c (CountsExactly c env s (.deliver vaa)) s { s with archive := s'.archive } := Cnt.of_eq
      exact (e3.trans e1).trans (by rw [e]; exact Cnt.of_eq)
  | transfer signer amt? ch t r =>
    obtain ⟨amt, _, hk⟩ := transfer_ok h
    obtain ⟨peer, sender, m, _, hd, _, _, hb, e⟩ := hk.run
    obtain ⟨m1, hm1, hle, rfl⟩ := hb.mid
    have im : ∀ v, ind c c.moduleAddr v = 0 := fun v => by simp [ind]
    have e1 : Cnt c (CountsExactly c env s (.transfer signer amt? ch t r)) s m1 :=
      Cnt.trans (s' := { s with nonce := (s.nonce + 1) % 2 ^ 32 }) Cnt.of_eq
        (Cnt.of_moved hm1 hb.nonneg fun _ => .inl (hm sender hd).ne_yield)
    have hn : nz c (debit m1 c.moduleAddr amt) = nz c m1 := by rw [nz_debit, im, im]; ring
    have e2 : Cnt c (CountsExactly c env s (.transfer signer amt? ch t r)) m1
        { debit m1 c.moduleAddr amt with supply := m1.supply - amt } := by
      refine ⟨fun hs => ⟨fun x => ?_, hs.coll, ?_⟩, fun _ _ h => ?_⟩
      · show 0 ≤ (debit m1 c.moduleAddr amt).balance x
        rw [balance_debit]
        have := hs.bal x
        split
        · next e => subst e; omega
        · omega
      · show (m1.holders : Int) ≤ nz c (debit m1 c.moduleAddr amt)
        rw [hn]; exact hs.le
      · show (m1.holders : Int) = nz c (debit m1 c.moduleAddr amt)
        rw [hn]; exact h
    rw [e]
    exact (e1.trans e2).trans Cnt.of_eq
  | portalSetPaused signer p =>
    obtain ⟨_, _, rfl⟩ := portalSetPaused_ok h
    exact Cnt.of_eq
  | setPeer signer ch t mg =>
    obtain ⟨_, _, _, _, _, _, _, _, rfl⟩ := setPeer_ok h
    exact Cnt.of_eq
  | setBridgingPath signer ch t b =>
    obtain ⟨_, _, _, _, _, rfl⟩ := setBridgingPath_ok h
    exact Cnt.of_eq
  | transferOwnership signer o =>
    obtain ⟨_, _, _, _, rfl⟩ := transferOwnership_ok h
    exact Cnt.of_eq
  | lock signer v amt? =>
    obtain ⟨amt, a, _, hk⟩ := lock_ok h
    obtain ⟨m, hmv, rfl⟩ := hk.run
    exact (Cnt.of_moved hmv hk.nonneg fun _ => .inl (hm a hk.dec).ne_yield).trans Cnt.of_eq
  | unlock signer v amt? =>
    obtain ⟨_, _, amt, a, _, hk⟩ := unlock_ok h
    obtain ⟨m, removed, hlp, rfl⟩ := hk.run
    refine (hlp.cnt hc hk.dec (hm a hk.dec) hv.toV0 (pending_positionsOf hv.toV0 a v) hk.pos.le ?_).trans Cnt.of_eq
    intro he hf p hp
    have hst := (pending_positionsOf hv.toV0 a v).stored p hp
    have := (pending_positionsOf hv.toV0 a v).addr p hp
    have := (pending_positionsOf hv.toV0 a v).vault p hp
    exact he hf a hk.dec _ (KV.mem_of_get? hst) (by assumption) (by subst hf; assumption)
  | vaultsSetPaused signer p =>
    obtain ⟨_, _, _, rfl⟩ := vaultsSetPaused_ok h
    exact Cnt.of_eq
  | bankSend a b amt =>
    obtain ⟨h0, hb, hmv⟩ := bankSend_ok h
    exact Cnt.of_moved hmv h0.le fun _ => .inl (Cfg.IsUser.ne_yield hm)
  | keeperSend a b amt =>
    obtain ⟨h0, hmv⟩ := keeperSend_ok h
    exact Cnt.of_moved hmv h0 fun _ => .inl (Cfg.IsUser.ne_yield hm.1)
  | bankMultiSend a outs =>
    have hu : c.IsUser a := hm
    have hmm := bankMultiSend_ok hc hu.ne_yield hu.ne_module hl.good.index.ne' h
    have hl' := (exec_quiet hc (env := env) (m := .bankMultiSend a outs) hl hm rfl h).1
    have h : bankMultiSend c a outs s = .ok () s' := h
    unfold bankMultiSend at h
    rw [ite_ok] at h
    rcases h with ⟨_, h⟩ | ⟨_, h⟩
    · cases h
    rw [ite_ok] at h
    rcases h with ⟨_, h⟩ | ⟨h0, h⟩
    · cases h
    rw [ite_ok] at h
    rcases h with ⟨_, h⟩ | ⟨h1, h⟩
    · cases h
    have hfull := h
    unfold multiSend at h
    simp only [bind_ok] at h
    obtain ⟨_, s1, h2, h⟩ := h
    rw [subCoins_eq] at h2
    split at h2
    · cases h2
    next hlt =>
    cases h2
    have hT : outs ≠ [] → 0 < (outs.map Prod.snd).sum := by
      intro hne
      cases outs with
      | nil => exact absurd rfl hne
      | cons o t =>
        rw [List.map_cons, List.sum_cons]
        have h1 := hmm.pos o List.mem_cons_self
        have h2 : 0 ≤ (t.map Prod.snd).sum := by
          apply List.sum_nonneg
          intro y hy
          obtain ⟨q, hq, rfl⟩ := List.mem_map.1 hy
          exact (hmm.pos q (List.mem_cons_of_mem _ hq)).le
        omega
    have hbal : ∀ x, 0 ≤ (debit s a (outs.map Prod.snd).sum).balance x := by
      intro x
      rw [balance_debit]
      have := hl.good.bal x
      split
      · next e => subst e; omega
      · omega
    have hda : (debit s a (outs.map Prod.snd).sum).balance a = s.balance a - (outs.map Prod.snd).sum := by
      rw [balance_debit]; simp
    refine ⟨fun hs => hl'.hle ?_, fun he hs hn => ?_⟩
    · refine multiOutputs_le hu.ne_yield hu.ne_module hmm.pos
          (s := debit s a (outs.map Prod.snd).sum) hl.good.index.ne' h hbal ?_
      show (s.holders : Int) ≤ _
      rw [nz_debit, hda]
      have := hs.le
      by_cases hne : outs = []
      · subst hne; simpa using this
      have := hT hne
      by_cases hz : s.balance a - (outs.map Prod.snd).sum = 0
      · rw [if_pos ⟨hz, hne⟩, hz, ind_zero]
        have : ind c a (s.balance a) ≤ 1 := by unfold ind; split <;> omega
        omega
      · rw [if_neg fun h => hz h.1]
        have h1 : s.balance a ≠ 0 := by omega
        have : ind c a (s.balance a) = ind c a (s.balance a - (outs.map Prod.snd).sum) := by
          simp [ind, hz, h1]
        omega
    · by_cases hz : s.balance a = (outs.map Prod.snd).sum
      · have he : outs.length ≤ 1 := he.resolve_left (by omega)
        cases outs with
        | nil =>
          obtain ⟨_, rfl⟩ := pure_ok.1 h
          show (s.holders : Int) = _
          rw [nz_debit]; simp [hn]
        | cons o t =>
          cases t with
          | cons => simp at he
          | nil =>
            have h1 := hmm.pos o List.mem_cons_self
            have hsend : sendCoins c a o.1 o.2 s = .ok () s' := by
              unfold sendCoins
              rw [if_neg h1.ne']
              unfold multiSend multiSendOutputs multiSendOutputs at hfull
              simp only [List.map_cons, List.map_nil, List.sum_cons, List.sum_nil, add_zero, bind_ok,
                pure_ok] at hfull ⊢
              obtain ⟨_, s1, g1, _, s2, g2, _, s3, g3, _, rfl⟩ := hfull
              exact ⟨_, s1, g1, _, s2, g2, g3⟩
            exact ((sendCoins_ok hsend).count hs.bal h1.le).2 (.inl hu.ne_yield) hn
      · have hz : s.balance a - (outs.map Prod.snd).sum ≠ 0 := by omega
        have := multiOutputs_eq hu.ne_yield hu.ne_module hmm.pos
          (s := debit s a (outs.map Prod.snd).sum) hl.good.index.ne' h hbal (by rw [hda]; exact hz)
        rw [nz_debit] at this
        have this : (s'.holders : Int) - nz c s' = s.holders - (nz c s - ind c a (s.balance a) +
          ind c a (s.balance a - (outs.map Prod.snd).sum)) := this
        have : ind c a (s.balance a) = ind c a (s.balance a - (outs.map Prod.snd).sum) := by
          by_cases hne : outs = []
          · subst hne; simp
          have := hT hne
          have h1 : s.balance a ≠ 0 := by omega
          simp [ind, hz, h1]
        omega
  | ibcTransfer a ch r amt =>
    obtain ⟨h0, _, m, hmv, rfl⟩ := userIbcTransfer_ok h
    exact (Cnt.of_moved hmv h0.le fun _ => .inl (Cfg.IsUser.ne_yield hm)).trans Cnt.of_eq
  | ibcReceive ch r amt =>
    obtain ⟨h0, _, hb, m, hmv, rfl⟩ := ibcReceive_ok h
    exact (Cnt.of_moved hmv h0.le fun _ => .inl (hc.escrow_ne_yield _)).trans Cnt.of_eq
  | ibcTimeout p => exact packet p true h
  | ibcAckError p => exact packet p false h
  | ibcAckSuccess p =>
    obtain ⟨_, rfl⟩ := packetAcked_ok h
    exact Cnt.of_eq
  | warpCreate t =>
    have h : warpCreate t s = .ok () s' := h
    unfold warpCreate at h
    have h := modify_ok.1 h
    subst h
    split <;> exact Cnt.of_eq
  | warpTransfer a t d r amt =>
    obtain ⟨h0, col, m, hcol, hmv, rfl⟩ := warpSend_ok h
    exact (Cnt.of_moved hmv h0.le fun _ => .inl (Cfg.IsUser.ne_yield hm)).trans Cnt.of_eq
  | warpReceive t a amt =>
    obtain ⟨h0, hb, col, hcol, hle, hmv⟩ := warpReceive_ok h
    exact Cnt.trans (s' := { s with collateral := s.collateral.set t (col - amt) }) Cnt.of_eq
      (Cnt.of_moved hmv h0.le fun _ => .inl hc.warp_ne_yield)

/-- The statistic never exceeds the number of accounts with a balance, after any history. -/
theorem C43_never_overcounts {c : Cfg} (hc : c.WF) {s : State} (h : Reachable c s) :
    s.holders ≤ holdersOf c s := by
  have := Reachable.induct (P := fun s => Led c s ∧ VInv c s ∧ (s.holders : Int) ≤ nz c s)
    (fun s h => ⟨Led.initial h, VInv.initial h, by
      rw [h.holders]; exact nz_nonneg c s⟩)
    (fun s env m hl hm => ⟨hl.1.step hc hm, hl.2.1.step hc hl.1 hm, by
      unfold step runTx
      generalize hr : exec c env m s = r
      cases r with
      | ok u s' => exact ((exec_cnt hc hl.1 hl.2.1 hm hr).le (hl.1.hle hl.2.2)).le
      | err => exact hl.2.2
      | panic => exact hl.2.2⟩)
    (fun s s' hl hu => ⟨hl.1.upgrade hu, hl.2.1.upgrade hu, by
      obtain ⟨⟨_, _, _, _, _, _, _, _, _, rfl⟩, _⟩ := hu
      exact hl.2.2⟩) h
  have := this.2.2
  rw [nz_eq_holdersOf] at this
  exact_mod_cast this

/-- A transaction of any kind not listed as an exception keeps the statistic exact.  The full claim
(no exceptions) is false, see `C43_not_exact`. -/
theorem C43_exact_partial {c : Cfg} (hc : c.WF) {env : Env} {m : Msg} {s : State} (h : Reachable c s)
    (hm : m.SignedByUser c) (he : CountsExactly c env s m) (hs : s.holders = holdersOf c s) :
    (step c env m s).holders = holdersOf c (step c env m s) := by
  have hl := h.led hc
  have hn : (s.holders : Int) = nz c s := by rw [nz_eq_holdersOf, hs]
  unfold step runTx
  generalize hr : exec c env m s = r
  cases r with
  | ok u s' =>
    have := (exec_cnt hc hl (h.vinv hc) hm hr).eq he (hl.hle hn.le) hn
    rw [nz_eq_holdersOf] at this
    exact_mod_cast this
  | err => exact hs
  | panic => exact hs

/-- Hence the statistic is exact after every history without an exceptional transaction. -/
theorem C43_exact_history_partial {c : Cfg} (hc : c.WF) {s0 : State} (h0 : Initial c s0) {h : History}
    (hsig : History.Signed c h)
    (he : ∀ pre env m post, h = pre ++ (env, m) :: post → CountsExactly c env (run c pre s0) m) :
    (run c h s0).holders = holdersOf c (run c h s0) := by
  have key : ∀ post pre, h = pre ++ post → (run c pre s0).holders = holdersOf c (run c pre s0) →
      (run c h s0).holders = holdersOf c (run c h s0) := by
    intro post
    induction post with
    | nil =>
      intro pre e hp
      rw [e, List.append_nil]; exact hp
    | cons x t ih =>
      intro pre e hp
      obtain ⟨env, m⟩ := x
      refine ih (pre ++ [(env, m)]) (by rw [e]; simp) ?_
      rw [run_append]
      refine C43_exact_partial hc (.of_run h0 fun x hx => hsig x ?_) (hsig (env, m) ?_)
        (he pre env m t e) hp
      · rw [e]; exact List.mem_append_left _ hx
      · rw [e]; exact List.mem_append_right _ List.mem_cons_self
  refine key h [] rfl ?_
  show s0.holders = holdersOf c s0
  unfold holdersOf
  rw [h0.holders, h0.bal]
  rfl

/-! ### Witnesses -/

/-- Alice receives everything and sends it on to two accounts in one multi-send. -/
def Demo.histMulti : History :=
  [(Demo.env 1, .deliver [1]),
   (Demo.env 2, .bankMultiSend Demo.alice [(Demo.bob, 4000000), (Demo.collector, 6000000)])]

theorem Demo.histMulti_signed : History.Signed Demo.cfg Demo.histMulti := by
  intro e he
  simp only [histMulti, List.mem_cons, List.not_mem_nil, or_false] at he
  rcases he with rfl | rfl
  · trivial
  · exact alice_user

/-- The full claim is false: after the multi-send two accounts hold coins and the statistic is 1. -/
theorem C43_not_exact : ¬ HoldersExact := by
  intro h
  have := h Demo.cfg Demo.cfg_wf (run Demo.cfg Demo.histMulti Demo.start)
    (.of_run Demo.start_initial Demo.histMulti_signed)
  exact absurd this (by decide +kernel)

example : (run Demo.cfg Demo.histMulti Demo.start).holders = 1 ∧
    holdersOf Demo.cfg (run Demo.cfg Demo.histMulti Demo.start) = 2 := by decide +kernel

/-- Non-vacuity of the partial theorems: after the first delivery the statistic is exact, and a
multi-send that leaves coins with the sender keeps it so. -/
example : (step Demo.cfg (Demo.env 2)
      (.bankMultiSend Demo.alice [(Demo.bob, 4000000), (Demo.collector, 5000000)])
      (run Demo.cfg (Demo.hist1.take 1) Demo.start)).holders =
    holdersOf Demo.cfg (step Demo.cfg (Demo.env 2)
      (.bankMultiSend Demo.alice [(Demo.bob, 4000000), (Demo.collector, 5000000)])
      (run Demo.cfg (Demo.hist1.take 1) Demo.start)) :=
  C43_exact_partial Demo.cfg_wf (Demo.reach_take 1) Demo.alice_user (.inl (by decide +kernel))
    (by decide +kernel)

example : (step Demo.cfg (Demo.env 2)
      (.bankMultiSend Demo.alice [(Demo.bob, 4000000), (Demo.collector, 5000000)])
      (run Demo.cfg (Demo.hist1.take 1) Demo.start)).holders = 3 := by decide +kernel

/-- Six transactions of the demo history: deliveries, locks and an IBC transfer; five holders. -/
example : (run Demo.cfg (Demo.hist1.take 6) Demo.start).holders = 5 ∧
    holdersOf Demo.cfg (run Demo.cfg (Demo.hist1.take 6) Demo.start) = 5 := by decide +kernel

end Dollar
