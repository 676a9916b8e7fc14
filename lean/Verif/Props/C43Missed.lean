import Verif.Lemmas.Missed
import Verif.Spec.Missed
import Verif.Props.C43

/-
C43, how far the holder statistic can be behind: the number of holders each transaction can make it miss.
-/
set_option maxRecDepth 100000
set_option linter.unusedSimpArgs false
namespace Dollar
open Spec MM

/-- The statistic falls behind by at most `k`. -/
structure Miss (c : Cfg) (k : Nat) (s s' : State) : Prop where
  le : HLe c s → HLe c s'
  few : HLe c s → behind c s' ≤ behind c s + k

namespace Miss
variable {c : Cfg} {k l : Nat} {s s' s'' : State}

theorem of_eq (h : heldF s' = heldF s := by rfl) : Miss c k s s' where
  le hs := hs.congr h
  few _ := by
    simp only [heldF, Prod.mk.injEq] at h
    unfold behind
    rw [h.2.2, nz_congr h.1]; omega

theorem trans (h1 : Miss c k s s') (h2 : Miss c l s' s'') : Miss c (k + l) s s'' :=
  ⟨fun h => h2.le (h1.le h), fun h => by have := h1.few h; have := h2.few (h1.le h); omega⟩

theorem cons (h1 : Miss c k s s') (h2 : heldF s'' = heldF s' := by rfl) : Miss c k s s'' :=
  (h1.trans (of_eq (k := 0) h2))

theorem after (h1 : Miss c k s' s'') (h2 : heldF s' = heldF s := by rfl) : Miss c k s s'' := by
  have := (of_eq (c := c) (k := 0) h2).trans h1
  rwa [Nat.zero_add] at this

theorem mono (h : Miss c k s s') (hl : k ≤ l) : Miss c l s s' :=
  ⟨h.le, fun hs => by have := h.few hs; omega⟩

theorem of_moved {a b : Addr} {amt : Int} (h : Moved c s a b amt s') (h0 : 0 ≤ amt)
    (hk : a = c.yieldAddr → s.balance b = 0 → 1 ≤ k) : Miss c k s s' :=
  ⟨fun hs => hs.moved h h0, fun hs => by
    have := h.missed hs.bal h0
    split at this
    · next e => have := hk e.1 e.2.1; omega
    · omega⟩

end Miss

theorem OneOk.miss {c : Cfg} (hc : c.WF) {signer : String} {a : Addr} {v : Int} {p : PosEntry}
    {amt : Int} {k : Nat} {s s' : State} (hd : c.decode signer = some a)
    (hpa : p.address = a) (hu : c.IsUser a) (hf : v = FLEXIBLE → s.balance (flexAcct c a p.time) = 0 → 1 ≤ k)
    (h : OneOk c signer a v p amt s s') : Miss c k s s' := by
  cases h with
  | staked m hv ha hm e =>
    rw [posAddr_eq hc hd] at hm
    subst e
    exact (Miss.of_moved hm ha fun e => absurd e (acctOf_ne_yield hc _ _ _)).cons
  | flexible s1 m3 m4 owed y hv hr hy h3 hn h4 e =>
    rw [posAddr_eq hc hd] at h3 h4 hy
    subst e
    have q1 : Miss c 0 s s1 ∧ s1.balance (flexAcct c a p.time) = s.balance (flexAcct c a p.time) := by
      rcases hr.run with ⟨_, _, rfl⟩ | ⟨_, _, _, m, hm, rfl⟩
      · exact ⟨Miss.of_eq, rfl⟩
      · refine ⟨Miss.after (s' := { { s with totalFlexible := s.totalFlexible - roundedDown amt p.index } with
            rewards := rewardsAfter s.rewards p.index s.index (roundedDown amt p.index) })
            (Miss.of_moved hm hr.nonneg fun e => absurd e hc.flexible_ne_yield).cons, ?_⟩
        show m.balance _ = _
        rw [hm.bal, if_neg (flexAcct_ne_flexible hc _ _), if_neg]
        · simp; rfl
        · rw [hpa]; exact (hu.ne_flexAcct _ _).symm
    have hy0 : 0 ≤ y := by rw [hy]; exact claimable_nonneg _ _
    have q2 : Miss c k s1 m3 := Miss.after (Miss.of_moved h3 hy0 fun _ he => by
      refine hf hv ?_
      rw [← q1.2]
      unfold acctOf at he
      rw [if_pos hv] at he
      exact he)
    have q3 : Miss c 0 m3 m4 := Miss.of_moved h4 hn fun e => absurd e (acctOf_ne_yield hc _ _ _)
    have := q1.1.trans (q2.trans q3)
    rw [Nat.zero_add, Nat.add_zero] at this
    exact this.cons

/-- Positions over nothing. -/
def hollow (v : Int) (l : List PosEntry) : Nat := (l.filter fun p => v = FLEXIBLE ∧ p.amount = 0).length

theorem LoopOk.miss {c : Cfg} (hc : c.WF) {signer : String} {a : Addr} {v : Int} {l : List PosEntry}
    {rem removed rem' removed' : Int} {s s' : State} (hd : c.decode signer = some a)
    (hu : c.IsUser a) (hi : V0 c s) (hp : Pending s a v l) (h0 : 0 ≤ rem)
    (h : LoopOk c signer a v l rem removed s rem' removed' s') : Miss c (hollow v l) s s' := by
  induction h with
  | nil => exact Miss.of_eq
  | stop => exact Miss.of_eq
  | step p t rem removed s m rem' removed' s' hne _ h1 _ ih =>
    have hpa := hp.addr p List.mem_cons_self
    have hpv := hp.vault p List.mem_cons_self
    have hget := hp.stored p List.mem_cons_self
    have ho := hi.entry _ (KV.mem_of_get? hget)
    obtain ⟨b0, b1, b2⟩ := amountToRemove_bounds (p := p) h0 ho.amount
    obtain ⟨g1, g2, g3⟩ := hi.of_one hc hd hu hpa hpv hget b0 b1 h1
    have h2 := ih g1 (hp.tail g2) (by omega)
    have h3 : Miss c (if v = FLEXIBLE ∧ p.amount = 0 then 1 else 0) s m := h1.miss hc hd hpa hu fun hv he => by
      have h2 := hi.flex _ (KV.mem_of_get? hget) (hpv.trans hv)
      have h2 : p.amount ≤ s.balance (flexAcct c p.address p.time) := h2
      have h3 : 0 ≤ p.amount := ho.amount
      rw [hpa] at h2
      rw [if_pos ⟨hv, by omega⟩]
    refine (h3.trans h2).mono ?_
    unfold hollow
    rw [List.filter_cons]
    by_cases e : v = FLEXIBLE ∧ p.amount = 0
    · simp only [e, and_self, decide_true, if_true, List.length_cons]; omega
    · simp only [e, decide_false, Bool.false_eq_true, if_false]; omega

theorem hollow_positionsOf (s : State) (a : Addr) :
    hollow FLEXIBLE (positionsOf s a FLEXIBLE) =
      (s.positions.filter fun e => some e.1.1 = some a ∧ e.1.2.1 = 2 ∧ e.2.amount = 0).length := by
  unfold hollow positionsOf
  simp only [true_and]
  generalize s.positions = l
  induction l with
  | nil => rfl
  | cons e t ih =>
    rw [List.filterMap_cons, List.filter_cons]
    by_cases h : e.1.1 = a ∧ e.1.2.1 = FLEXIBLE
    · have h2 : e.1.2.1 = 2 := h.2
      simp only [if_pos h]
      rw [List.filter_cons]
      by_cases hz : e.2.amount = 0
      · simp only [hz, h.1, h2, and_self, decide_true, if_true, List.length_cons]
        rw [ih]
      · simp only [hz, h.1, h2, and_false, decide_false, Bool.false_eq_true, if_false]
        exact ih
    · simp only [if_neg h]
      have : ¬ (some e.1.1 = some a ∧ e.1.2.1 = 2 ∧ e.2.amount = 0) := fun x => h ⟨Option.some.inj x.1, x.2.1⟩
      simp only [this, decide_false, Bool.false_eq_true, if_false]
      exact ih

/-- Every output of a multi-send misses at most one holder. -/
theorem multiOutputs_miss {c : Cfg} {a : Addr} (ha : a ≠ c.yieldAddr) (ham : a ≠ c.moduleAddr)
    {outs : List (Addr × Int)} (hp : ∀ o ∈ outs, 0 < o.2) {s s' : State} {u : Unit}
    (hi : s.index ≠ 0) (h : multiSendOutputs c a outs s = .ok u s') (hs : ∀ x, 0 ≤ s.balance x) :
    behind c s' ≤ behind c s + outs.length := by
  induction outs generalizing s with
  | nil =>
    obtain ⟨_, rfl⟩ := pure_ok.1 h
    simp
  | cons o t ih =>
    obtain ⟨b, amt⟩ := o
    have hpos := hp _ List.mem_cons_self
    have hpos : 0 < amt := hpos
    unfold multiSendOutputs at h
    simp only [bind_ok] at h
    obtain ⟨_, s1, h1, _, s2, h2, h3⟩ := h
    have hby : b ≠ c.yieldAddr := by
      intro hb
      unfold sendRestriction at h1
      rw [if_neg hpos.ne', if_neg ha, if_pos hb, if_neg ham] at h1
      cases h1
    obtain ⟨s1', h1', r⟩ := restrict_spec c a b amt s hpos.ne' ha hby hi
    rw [h1] at h1'
    cases h1'
    rw [addCoins_eq] at h2
    cases h2
    have hb1 : ∀ x, s1.balance x = s.balance x := fun x => by
      show ((s1.bal).get? x).getD 0 = _
      rw [r.frame]; rfl
    have hi2 : (credit s1 b amt).index ≠ 0 := by
      show s1.index ≠ 0
      rw [r.frame]; exact hi
    have := ih (fun o ho => hp o (List.mem_cons_of_mem _ ho)) hi2 h3
      (fun x => by rw [balance_credit, hb1]; have := hs x; split <;> omega)
    have key : behind c (credit s1 b amt) ≤ behind c s + 1 := by
      unfold behind
      show nz c (credit s1 b amt) - (s1.holders : Int) ≤ _
      rw [nz_credit, hb1, nz_congr (restricted_bal r), r.held]
      have e1 : (s.holders : Int) ≤ heldSender c a (s.balance a) s.holders + 1 := by
        unfold heldSender
        split <;> omega
      generalize heldSender c a (s.balance a) s.holders = k at *
      have hw := hs b
      generalize s.balance b = w at *
      have key2 : (heldRecipient c b w k : Int) = k - ind c b w + ind c b (w + amt) := by
        unfold heldRecipient
        by_cases hc : b ≠ c.moduleAddr ∧ w = 0
        · rw [if_pos hc, hc.2, ind_zero]
          unfold ind
          rw [if_pos ⟨by omega, hby, hc.1⟩]
          push_cast; ring
        · rw [if_neg hc]
          have : ind c b w = ind c b (w + amt) := by
            by_cases hbm : b = c.moduleAddr
            · simp [ind, hbm]
            · have h1 : w ≠ 0 := fun e => hc ⟨hbm, e⟩
              have h2 : w + amt ≠ 0 := by omega
              simp [ind, h1, h2]
          omega
      rw [key2]; omega
    rw [List.length_cons]
    push_cast
    omega

/-- What a transaction can make the statistic miss. -/
theorem exec_miss {c : Cfg} (hc : c.WF) {env : Env} {m : Msg} {s s' : State} (hl : Led c s)
    (hv : VInv c s) (hm : m.SignedByUser c) (h : exec c env m s = .ok () s') :
    Miss c (misses c env s m) s s' := by
  have hcnt := exec_cnt hc hl hv hm h
  have packet : ∀ p b, packetFailed c p b s = .ok () s' → Miss c 0 s s' := by
    intro p b h
    obtain ⟨hin, _, m1, hmv, rfl⟩ := packetFailed_ok h
    obtain ⟨h0, hs⟩ := hl.good.infl p hin
    have q0 : Miss c 0 s (if ownPacket c p then retryAdded s IBC p.channel p.amount else s) := by
      split <;> exact Miss.of_eq
    exact (q0.trans (Miss.of_moved (k := 0) hmv h0.le fun e => absurd e (hc.escrow_ne_yield _))).cons
  have update : ∀ i ar s1, (∃ u, updateIndex c env i { s with archive := ar } = .ok u s1) ∨
      (∃ e, updateIndex c env i { s with archive := ar } = .err e s1) →
      HLe c s → (s.index < i → behind c s1 ≤ behind c s + ((paidByRise c s).filter fun a => s.balance a = 0).length) ∧
        (i ≤ s.index → behind c s1 = behind c s) := by
    intro i ar s1 hup hs
    refine ⟨fun _ => ?_, fun hle => ?_⟩
    · have e1 : (c.stakedAddr :: paidByUpdate c s.recipients) = paidByRise c s := rfl
      have := updateIndex_few hc env i (s := { s with archive := ar })
        (B := behind c s + ((paidByRise c s).filter fun a => s.balance a = 0).length)
        ⟨hs.congr, rfl, by
          show behind c s + (empties (c.stakedAddr :: paidByUpdate c s.recipients) s : Int) ≤ _
          rw [e1]; exact le_refl _⟩
      unfold Res.Ends at this
      have hf : Few c s.recipients (paidByUpdate c s.recipients)
          (behind c s + ((paidByRise c s).filter fun a => s.balance a = 0).length) s1 := by
        rcases hup with ⟨u, h⟩ | ⟨e, h⟩ <;> rw [h] at this <;> exact this
      have := hf.few
      omega
    · have : updateIndex c env i { s with archive := ar } = .err .decreasingIndex { s with archive := ar } := by
        unfold updateIndex
        simp only [bind_apply, get_apply, if_pos hle]
        rfl
      rcases hup with ⟨u, h⟩ | ⟨e, h⟩
      · rw [this] at h; cases h
      · rw [this] at h; cases h; rfl
  cases m with
  | claimYield signer =>
    obtain ⟨_, a, m, hd, hb, hmv, rfl⟩ := claimYield_ok h
    refine (Miss.of_moved hmv (claimable_nonneg s a) fun _ e => ?_).cons
    simp only [misses]
    rw [if_pos ⟨a, hd, e⟩]
  | setPaused signer p =>
    obtain ⟨_, rfl⟩ := setPaused_ok h
    exact Miss.of_eq
  | setYieldRecipient signer p i r =>
    obtain ⟨_, _, rfl⟩ := setYieldRecipient_ok h
    exact Miss.of_eq
  | deliver vaa =>
    refine ⟨hcnt.le, fun hs => ?_⟩
    obtain ⟨v, sA, _, _, rfl, hA, hR, hd⟩ := deliver_did hc hl h
    suffices key : ∀ q, DeliverDid c env { s with archive := s.archive ++ [v.digest] } s' q →
        behind c s' ≤ behind c s +
          ((if above s q then ((paidByRise c s).filter fun a => s.balance a = 0).length else 0 : Nat) : Int) from
      key _ hd
    intro q hd
    cases hd with
    | ignored _ _ _ _ _ _ _ _ e =>
      have e1 : behind c s' = behind c s := by
        unfold behind
        rw [nz_congr (congrArg State.bal e :), (congrArg State.holders e :)]
        exact congrArg (· - _) (nz_congr rfl)
      rw [e1]; omega
    | token amount i rcp s1 hup' hu hmk =>
      have h1 := update i s'.archive s1 (by
        rcases ignore_ok.1 hup' with h | ⟨e, h⟩
        · exact .inl ⟨_, h⟩
        · exact .inr ⟨e, h⟩) hs
      have hs1 : HLe c s1 := (Keeps.ignore (HLe.updateIndex hc env i)).ok hup' hs.congr
      have h2 : behind c (minted s1 c.moduleAddr amount) = behind c s1 := by
        have im : ∀ v, ind c c.moduleAddr v = 0 := fun v => by simp [ind]
        unfold behind
        show nz c (credit s1 c.moduleAddr amount) - (s1.holders : Int) = _
        rw [nz_credit, im, im]; ring
      have hs2 := (cnt_minted (c := c) (e := True) (s := s1) hmk.nonneg).le hs1
      have h3 := hmk.moved.missed hs2.bal hmk.nonneg
      rw [if_neg fun e => hc.yield_ne_module.symm e.1] at h3
      have h4 : behind c s' ≤ behind c (minted s1 c.moduleAddr amount) + 0 := h3
      by_cases hi : s.index < i
      · have := h1.1 hi
        simp only [above, hi, decide_true, if_true]
        omega
      · have := h1.2 (by omega)
        simp only [above, hi, decide_false, Bool.false_eq_true, if_false]
        omega
    | index i m hup' e hu _ =>
      have h1 := update i s'.archive m (.inl ⟨_, hup'⟩) hs
      have h2 : behind c s' = behind c m := by
        unfold behind
        rw [nz_congr (congrArg State.bal e :), (congrArg State.holders e :)]
        exact congrArg (· - _) (nz_congr rfl)
      rw [h2]
      by_cases hi : s.index < i
      · have := h1.1 hi
        simp only [above, hi, decide_true, if_true]
        omega
      · have := h1.2 (by omega)
        simp only [above, hi, decide_false, Bool.false_eq_true, if_false]
        omega
  | transfer signer amt? ch t r =>
    refine ⟨hcnt.le, fun hs => ?_⟩
    obtain ⟨amt, _, hk⟩ := transfer_ok h
    obtain ⟨peer, sender, m, _, hd, _, _, hb, e⟩ := hk.run
    obtain ⟨m1, hm1, hle, rfl⟩ := hb.mid
    have im : ∀ v, ind c c.moduleAddr v = 0 := fun v => by simp [ind]
    have h1 := hm1.missed (by exact hs.bal) hb.nonneg
    rw [if_neg fun e => (hm sender hd).ne_yield e.1] at h1
    have h1 : behind c m1 ≤ behind c s + 0 := h1
    have hn : nz c (debit m1 c.moduleAddr amt) = nz c m1 := by rw [nz_debit, im, im]; ring
    have h2 : behind c s' = behind c m1 := by
      unfold behind
      rw [e]
      show nz c (debit m1 c.moduleAddr amt) - (m1.holders : Int) = _
      rw [hn]
    rw [h2]; omega
  | portalSetPaused signer p =>
    obtain ⟨_, _, rfl⟩ := portalSetPaused_ok h
    exact Miss.of_eq
  | setPeer signer ch t mg =>
    obtain ⟨_, _, _, _, _, _, _, _, rfl⟩ := setPeer_ok h
    exact Miss.of_eq
  | setBridgingPath signer ch t b =>
    obtain ⟨_, _, _, _, _, rfl⟩ := setBridgingPath_ok h
    exact Miss.of_eq
  | transferOwnership signer o =>
    obtain ⟨_, _, _, _, rfl⟩ := transferOwnership_ok h
    exact Miss.of_eq
  | lock signer v amt? =>
    obtain ⟨amt, a, _, hk⟩ := lock_ok h
    obtain ⟨m, hmv, rfl⟩ := hk.run
    exact (Miss.of_moved hmv hk.nonneg fun e => absurd e (hm a hk.dec).ne_yield).cons
  | unlock signer v amt? =>
    obtain ⟨_, _, amt, a, _, hk⟩ := unlock_ok h
    obtain ⟨m, removed, hlp, rfl⟩ := hk.run
    refine ((hlp.miss hc hk.dec (hm a hk.dec) hv.toV0 (pending_positionsOf hv.toV0 a v) hk.pos.le).cons).mono ?_
    simp only [misses]
    by_cases hf : v = FLEXIBLE
    · subst hf
      rw [hollow_positionsOf, if_pos (show FLEXIBLE = 2 from rfl), hk.dec]
    · have : hollow v (positionsOf s a v) = 0 := by
        unfold hollow
        rw [List.length_eq_zero_iff, List.filter_eq_nil_iff]
        intro p _
        simp [hf]
      rw [this]; exact Nat.zero_le _
  | vaultsSetPaused signer p =>
    obtain ⟨_, _, _, rfl⟩ := vaultsSetPaused_ok h
    exact Miss.of_eq
  | bankSend a b amt =>
    obtain ⟨h0, hb, hmv⟩ := bankSend_ok h
    exact Miss.of_moved hmv h0.le fun e => absurd e (Cfg.IsUser.ne_yield hm)
  | keeperSend a b amt =>
    obtain ⟨h0, hmv⟩ := keeperSend_ok h
    exact Miss.of_moved hmv h0 fun e => absurd e (Cfg.IsUser.ne_yield hm.1)
  | bankMultiSend a outs =>
    refine ⟨hcnt.le, fun hs => ?_⟩
    have hu : c.IsUser a := hm
    have hmm := bankMultiSend_ok hc hu.ne_yield hu.ne_module hl.good.index.ne' h
    have h : bankMultiSend c a outs s = .ok () s' := h
    unfold bankMultiSend at h
    rw [ite_ok] at h
    rcases h with ⟨_, h⟩ | ⟨_, h⟩
    · cases h
    rw [ite_ok] at h
    rcases h with ⟨_, h⟩ | ⟨h0, h⟩
    · cases h
    rw [ite_ok] at h
    rcases h with ⟨_, h⟩ | ⟨h1, h⟩
    · cases h
    unfold multiSend at h
    simp only [bind_ok] at h
    obtain ⟨_, s1, h2, h⟩ := h
    rw [subCoins_eq] at h2
    split at h2
    · cases h2
    next hlt =>
    cases h2
    have hT : outs ≠ [] → 0 < (outs.map Prod.snd).sum := by
      intro hne
      cases outs with
      | nil => exact absurd rfl hne
      | cons o t =>
        rw [List.map_cons, List.sum_cons]
        have h1 := hmm.pos o List.mem_cons_self
        have h2 : 0 ≤ (t.map Prod.snd).sum := by
          apply List.sum_nonneg
          intro y hy
          obtain ⟨q, hq, rfl⟩ := List.mem_map.1 hy
          exact (hmm.pos q (List.mem_cons_of_mem _ hq)).le
        omega
    have hbal : ∀ x, 0 ≤ (debit s a (outs.map Prod.snd).sum).balance x := by
      intro x
      rw [balance_debit]
      have := hl.good.bal x
      split
      · next e => subst e; omega
      · omega
    have hda : (debit s a (outs.map Prod.snd).sum).balance a = s.balance a - (outs.map Prod.snd).sum := by
      rw [balance_debit]; simp
    simp only [misses]
    by_cases hz : (outs.map Prod.snd).sum = s.balance a
    · rw [if_pos hz]
      by_cases hne : outs = []
      · subst hne
        obtain ⟨_, rfl⟩ := pure_ok.1 h
        have : behind c (debit s a (([] : List (Addr × Int)).map Prod.snd).sum) = behind c s := by
          unfold behind
          rw [nz_debit]
          show _ - (s.holders : Int) = _
          simp
        rw [this]; simp
      · have := multiOutputs_miss hu.ne_yield hu.ne_module hmm.pos
          (s := debit s a (outs.map Prod.snd).sum) hl.good.index.ne' h hbal
        have hpos := hT hne
        have e1 : ind c a (s.balance a) = 1 := by
          unfold ind; rw [if_pos ⟨by omega, hu.ne_yield, hu.ne_module⟩]
        have h2 : behind c (debit s a (outs.map Prod.snd).sum) = behind c s - 1 := by
          unfold behind
          rw [nz_debit, e1, hz, sub_self, ind_zero]
          show _ - (s.holders : Int) = _
          ring
        have : 0 < outs.length := List.length_pos_iff.2 hne
        omega
    · rw [if_neg hz]
      have hz : s.balance a - (outs.map Prod.snd).sum ≠ 0 := by omega
      have := multiOutputs_eq hu.ne_yield hu.ne_module hmm.pos
        (s := debit s a (outs.map Prod.snd).sum) hl.good.index.ne' h hbal (by rw [hda]; exact hz)
      rw [nz_debit] at this
      have this : (s'.holders : Int) - nz c s' = s.holders - (nz c s - ind c a (s.balance a) +
        ind c a (s.balance a - (outs.map Prod.snd).sum)) := this
      have : ind c a (s.balance a) = ind c a (s.balance a - (outs.map Prod.snd).sum) := by
        by_cases hne : outs = []
        · subst hne; simp
        have := hT hne
        have h1 : s.balance a ≠ 0 := by omega
        simp [ind, hz, h1]
      unfold behind
      omega
  | ibcTransfer a ch r amt =>
    obtain ⟨h0, _, m, hmv, rfl⟩ := userIbcTransfer_ok h
    exact (Miss.of_moved hmv h0.le fun e => absurd e (Cfg.IsUser.ne_yield hm)).cons
  | ibcReceive ch r amt =>
    obtain ⟨h0, _, hb, m, hmv, rfl⟩ := ibcReceive_ok h
    exact (Miss.of_moved hmv h0.le fun e => absurd e (hc.escrow_ne_yield _)).cons
  | ibcTimeout p => exact packet p true h
  | ibcAckError p => exact packet p false h
  | ibcAckSuccess p =>
    obtain ⟨_, rfl⟩ := packetAcked_ok h
    exact Miss.of_eq
  | warpCreate t =>
    have h : warpCreate t s = .ok () s' := h
    unfold warpCreate at h
    have h := modify_ok.1 h
    subst h
    split <;> exact Miss.of_eq
  | warpTransfer a t d r amt =>
    obtain ⟨h0, col, m, hcol, hmv, rfl⟩ := warpSend_ok h
    exact (Miss.of_moved hmv h0.le fun e => absurd e (Cfg.IsUser.ne_yield hm)).cons
  | warpReceive t a amt =>
    obtain ⟨h0, hb, col, hcol, hle, hmv⟩ := warpReceive_ok h
    exact Miss.after (s' := { s with collateral := s.collateral.set t (col - amt) })
      (Miss.of_moved hmv h0.le fun e => absurd e hc.warp_ne_yield)

/-- The number of holders exceeds the statistic by no more than before the history plus what its transactions can make
the statistic miss.  With `C43_never_overcounts` the statistic is exact after every history that misses nothing. -/
theorem C43_missed_partial {c : Cfg} (hc : c.WF) {s : State} (hr : Reachable c s) {h : History}
    (hsig : History.Signed c h) :
    holdersOf c (run c h s) + s.holders ≤ (run c h s).holders + holdersOf c s + missedIn c h s := by
  induction h generalizing s with
  | nil => exact le_of_eq (by simp only [run, missedIn]; ring)
  | cons e t ih =>
    obtain ⟨env, m⟩ := e
    have hm : m.SignedByUser c := hsig (env, m) List.mem_cons_self
    have h1 := ih (hr.step (env := env) hm) fun x hx => hsig x (List.mem_cons_of_mem _ hx)
    have h2 : holdersOf c (step c env m s) + s.holders ≤
        (step c env m s).holders + holdersOf c s + misses c env s m := by
      have hl := hr.led hc
      have h0 := C43_never_overcounts hc hr
      unfold step runTx
      generalize he : exec c env m s = q
      cases q with
      | ok u s' =>
        have := (exec_miss hc hl (hr.vinv hc) hm he).few (hl.hle (by rw [nz_eq_holdersOf]; exact_mod_cast h0))
        unfold behind at this
        rw [nz_eq_holdersOf, nz_eq_holdersOf] at this
        show holdersOf c s' + s.holders ≤ s'.holders + holdersOf c s + misses c env s m
        omega
      | err =>
        show holdersOf c s + s.holders ≤ s.holders + holdersOf c s + misses c env s m
        omega
      | panic =>
        show holdersOf c s + s.holders ≤ s.holders + holdersOf c s + misses c env s m
        omega
    simp only [run, missedIn]
    omega

/-- On a fresh chain: the statistic is behind by at most the number of holders missed so far. -/
theorem C43_missed_fresh_partial {c : Cfg} (hc : c.WF) {s0 : State} (h0 : Initial c s0) {h : History}
    (hsig : History.Signed c h) :
    (run c h s0).holders ≤ holdersOf c (run c h s0) ∧
      holdersOf c (run c h s0) ≤ (run c h s0).holders + missedIn c h s0 := by
  refine ⟨C43_never_overcounts hc (.of_run h0 hsig), ?_⟩
  have h1 := C43_missed_partial hc (.fresh h0) hsig
  have h2 : holdersOf c s0 = 0 := by unfold holdersOf; rw [h0.bal]; rfl
  omega

/-- The bound is attained: the multi-send of `C43_not_exact` misses one holder. -/
example : missedIn Demo.cfg Demo.histMulti Demo.start = 1 ∧
    holdersOf Demo.cfg (run Demo.cfg Demo.histMulti Demo.start) =
      (run Demo.cfg Demo.histMulti Demo.start).holders + 1 := by decide +kernel

/-- The whole demo history: what is missed, and what its bound is. -/
example : holdersOf Demo.cfg (run Demo.cfg Demo.hist1 Demo.start) ≤
    (run Demo.cfg Demo.hist1 Demo.start).holders + missedIn Demo.cfg Demo.hist1 Demo.start :=
  (C43_missed_fresh_partial Demo.cfg_wf Demo.start_initial Demo.hist1_signed).2

end Dollar
