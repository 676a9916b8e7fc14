import Verif.Lemmas.RNN
import Verif.Lemmas.VPay
import Verif.Lemmas.Settings

/-
Helper lemmas for C78: `endVaultsSeasonOne` as a sequence of full unlocks.
-/
namespace Dollar
open MM Spec

/-- A flexible withdrawal leaves the claimable yield of uninvolved accounts alone and takes the position's yield
out of the yield account. -/
theorem OneOk.claimable_else {c : Cfg} (hc : c.WF) {signer : String} {a : Addr} {p : PosEntry}
    {v amt : Int} {s s' : State} (hd : c.decode signer = some a) (hu : c.IsUser a) (hv : v = FLEXIBLE)
    (hpa : p.address = a) (hpv : p.vault = v) (hk : OneOk c signer a v p amt s s') :
    (∀ x, x ≠ a → x ≠ c.flexibleAddr → x ≠ c.yieldAddr → x ≠ flexAcct c a p.time →
      claimable s' x = claimable s x) ∧
    s'.balance c.yieldAddr = s.balance c.yieldAddr - claimable s (flexAcct c a p.time) := by
  cases hk with
  | staked _ hn => exact absurd hv hn
  | flexible s1 m3 m4 owed y _ hr hy h3 hn h4 e =>
    rw [posAddr_eq hc hd] at h3 h4 hy
    have eacct : ∀ t, acctOf c a v t = flexAcct c a t := by
      intro t; unfold acctOf; rw [if_pos hv]
    rw [eacct] at h3 hy
    rw [hpv, eacct] at h4
    have n1 : flexAcct c a p.time ≠ a := VaultAcct.ne_user (.inr (.inr ⟨_, _, rfl⟩)) hu
    have n3 := flexAcct_ne_yield hc a p.time
    have n4 := flexAcct_ne_flexible hc a p.time
    constructor
    · intro x x1 x2 x3 x4
      have e4 : claimable m4 x = claimable m3 x := h4.claimable_same x4 x1
      have e3 := h3.claimable_same x3 x4
      have e1 : claimable s1 x = claimable s x := (hr.same x2 (by rw [hpa]; exact x1)).1
      rw [e]
      show claimable m4 _ = _
      rw [e4, e3]
      exact e1
    · have hy1 : y = claimable s (flexAcct c a p.time) := by
        rw [hy]
        exact (hr.same n4 (by rw [hpa]; exact n1)).1
      have b1 : s1.balance c.yieldAddr = s.balance c.yieldAddr :=
        (hr.same hc.flexible_ne_yield.symm (by rw [hpa]; exact hu.ne_yield.symm)).2.1
      rw [e]
      show m4.balance _ = _
      rw [h4.same n3.symm hu.ne_yield.symm, h3.bal, if_pos rfl, if_neg n3.symm, ← hy1]
      show s1.balance _ - y + 0 = _
      rw [b1]; omega

/-- The same for a whole withdrawal. -/
theorem LoopOk.claimable_else {c : Cfg} (hc : c.WF) {signer : String} {a : Addr} {v : Int} {l : List PosEntry}
    {rem removed rem' removed' : Int} {s s' : State} (hd : c.decode signer = some a)
    (hu : c.IsUser a) (hv : v = FLEXIBLE) (hi : V0 c s) (hb : PB s) (hp : Pending s a v l) (h0 : 0 ≤ rem)
    (h : LoopOk c signer a v l rem removed s rem' removed' s') :
    (∀ x, x ≠ a → x ≠ c.flexibleAddr → x ≠ c.yieldAddr → (∀ t, x ≠ flexAcct c a t) →
      claimable s' x = claimable s x) ∧
    s.balance c.yieldAddr - yieldOf c s a l ≤ s'.balance c.yieldAddr ∧ PB s' := by
  induction h with
  | nil => exact ⟨fun _ _ _ _ _ => rfl, by simp [yieldOf], hb⟩
  | stop p t _ s =>
    refine ⟨fun _ _ _ _ _ => rfl, ?_, hb⟩
    have : 0 ≤ yieldOf c s a (p :: t) := by
      refine List.sum_nonneg fun x hx => ?_
      obtain ⟨q, hq, rfl⟩ := List.mem_map.1 hx
      exact claimable_nonneg _ _
    omega
  | step p t rem removed s m rem' removed' s' _ _ h1 _ ih =>
    have hget := hp.stored p List.mem_cons_self
    have hpa := hp.addr p List.mem_cons_self
    have hpv := hp.vault p List.mem_cons_self
    have ho := hi.entry _ (KV.mem_of_get? hget)
    obtain ⟨b0, b1, b2⟩ := amountToRemove_bounds (p := p) h0 ho.amount
    obtain ⟨g1, g2, _⟩ := hi.of_one hc hd hu hpa hpv hget b0 b1 h1
    obtain ⟨i1, i2, i3⟩ := ih g1 (hb.posUpd hi hget b0 g2) (hp.tail g2) (by omega)
    obtain ⟨j1, j2⟩ := h1.claimable_else hc hd hu hv hpa hpv
    have hysame : yieldOf c m a t = yieldOf c s a t := by
      unfold yieldOf
      congr 1
      refine List.map_congr_left fun q hq => ?_
      refine h1.claimable_other hc hd hu hv hpa hpv (fun e => ?_)
      have hk : q.key = p.key := by
        unfold PosEntry.key
        rw [hp.addr q (List.mem_cons_of_mem _ hq), hp.vault q (List.mem_cons_of_mem _ hq), hpa, hpv, e]
      exact (List.pairwise_cons.1 hp.nodup).1 q hq hk.symm
    refine ⟨fun x x1 x2 x3 x4 => (i1 x x1 x2 x3 x4).trans (j1 x x1 x2 x3 (x4 _)), ?_, i3⟩
    have : yieldOf c s a (p :: t) = claimable s (flexAcct c a p.time) + yieldOf c s a t := by
      unfold yieldOf
      rw [List.map_cons, List.sum_cons]
    omega

/-- Withdrawals do not touch the positions of others. -/
theorem entriesOf_withdraw {u a : Addr} {w v : Int} (h : ¬ (a = u ∧ v = w)) (l : KV (Addr × Int × Int) Position)
    (x : Int) : entriesOf (withdraw u w x l) a v = entriesOf l a v := by
  unfold entriesOf
  induction l generalizing x with
  | nil => rfl
  | cons e t ih =>
    unfold withdraw
    by_cases hc : e.1.1 = u ∧ e.1.2.1 = w ∧ 0 < x
    · have hn : ¬ (e.1.1 = a ∧ e.1.2.1 = v) := fun k => h ⟨k.1.symm.trans hc.1, k.2.symm.trans hc.2.1⟩
      rw [if_pos hc]
      split
      · rw [ih, List.filterMap_cons]
        simp only [hn, if_false]
      · rw [List.filterMap_cons, List.filterMap_cons]
        simp only [hn, if_false]
    · rw [if_neg hc, List.filterMap_cons, List.filterMap_cons, ih]

theorem positionsOf_entries (s : State) (a : Addr) (v : Int) : positionsOf s a v = entriesOf s.positions a v := rfl

/-- What the sweep needs and keeps. -/
structure SweepInv (c : Cfg) (s : State) : Prop where
  led : Led c s
  vinv : VInv c s
  rnn : RNN s
  pb : PB s

/-- The flexible yield of a user whose address is given as a string. -/
def userYield (c : Cfg) (s : State) (user : String) : Int :=
  match c.decode user with
  | some a => yieldOf c s a (positionsOf s a 2)
  | none => 0

/-- What one full flexible unlock does. -/
structure Swept (c : Cfg) (a : Addr) (amt : Int) (s s' : State) : Prop where
  inv : SweepInv c s'
  quiet : Quiet c s s'
  mine : lockedTotal s' a 2 = 0
  others : ∀ k : PKey, ¬ (k.1 = a ∧ k.2.1 = 2) → s'.positions.get? k = s.positions.get? k
  entries : ∀ b, b ≠ a → positionsOf s' b 2 = positionsOf s b 2
  paid : s.balance a + amt ≤ s'.balance a
  same : ∀ x, x ≠ a → x ≠ c.flexibleAddr → x ≠ c.yieldAddr → (∀ t, x ≠ flexAcct c a t) →
    s'.balance x = s.balance x ∧ claimable s' x = claimable s x
  yield : s.balance c.yieldAddr - yieldOf c s a (positionsOf s a 2) ≤ s'.balance c.yieldAddr

theorem unlockInner_swept {c : Cfg} (hc : c.WF) {s : State} (h : SweepInv c s) {signer : String} {a : Addr}
    (hd : c.decode signer = some a) (hu : c.IsUser a) (hbl : ∀ t, c.blocked (flexAcct c a t) = false)
    (hpos : 0 < lockedTotal s a 2)
    (hy : yieldOf c s a (positionsOf s a 2) ≤ s.balance c.yieldAddr) :
    ∃ s', unlockInner c signer FLEXIBLE (some (lockedTotal s a 2)) s = .ok () s' ∧
      Swept c a (lockedTotal s a 2) s s' := by
  have hP := pending_positionsOf h.vinv.toV0 a 2
  obtain ⟨r, m, hl⟩ := unlockLoop_flexible hc hd hu hbl (positionsOf s a 2) (lockedTotal s a 2) 0 s h.led
    h.vinv.toV0 h.rnn h.pb hP hpos.le (le_refl _) hy
  have he : unlockInner c signer FLEXIBLE (some (lockedTotal s a 2)) s = .ok () (unlockedState m a 2 r) := by
    unfold unlockInner
    simp only [hd]
    rw [if_neg (by omega), if_neg (by decide)]
    simp only [bind_apply, get_apply]
    rw [if_neg (by unfold lockedTotal; exact lt_irrefl _), if_neg (fun e => e.2 rfl)]
    have hl' : unlockLoop c signer a FLEXIBLE (positionsOf s a FLEXIBLE) (lockedTotal s a 2) 0 s = .ok (0, r) m := hl
    simp only [bind_apply, hl']
    rw [if_neg (by simp)]
    simp only [bind_apply, countGoneUser_eq, addVaultPrincipal_eq]
    rfl
  refine ⟨_, he, ?_⟩
  obtain ⟨amt, b, e1, hk⟩ := unlockInner_ok he
  cases e1
  have hb : b = a := Option.some.inj (hk.dec.symm.trans hd)
  subst hb
  obtain ⟨hl1, hq⟩ := (unlockLoop_ok hl).ledger hc hd hu (fun p hp => (positionsOf_mem hp).1) h.led
  have hlp := unlockLoop_ok hl
  have hD := hlp.did hc hd hu h.vinv.toV0 hP hpos.le
  obtain ⟨hpay, _⟩ := hlp.pay_flexible hc hd hu rfl h.vinv.toV0 hP hpos.le
  obtain ⟨c1, c2, c3⟩ := hlp.claimable_else hc hd hu rfl h.vinv.toV0 h.pb hP hpos.le
  have hw : m.positions = withdraw b 2 (lockedTotal s b 2) s.positions :=
    LoopOk.withdraw hc hd hu h.vinv.toV0 hk.pos.le s.positions [] rfl hlp
  refine ⟨⟨hl1.congr, h.vinv.of_unlock hc hu hk, ?_, c3⟩, hq.trans Quiet.of_eq, ?_, ?_, ?_, ?_, ?_, c2⟩
  · exact (hlp.rnn hc hd hu h.vinv.toV0 h.rnn h.pb hP hpos.le :)
  · rw [lockedTotal_eq]
    have h1 := hD.mine
    have h2 := lockedTotal_eq s b 2
    show m.positions.sum _ = 0
    omega
  · intro k hk; exact hD.others k hk
  · intro x hx
    rw [positionsOf_entries, positionsOf_entries]
    show entriesOf m.positions x 2 = _
    rw [hw]
    exact entriesOf_withdraw (fun e => hx e.1) _ _
  · have h1 := hpay.user
    have h2 := hpay.flexible
    have h3 := hpay.yield
    show _ ≤ m.balance b
    omega
  · intro x x1 x2 x3 x4
    exact ⟨hpay.other x x1 x2 x3 x4, c1 x x1 x2 x3 x4⟩

/-- What the sweep of a list of users does. -/
structure SweptAll (c : Cfg) (l : List (String × Int)) (s s' : State) : Prop where
  inv : SweepInv c s'
  quiet : Quiet c s s'
  mine : ∀ e ∈ l, ∀ a, c.decode e.1 = some a → lockedTotal s' a 2 = 0
  others : ∀ k : PKey, (∀ e ∈ l, ¬ (c.decode e.1 = some k.1 ∧ k.2.1 = 2)) →
    s'.positions.get? k = s.positions.get? k
  entries : ∀ b, (∀ e ∈ l, c.decode e.1 ≠ some b) → positionsOf s' b 2 = positionsOf s b 2
  paid : ∀ e ∈ l, ∀ a, c.decode e.1 = some a → s.balance a + e.2 ≤ s'.balance a
  same : ∀ x, (∀ e ∈ l, c.decode e.1 ≠ some x) → x ≠ c.flexibleAddr → x ≠ c.yieldAddr →
    (∀ a t, x ≠ flexAcct c a t) → s'.balance x = s.balance x
  own : s.seasonOneEnded = false → s.vPaused = 0 → ∀ env : Env,
    run c (l.map fun e => (env, Msg.unlock e.1 2 (some e.2))) s = s'

/-- While the vaults are open, a full unlock inside the sweep is what the user's own message does. -/
theorem step_unlock_open {c : Cfg} (env : Env) {user : String} {amt : Int} {s m : State}
    (hs : s.seasonOneEnded = false) (hp : s.vPaused = 0)
    (h : unlockInner c user FLEXIBLE (some amt) s = .ok () m) :
    step c env (.unlock user 2 (some amt)) s = m ∧ m.seasonOneEnded = false ∧ m.vPaused = 0 := by
  have he : exec c env (.unlock user 2 (some amt)) s = .ok () m := by
    show unlock c user 2 (some amt) s = _
    unfold unlock
    simp only [bind_apply, get_apply, hs, hp]
    exact h
  refine ⟨by unfold step runTx; rw [he], ?_⟩
  have := settings_step he
  generalize hq : Msg.unlock user 2 (some amt) = q at this
  cases this with
  | same _ e =>
    exact ⟨(congrArg Settings.seasonOneEnded e).trans hs, (congrArg Settings.vPaused e).trans hp⟩
  | _ => cases hq

theorem endSeasonLoop_swept {c : Cfg} (hc : c.WF) (hbl : ∀ a t, c.blocked (flexAcct c a t) = false)
    (l : List (String × Int)) (hl : l.Pairwise fun e e' => c.decode e.1 ≠ c.decode e'.1) {s : State}
    (h : SweepInv c s)
    (hm : ∀ e ∈ l, ∃ a, c.decode e.1 = some a ∧ c.IsUser a ∧ e.2 = lockedTotal s a 2)
    (hy : (l.map fun e => userYield c s e.1).sum ≤ s.balance c.yieldAddr) :
    ∃ s', endSeasonLoop c l s = .ok () s' ∧ SweptAll c l s s' := by
  induction l generalizing s with
  | nil =>
    exact ⟨s, rfl, h, Quiet.refl _ _, by simp, fun _ _ => rfl, fun _ _ => rfl, by simp,
      fun _ _ _ _ _ => rfl, fun _ _ _ => rfl⟩
  | cons e t ih =>
    obtain ⟨a, hd, hu, hv⟩ := hm e List.mem_cons_self
    obtain ⟨hne, ht⟩ := List.pairwise_cons.1 hl
    have hyt : ∀ s, 0 ≤ (t.map fun e => userYield c s e.1).sum := by
      intro s
      refine List.sum_nonneg fun x hx => ?_
      obtain ⟨q, _, rfl⟩ := List.mem_map.1 hx
      unfold userYield
      split
      · refine List.sum_nonneg fun x hx => ?_
        obtain ⟨q, _, rfl⟩ := List.mem_map.1 hx
        exact claimable_nonneg _ _
      · exact le_refl _
    have hey : userYield c s e.1 = yieldOf c s a (positionsOf s a 2) := by unfold userYield; rw [hd]
    rw [List.map_cons, List.sum_cons, hey] at hy
    have hl0 : 0 ≤ lockedTotal s a 2 := by
      rw [lockedTotal_eq]
      refine KV.sum_nonneg fun x hx => ?_
      split
      · exact (h.vinv.toV0.entry x hx).amount
      · exact le_refl _
    have hyn : 0 ≤ yieldOf c s a (positionsOf s a 2) := by
      refine List.sum_nonneg fun x hx => ?_
      obtain ⟨q, _, rfl⟩ := List.mem_map.1 hx
      exact claimable_nonneg _ _
    have hstep : ∃ m, ignore (unlockInner c e.1 FLEXIBLE (some e.2)) s = .ok () m ∧ Swept c a e.2 s m ∧
        (s.seasonOneEnded = false → s.vPaused = 0 → ∀ env,
          step c env (.unlock e.1 2 (some e.2)) s = m ∧ m.seasonOneEnded = false ∧ m.vPaused = 0) := by
      by_cases hz : lockedTotal s a 2 = 0
      · have h0 : unlockInner c e.1 FLEXIBLE (some e.2) s = .err .invalidAmount s := by
          unfold unlockInner
          simp only [hd]
          rw [if_pos (by omega)]
          rfl
        refine ⟨s, ?_, ⟨h, Quiet.refl _ _, hz, fun _ _ => rfl, fun _ _ => rfl, by omega,
          fun _ _ _ _ _ => ⟨rfl, rfl⟩, by omega⟩, ?_⟩
        · unfold MM.ignore
          rw [h0]
        · intro g1 g2 env
          refine ⟨?_, g1, g2⟩
          show runTx (unlock c e.1 2 (some e.2)) s = s
          unfold runTx unlock
          simp only [bind_apply, get_apply, g1, g2]
          rw [if_neg (by simp), if_neg (by decide), show unlockInner c e.1 2 (some e.2) s = _ from h0]
      · obtain ⟨m, m1, m2⟩ := unlockInner_swept hc h hd hu (hbl a) (by omega) (by have := hyt s; omega)
        rw [← hv] at m1 m2
        refine ⟨m, ?_, m2, fun g1 g2 env => step_unlock_open env g1 g2 m1⟩
        unfold MM.ignore
        rw [m1]
    obtain ⟨m, m1, m2, m3⟩ := hstep
    have hother : ∀ e' ∈ t, ∀ b, c.decode e'.1 = some b → b ≠ a := by
      intro e' he' b hb hba
      exact hne e' he' (by rw [hd, hb, hba])
    have huser : ∀ e' ∈ t, ∀ b, c.decode e'.1 = some b → c.IsUser b := by
      intro e' he' b hb
      obtain ⟨b', q1, q2, _⟩ := hm e' (List.mem_cons_of_mem _ he')
      rw [hb] at q1; cases q1; exact q2
    have hyy : (t.map fun e => userYield c m e.1) = t.map fun e => userYield c s e.1 := by
      refine List.map_congr_left fun e' he' => ?_
      unfold userYield
      cases hb : c.decode e'.1 with
      | none => rfl
      | some b =>
        have hba := hother e' he' b hb
        show yieldOf c m b _ = yieldOf c s b _
        rw [m2.entries b hba]
        unfold yieldOf
        congr 1
        refine List.map_congr_left fun q _ => ?_
        refine (m2.same _ (VaultAcct.ne_user (.inr (.inr ⟨_, _, rfl⟩)) hu) (flexAcct_ne_flexible hc _ _)
          (flexAcct_ne_yield hc _ _) fun t' ee => hba (flexAcct_inj hc ee).1).2
    obtain ⟨s', r1, r2⟩ := ih ht m2.inv
      (fun e' he' => by
        obtain ⟨b, q1, q2, q3⟩ := hm e' (List.mem_cons_of_mem _ he')
        refine ⟨b, q1, q2, ?_⟩
        rw [q3]
        unfold lockedTotal
        rw [m2.entries b (hother e' he' b q1)])
      (by rw [hyy]; have := m2.yield; omega)
    have hat : ∀ e' ∈ t, c.decode e'.1 ≠ some a := fun e' he' hb => hother e' he' a hb rfl
    have hua : ∀ b t, c.IsUser b → b ≠ flexAcct c a t := fun b t hb =>
      (VaultAcct.ne_user (.inr (.inr ⟨_, _, rfl⟩)) hb).symm
    refine ⟨s', ?_, r2.inv, m2.quiet.trans r2.quiet, ?_, ?_, ?_, ?_, ?_, ?_⟩
    · obtain ⟨k, v⟩ := e
      unfold endSeasonLoop
      simp only [bind_apply, m1, r1]
    · intro x hx b hb
      rcases List.mem_cons.1 hx with rfl | hx
      · have : b = a := Option.some.inj (hb.symm.trans hd)
        subst this
        unfold lockedTotal
        rw [r2.entries b hat]
        exact m2.mine
      · exact r2.mine x hx b hb
    · intro k hk
      rw [r2.others k fun e he => hk e (List.mem_cons_of_mem _ he)]
      refine m2.others k fun hh => hk e List.mem_cons_self ⟨by rw [hd, hh.1], hh.2⟩
    · intro b hb
      rw [r2.entries b fun e he => hb e (List.mem_cons_of_mem _ he)]
      exact m2.entries b fun hh => hb e List.mem_cons_self (by rw [hd, hh])
    · intro x hx b hb
      rcases List.mem_cons.1 hx with rfl | hx
      · have : b = a := Option.some.inj (hb.symm.trans hd)
        subst this
        rw [r2.same b hat hu.ne_flexible hu.ne_yield fun a' t =>
          (VaultAcct.ne_user (.inr (.inr ⟨_, _, rfl⟩)) hu).symm]
        exact m2.paid
      · have hub := huser x hx b hb
        have := r2.paid x hx b hb
        rw [(m2.same b (hother x hx b hb) hub.ne_flexible hub.ne_yield fun t => hua b t hub).1] at this
        exact this
    · intro x hx x2 x3 x4
      rw [r2.same x (fun e he => hx e (List.mem_cons_of_mem _ he)) x2 x3 x4]
      exact (m2.same x (fun hh => hx e List.mem_cons_self (by rw [hd, hh])) x2 x3 (x4 a)).1
    · intro g1 g2 env
      obtain ⟨k1, k2, k3⟩ := m3 g1 g2 env
      rw [List.map_cons]
      show run c _ (step c env (.unlock e.1 2 (some e.2)) s) = s'
      rw [k1]
      exact r2.own k2 k3 env

/-! ### The list of users -/

/-- What the positions of a list give a key. -/
def keyTotal (c : Cfg) (w : PosEntry → Int) (k : String) (l : List PosEntry) : Int :=
  (l.map fun p => if p.vault = 2 ∧ c.encode p.address = k then w p else 0).sum

theorem flexibleTotals_sorted (c : Cfg) (l : List PosEntry) : (flexibleTotals c l).Sorted := by
  induction l with
  | nil => exact KV.sorted_nil
  | cons p t ih =>
    unfold flexibleTotals
    simp only
    split
    · exact KV.sorted_set _ _ ih
    · exact ih

theorem flexibleTotals_getD (c : Cfg) (l : List PosEntry) (k : String) :
    ((flexibleTotals c l).get? k).getD 0 = keyTotal c PosEntry.amount k l := by
  induction l with
  | nil => rfl
  | cons p t ih =>
    unfold flexibleTotals keyTotal
    simp only
    rw [List.map_cons, List.sum_cons]
    unfold keyTotal at ih
    by_cases hv : p.vault = 2
    · rw [if_pos (show p.vault = FLEXIBLE from hv), KV.get?_set]
      by_cases hk : k = c.encode p.address
      · rw [if_pos hk, if_pos ⟨hv, hk.symm⟩, ← hk, ih, Option.getD_some]
        omega
      · rw [if_neg hk, if_neg (fun h => hk h.2.symm), ih]; omega
    · rw [if_neg (show ¬ p.vault = FLEXIBLE from hv), if_neg (fun h => hv h.1), ih]; omega

theorem flexibleTotals_has (c : Cfg) (l : List PosEntry) (k : String) :
    ((flexibleTotals c l).get? k).isSome ↔ ∃ p ∈ l, p.vault = 2 ∧ c.encode p.address = k := by
  induction l with
  | nil => simp [flexibleTotals]
  | cons p t ih =>
    unfold flexibleTotals
    simp only
    by_cases hv : p.vault = 2
    · rw [if_pos (show p.vault = FLEXIBLE from hv), KV.get?_set]
      by_cases hk : k = c.encode p.address
      · rw [if_pos hk]
        exact ⟨fun _ => ⟨p, List.mem_cons_self, hv, hk.symm⟩, fun _ => rfl⟩
      · rw [if_neg hk, ih]
        constructor
        · rintro ⟨q, h1, h2⟩; exact ⟨q, List.mem_cons_of_mem _ h1, h2⟩
        · rintro ⟨q, h1, h2⟩
          rcases List.mem_cons.1 h1 with rfl | h1
          · exact absurd h2.2.symm hk
          · exact ⟨q, h1, h2⟩
    · rw [if_neg (show ¬ p.vault = FLEXIBLE from hv), ih]
      constructor
      · rintro ⟨q, h1, h2⟩; exact ⟨q, List.mem_cons_of_mem _ h1, h2⟩
      · rintro ⟨q, h1, h2⟩
        rcases List.mem_cons.1 h1 with rfl | h1
        · exact absurd h2.1 hv
        · exact ⟨q, h1, h2⟩

/-- Every position counts for at most one key. -/
theorem keyTotal_sum (c : Cfg) (w : PosEntry → Int) (hw : ∀ p, 0 ≤ w p) (ks : List String) (hk : ks.Nodup)
    (l : List PosEntry) :
    (ks.map fun k => keyTotal c w k l).sum ≤ (l.map fun p => if p.vault = 2 then w p else 0).sum := by
  induction l with
  | nil => simp [keyTotal]
  | cons p t ih =>
    have e : ∀ k, keyTotal c w k (p :: t) =
        (if p.vault = 2 ∧ c.encode p.address = k then w p else 0) + keyTotal c w k t := fun k => by
      unfold keyTotal; rw [List.map_cons, List.sum_cons]
    simp only [e]
    rw [List.sum_map_add, List.map_cons, List.sum_cons]
    refine add_le_add ?_ ih
    clear ih e
    by_cases hv : p.vault = 2
    · rw [if_pos hv]
      simp only [hv, true_and]
      induction ks with
      | nil => exact hw p
      | cons k r ih =>
        obtain ⟨h1, h2⟩ := List.nodup_cons.1 hk
        rw [List.map_cons, List.sum_cons]
        by_cases hh : c.encode p.address = k
        · rw [if_pos hh]
          have : (r.map fun k => if c.encode p.address = k then w p else 0).sum = 0 := by
            refine List.sum_eq_zero fun x hx => ?_
            obtain ⟨q, hq, rfl⟩ := List.mem_map.1 hx
            rw [if_neg]
            rintro rfl
            exact h1 (hh ▸ hq)
          omega
        · rw [if_neg hh]
          have := ih h2
          omega
    · rw [if_neg hv]
      refine le_of_eq (List.sum_eq_zero fun x hx => ?_)
      obtain ⟨q, _, rfl⟩ := List.mem_map.1 hx
      exact if_neg fun h => hv h.1

end Dollar
