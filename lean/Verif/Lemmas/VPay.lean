import Verif.Lemmas.VInv2

/-
What the unlock loop pays, and that it succeeds.
-/
set_option linter.unusedSimpArgs false

namespace Dollar
open MM Spec

/-! ### Payments -/

/-- Payments of removing from one staked position. -/
theorem OneOk.pay_staked {c : Cfg} (hc : c.WF) {signer : String} {a : Addr} {p : PosEntry}
    {v amt : Int} {s s' : State} (hd : c.decode signer = some a) (hv : v = STAKED)
    (hpv : p.vault = v) (hk : OneOk c signer a v p amt s s') (x : Addr) :
    s'.balance x = s.balance x - (if x = c.stakedAddr then amt else 0) + (if x = a then amt else 0) := by
  cases hk with
  | staked m _ ha hm e =>
    rw [posAddr_eq hc hd] at hm
    have e1 : acctOf c a p.vault p.time = c.stakedAddr := by
      unfold acctOf; rw [if_neg (by rw [hpv, hv]; decide)]
    rw [e1] at hm
    rw [e]; exact hm.bal x
  | flexible _ _ _ _ _ hf => rw [hv] at hf; exact absurd hf (by decide)

/-- Payments of removing from one flexible position: the user gets the amount, the rewards taken
from the flexible vault's account and the yield taken from the yield account. -/
structure PaidFlex (c : Cfg) (a : Addr) (s s' : State) (amt : Int) : Prop where
  user : s'.balance a = s.balance a + amt + (s.balance c.flexibleAddr - s'.balance c.flexibleAddr) +
    (s.balance c.yieldAddr - s'.balance c.yieldAddr)
  flexible : s'.balance c.flexibleAddr ≤ s.balance c.flexibleAddr
  yield : s'.balance c.yieldAddr ≤ s.balance c.yieldAddr
  other : ∀ x, x ≠ a → x ≠ c.flexibleAddr → x ≠ c.yieldAddr → (∀ t, x ≠ flexAcct c a t) →
    s'.balance x = s.balance x

theorem OneOk.pay_flexible {c : Cfg} (hc : c.WF) {signer : String} {a : Addr} {p : PosEntry}
    {v amt : Int} {s s' : State} (hd : c.decode signer = some a) (hu : c.IsUser a) (hv : v = FLEXIBLE)
    (hpa : p.address = a) (hpv : p.vault = v) (hk : OneOk c signer a v p amt s s') :
    PaidFlex c a s s' amt ∧ ∀ x, x ≠ a → x ≠ c.flexibleAddr → x ≠ c.yieldAddr →
      s'.balance x = s.balance x - (if x = flexAcct c a p.time then amt else 0) := by
  cases hk with
  | staked _ hn => exact absurd hv hn
  | flexible s1 m3 m4 owed y _ hr hy h3 hn h4 e =>
    rw [posAddr_eq hc hd] at h3 h4
    have eacct : ∀ t, acctOf c a v t = flexAcct c a t := by
      intro t; unfold acctOf; rw [if_pos hv]
    rw [eacct] at h3
    rw [hpv, eacct] at h4
    have hy0 : 0 ≤ y := by rw [hy]; exact claimable_nonneg _ _
    have hF : ∀ x, s1.balance x = s.balance x - (if x = c.flexibleAddr then owed else 0) +
        (if x = a then owed else 0) := by
      intro x
      clear hy
      rcases hr.run with ⟨_, ho, rfl⟩ | ⟨_, _, _, m, hm, rfl⟩
      · rw [ho]; show s.balance x = _; simp
      · show m.balance x = _
        rw [hm.bal x, hpa]; rfl
    have ho0 := hr.nonneg
    have hb : ∀ x, s'.balance x = s.balance x - (if x = c.flexibleAddr then owed else 0) +
        (if x = a then owed else 0) - (if x = c.yieldAddr then y else 0) +
        (if x = flexAcct c a p.time then y else 0) - (if x = flexAcct c a p.time then amt + y else 0) +
        (if x = a then amt + y else 0) := by
      intro x
      rw [e]; show m4.balance x = _
      rw [h4.bal, h3.bal]
      show s1.balance x - _ + _ - _ + _ = _
      rw [hF]
    have na1 := hu.ne_flexible
    have na2 := hu.ne_yield
    have na3 : a ≠ flexAcct c a p.time := ((VaultAcct.ne_user (.inr (.inr ⟨_, _, rfl⟩)) hu)).symm
    have nf1 := (flexAcct_ne_flexible hc a p.time).symm
    have ny1 := (flexAcct_ne_yield hc a p.time).symm
    have nfy := hc.flexible_ne_yield
    have bF : s'.balance c.flexibleAddr = s.balance c.flexibleAddr - owed := by
      rw [hb]; simp [na1.symm, nfy, nf1]
    have bY : s'.balance c.yieldAddr = s.balance c.yieldAddr - y := by
      rw [hb]; simp [na2.symm, nfy.symm, ny1]
    have bA : s'.balance a = s.balance a + owed + (amt + y) := by
      rw [hb]; simp [na1, na2, na3]
    refine ⟨⟨by omega, by omega, by omega, ?_⟩, ?_⟩
    · intro x h1 h2 h3 h4
      rw [hb]; simp [h1, h2, h3, h4]
    · intro x h1 h2 h3
      rw [hb]; simp only [h1, h2, h3, if_false]; split <;> omega

theorem LoopOk.pay_staked {c : Cfg} (hc : c.WF) {signer : String} {a : Addr} {v : Int} {l : List PosEntry}
    {rem removed rem' removed' : Int} {s s' : State} (hd : c.decode signer = some a) (hv : v = STAKED)
    (hp : ∀ p ∈ l, p.vault = v) (h : LoopOk c signer a v l rem removed s rem' removed' s') (x : Addr) :
    s'.balance x = s.balance x - (if x = c.stakedAddr then rem - rem' else 0) +
      (if x = a then rem - rem' else 0) := by
  induction h with
  | nil => simp
  | stop => simp
  | step p t rem removed s m rem' removed' s' _ _ h1 _ ih =>
    rw [ih (fun p hm => hp p (List.mem_cons_of_mem _ hm)),
      h1.pay_staked hc hd hv (hp p List.mem_cons_self) x]
    split <;> split <;> omega

theorem LoopOk.rewards_of_staked {c : Cfg} {signer : String} {a : Addr} {v : Int} {l : List PosEntry}
    {rem removed rem' removed' : Int} {s s' : State} (hv : v ≠ FLEXIBLE)
    (h : LoopOk c signer a v l rem removed s rem' removed' s') : s'.rewards = s.rewards := by
  induction h with
  | nil => rfl
  | stop => rfl
  | step p t rem removed s m rem' removed' s' _ _ h1 _ ih =>
    rw [ih]
    cases h1 with
    | staked _ _ _ hm e => rw [e]; exact hm.rewards
    | flexible _ _ _ _ _ hf => exact absurd hf hv

theorem at'_posUpd {ps : KV PKey Position} {p : PosEntry}
    (hg : ps.get? p.key = some p.val) {amt : Int} (h1 : amt ≤ p.amount) (pr : Int) (k : PKey) :
    (posUpd ps p amt pr).at' k (fun _ q => q.amount) = ps.at' k (fun _ q => q.amount) -
      (if k = p.key then amt else 0) := by
  unfold KV.at'
  by_cases hk : k = p.key
  · subst hk
    rw [hg]
    have e1 : p.val.amount = p.amount := rfl
    simp only [if_true]
    unfold posUpd
    by_cases hle : p.amount ≤ amt
    · rw [if_pos hle, KV.get?_erase, if_pos rfl]
      simp only
      omega
    · rw [if_neg hle, KV.get?_set_self]
      rfl
  · rw [get?_posUpd_ne p amt pr hk, if_neg hk]
    exact (Int.sub_zero _).symm

/-- Payments of the loop for the flexible vault. -/
theorem LoopOk.pay_flexible {c : Cfg} (hc : c.WF) {signer : String} {a : Addr} {v : Int} {l : List PosEntry}
    {rem removed rem' removed' : Int} {s s' : State} (hd : c.decode signer = some a) (hu : c.IsUser a)
    (hv : v = FLEXIBLE) (hi : V0 c s) (hp : Pending s a v l) (h0 : 0 ≤ rem)
    (h : LoopOk c signer a v l rem removed s rem' removed' s') :
    PaidFlex c a s s' (rem - rem') ∧
    ∀ t, s'.balance (flexAcct c a t) - s'.positions.at' (a, v, t) (fun _ q => q.amount) =
      s.balance (flexAcct c a t) - s.positions.at' (a, v, t) (fun _ q => q.amount) := by
  induction h with
  | nil => exact ⟨⟨by omega, le_refl _, le_refl _, fun _ _ _ _ _ => rfl⟩, fun _ => rfl⟩
  | stop => exact ⟨⟨by omega, le_refl _, le_refl _, fun _ _ _ _ _ => rfl⟩, fun _ => rfl⟩
  | step p t rem removed s m rem' removed' s' hne _ h1 _ ih =>
    have hpa := hp.addr p List.mem_cons_self
    have hpv := hp.vault p List.mem_cons_self
    have hget := hp.stored p List.mem_cons_self
    have ho := hi.entry _ (KV.mem_of_get? hget)
    obtain ⟨b0, b1, b2⟩ := amountToRemove_bounds (p := p) h0 ho.amount
    obtain ⟨q1, q2⟩ := h1.pay_flexible hc hd hu hv hpa hpv
    obtain ⟨g1, g2, g3⟩ := hi.of_one hc hd hu hpa hpv hget b0 b1 h1
    obtain ⟨r1, r2⟩ := ih g1 (hp.tail g2) (by omega)
    refine ⟨⟨?_, ?_, ?_, ?_⟩, ?_⟩
    · have := q1.user; have := r1.user; omega
    · exact r1.flexible.trans q1.flexible
    · exact r1.yield.trans q1.yield
    · intro x e1 e2 e3 e4
      rw [r1.other x e1 e2 e3 e4, q1.other x e1 e2 e3 e4]
    · intro t'
      rw [r2 t', g2, at'_posUpd hget b1]
      have hacct : flexAcct c a t' ≠ a := VaultAcct.ne_user (.inr (.inr ⟨_, _, rfl⟩)) hu
      rw [q2 _ hacct (flexAcct_ne_flexible hc _ _) (flexAcct_ne_yield hc _ _)]
      have hiff : flexAcct c a t' = flexAcct c a p.time ↔ ((a, v, t') : PKey) = p.key := by
        constructor
        · intro e
          rw [(flexAcct_inj hc e).2]
          unfold PosEntry.key
          rw [hpa, hpv]
        · intro e
          have : t' = p.time := congrArg (fun k => k.2.2) e
          rw [this]
      by_cases hh : ((a, v, t') : PKey) = p.key
      · rw [if_pos hh, if_pos (hiff.2 hh)]; ring
      · rw [if_neg hh, if_neg (fun e => hh (hiff.1 e))]; ring

/-! ### Oldest first -/

theorem erase_middle {pre t : KV PKey Position} {e : PKey × Position}
    (h : KV.Sorted (pre ++ e :: t)) : KV.erase (pre ++ e :: t) e.1 = pre ++ t := by
  have hn := KV.nodup_keys h
  rw [List.map_append, List.map_cons, List.nodup_middle] at hn
  have hn := (List.nodup_cons.1 hn).1
  unfold KV.erase
  rw [List.filter_append, List.filter_cons]
  simp only [decide_true, Bool.not_true, Bool.false_eq_true, if_false]
  congr 1
  · rw [List.filter_eq_self]
    intro x hx
    have : x.1 ≠ e.1 := fun he => hn (List.mem_append.2 (.inl (List.mem_map.2 ⟨x, hx, he⟩)))
    simp [this]
  · rw [List.filter_eq_self]
    intro x hx
    have : x.1 ≠ e.1 := fun he => hn (List.mem_append.2 (.inr (List.mem_map.2 ⟨x, hx, he⟩)))
    simp [this]

theorem replace_middle {pre t : KV PKey Position} {e : PKey × Position} (q : Position)
    (h : ∀ x ∈ pre, x.1 ≠ e.1) : KV.replace (pre ++ e :: t) e.1 q = pre ++ (e.1, q) :: t := by
  induction pre with
  | nil => simp [KV.replace]
  | cons x pre ih =>
    rw [List.cons_append]
    unfold KV.replace
    rw [if_neg (h x List.mem_cons_self), ih (fun y hy => h y (List.mem_cons_of_mem _ hy))]
    rfl

theorem set_middle {pre t : KV PKey Position} {e : PKey × Position} (q : Position)
    (h : KV.Sorted (pre ++ e :: t)) : KV.set (pre ++ e :: t) e.1 q = pre ++ (e.1, q) :: t := by
  have hn := KV.nodup_keys h
  rw [List.map_append, List.map_cons, List.nodup_middle] at hn
  have hn := (List.nodup_cons.1 hn).1
  have hg : KV.get? (pre ++ e :: t) e.1 = some e.2 :=
    KV.get?_of_mem (k := e.1) (v := e.2) h (List.mem_append.2 (.inr List.mem_cons_self))
  unfold KV.set KV.has
  rw [hg]
  simp only [Option.isSome_some, if_true]
  exact replace_middle q fun x hx he => hn (List.mem_append.2 (.inl (List.mem_map.2 ⟨x, hx, he⟩)))

/-- Entries of a list of stored positions. -/
def entriesOf (ps : KV PKey Position) (a : Addr) (v : Int) : List PosEntry :=
  ps.filterMap fun e =>
    if e.1.1 = a ∧ e.1.2.1 = v then
      some ⟨e.1.1, e.1.2.1, e.2.principal, e.2.index, e.2.amount, e.2.time⟩
    else none

theorem withdraw_zero (a : Addr) (v : Int) {r : Int} (hr : r ≤ 0) (ps : KV PKey Position) :
    withdraw a v r ps = ps := by
  induction ps with
  | nil => rfl
  | cons e t ih =>
    unfold withdraw
    rw [if_neg (by omega), ih]

theorem LoopOk.withdraw {c : Cfg} (hc : c.WF) {signer : String} {a : Addr} {v : Int} 
    {rem removed rem' removed' : Int} {s s' : State} (hd : c.decode signer = some a)
    (hu : c.IsUser a) (hi : V0 c s) (h0 : 0 ≤ rem) (suf : KV PKey Position) (pre : KV PKey Position)
    (hs : s.positions = pre ++ suf)
    (h : LoopOk c signer a v (entriesOf suf a v) rem removed s rem' removed' s') :
    s'.positions = pre ++ withdraw a v rem suf := by
  induction suf generalizing pre s rem removed with
  | nil =>
    unfold entriesOf at h
    rw [List.filterMap_nil] at h
    cases h
    exact hs
  | cons e t ih =>
    unfold Spec.withdraw
    by_cases hm : e.1.1 = a ∧ e.1.2.1 = v
    · have hl : entriesOf (e :: t) a v = ⟨e.1.1, e.1.2.1, e.2.principal, e.2.index, e.2.amount, e.2.time⟩ ::
          entriesOf t a v := by
        unfold entriesOf; rw [List.filterMap_cons]; simp only [hm, and_self, if_true]
      rw [hl] at h
      have hmem : e ∈ s.positions := by rw [hs]; simp
      have hen := hi.entry e hmem
      cases h with
      | stop =>
        rw [if_neg (by omega), withdraw_zero a v (le_refl _)]
        exact hs
      | step _ _ _ _ _ m _ _ _ hne _ h1 h2 =>
        rw [if_pos ⟨hm.1, hm.2, by omega⟩]
        have hkey : PosEntry.key ⟨e.1.1, e.1.2.1, e.2.principal, e.2.index, e.2.amount, e.2.time⟩ = e.1 := by
          unfold PosEntry.key; simp only; rw [hen.time]
        have hval : PosEntry.val ⟨e.1.1, e.1.2.1, e.2.principal, e.2.index, e.2.amount, e.2.time⟩ = e.2 := rfl
        have hget : s.positions.get? (PosEntry.key ⟨e.1.1, e.1.2.1, e.2.principal, e.2.index, e.2.amount, e.2.time⟩) =
            some (PosEntry.val ⟨e.1.1, e.1.2.1, e.2.principal, e.2.index, e.2.amount, e.2.time⟩) := by
          rw [hkey, hval]; exact KV.get?_of_mem (k := e.1) (v := e.2) hi.sorted hmem
        obtain ⟨b0, b1, b2⟩ := amountToRemove_bounds
          (p := ⟨e.1.1, e.1.2.1, e.2.principal, e.2.index, e.2.amount, e.2.time⟩) h0 hen.amount
        obtain ⟨g1, g2, _⟩ := hi.of_one hc hd hu hm.1 hm.2 hget b0 b1 h1
        have hsort := hi.sorted
        rw [hs] at hsort
        by_cases hle : e.2.amount ≤ rem
        · rw [if_pos hle]
          have ea : amountToRemove ⟨e.1.1, e.1.2.1, e.2.principal, e.2.index, e.2.amount, e.2.time⟩ rem = e.2.amount := by
            unfold amountToRemove; simp only; rw [if_neg (by omega)]
          rw [ea] at h2 g2
          refine ih g1 (by omega) pre ?_ h2
          rw [g2]
          unfold posUpd
          rw [if_pos (le_refl _), hkey, hs]
          exact erase_middle hsort
        · rw [if_neg hle]
          have ea : amountToRemove ⟨e.1.1, e.1.2.1, e.2.principal, e.2.index, e.2.amount, e.2.time⟩ rem = rem := by
            unfold amountToRemove; simp only; rw [if_pos (by omega)]
          rw [ea] at h2 g2
          have hm' : m.positions = pre ++ (e.1, shrink e.2 rem) :: t := by
            rw [g2]
            unfold posUpd
            rw [if_neg hle, hkey, hs]
            rw [set_middle _ hsort]
            congr 3
            unfold shrink roundedDown
            rw [Int.tdiv_eq_ediv_of_nonneg (mul_SCALE_nonneg h0)]
            rfl
          have h3 := ih g1 (by omega) (pre ++ [(e.1, shrink e.2 rem)]) (by rw [hm']; simp) h2
          rw [h3, withdraw_zero a v (by omega)]
          simp
    · have hl : entriesOf (e :: t) a v = entriesOf t a v := by
        unfold entriesOf; rw [List.filterMap_cons]; simp only [hm, if_false]
      rw [hl] at h
      rw [if_neg (fun hh => hm ⟨hh.1, hh.2.1⟩)]
      have := ih hi h0 (pre ++ [e]) (by rw [hs]; simp) h
      rw [this]; simp

/-! ### Success -/

/-- A staked position can be paid out. -/
theorem unlockOne_staked {c : Cfg} (hc : c.WF) {signer : String} {a : Addr} {p : PosEntry} {rem : Int}
    {s : State} (hd : c.decode signer = some a) (hu : c.IsUser a) (hpv : p.vault = STAKED) (hi : V0 c s)
    (hg : Good c s) (hget : s.positions.get? p.key = some p.val) (h0 : 0 ≤ rem) :
    ∃ s', unlockOne c signer a STAKED p rem s =
      .ok (amountToRemove p rem, roundedDown (amountToRemove p rem) p.index) s' := by
  have ho := hi.entry _ (KV.mem_of_get? hget)
  obtain ⟨b0, b1, b2⟩ := amountToRemove_bounds (p := p) h0 ho.amount
  have hidx : p.index ≠ 0 := ho.idx.ne'
  have hacct : posAddr c signer p.vault p.time = c.stakedAddr := by
    rw [posAddr_eq hc hd]; unfold acctOf; rw [if_neg (by rw [hpv]; decide)]
  have hfund : amountToRemove p rem ≤ s.balance c.stakedAddr := by
    have h1 := hi.staked
    have h2 := hi.amt_posUpd hget (le_refl p.amount) 0 STAKED
    have h3 : 0 ≤ (posUpd s.positions p p.amount 0).sum (amtIn STAKED) := by
      refine KV.sum_nonneg fun e he => ?_
      rcases mem_posUpd he with he | ⟨hn, _⟩
      · unfold amtIn; split
        · exact (hi.entry e he).amount
        · exact le_refl _
      · exact absurd (le_refl _) hn
    rw [if_pos hpv] at h2
    omega
  obtain ⟨m, hm, _⟩ := sendCoins_progress (c := c) (b := a) hfund hg.index.ne' (.inl hu.ne_yield)
  unfold unlockOne
  simp only [bind_apply, principalDown_eq hidx, pure_apply, unlockPayout]
  rw [if_neg (show ¬ STAKED = FLEXIBLE by decide)]
  simp only [bind_apply, pure_apply, newCoin, if_neg (show ¬ amountToRemove p rem < 0 by omega), hacct, hm,
    updatePosition_eq, emit, modify_apply]
  exact ⟨_, rfl⟩

/-- The loop over staked positions succeeds. -/
theorem unlockLoop_staked {c : Cfg} (hc : c.WF) {signer : String} {a : Addr} (hd : c.decode signer = some a)
    (hu : c.IsUser a) (l : List PosEntry) (rem removed : Int) (s : State) (hl : Led c s) (hi : V0 c s)
    (hp : Pending s a STAKED l) (h0 : 0 ≤ rem) (hle : rem ≤ (l.map PosEntry.amount).sum) :
    ∃ r s', unlockLoop c signer a STAKED l rem removed s = .ok (0, r) s' := by
  induction l generalizing rem removed s with
  | nil =>
    simp at hle
    have : rem = 0 := by omega
    subst this
    exact ⟨removed, s, rfl⟩
  | cons p t ih =>
    unfold unlockLoop
    by_cases hz : rem = 0
    · subst hz
      exact ⟨removed, s, by simp⟩
    · rw [if_neg hz]
      have hget := hp.stored p List.mem_cons_self
      have hpa := hp.addr p List.mem_cons_self
      have hpv := hp.vault p List.mem_cons_self
      have ho := hi.entry _ (KV.mem_of_get? hget)
      obtain ⟨b0, b1, b2⟩ := amountToRemove_bounds (p := p) h0 ho.amount
      obtain ⟨m, hm⟩ := unlockOne_staked hc hd hu hpv hi hl.good hget h0
      obtain ⟨_, _, hone⟩ := unlockOne_ok hm
      obtain ⟨g1, g2, _⟩ := hi.of_one hc hd hu hpa hpv hget b0 b1 hone
      obtain ⟨l1, _⟩ := hone.ledger hc hd hu hpa hl
      simp only [bind_apply, hm]
      refine ih _ _ m l1 g1 (hp.tail g2) (by omega) ?_
      simp only [List.map_cons, List.sum_cons] at hle
      unfold amountToRemove
      by_cases hlt : rem < p.amount
      · rw [if_pos hlt]
        have : 0 ≤ (t.map PosEntry.amount).sum := by
          refine List.sum_nonneg fun x hx => ?_
          obtain ⟨q, hq, rfl⟩ := List.mem_map.1 hx
          exact (hi.entry _ (KV.mem_of_get? (hp.stored q (List.mem_cons_of_mem _ hq)))).amount
        omega
      · rw [if_neg hlt]; omega

/-- `unlock` succeeds when the loop does. -/
theorem unlock_of_loop {c : Cfg} {signer : String} {v amt : Int} {a : Addr} {s m : State} {r : Int}
    (hd : c.decode signer = some a) (hv : v = STAKED ∨ v = FLEXIBLE)
    (h1 : ¬ (v = FLEXIBLE ∧ s.seasonOneEnded = true))
    (h2 : ¬ (s.vPaused = PAUSE_ALL ∨ s.vPaused = PAUSE_UNLOCK)) (h3 : 0 < amt)
    (h4 : amt ≤ lockedTotal s a v) (h5 : ¬ (amt < c.minUnlock ∧ lockedTotal s a v ≠ amt))
    (hl : unlockLoop c signer a v (positionsOf s a v) amt 0 s = .ok (0, r) m) :
    unlock c signer v (some amt) s = .ok () (unlockedState m a v r) := by
  have e3 : validVault v = true := by unfold validVault; exact decide_eq_true hv
  unfold unlock unlockInner
  simp only [bind_apply, get_apply, if_neg h1, if_neg h2, hd]
  unfold lockedTotal at h4 h5
  rw [if_neg (by omega), e3, if_neg (by decide)]
  simp only [bind_apply, get_apply]
  rw [if_neg (by omega), if_neg h5]
  simp only [bind_apply, hl]
  rw [if_neg (by simp)]
  simp only [bind_apply, countGoneUser_eq, addVaultPrincipal_eq]
  rfl

end Dollar
