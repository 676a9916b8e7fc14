import Verif.Model.Bank
import Verif.Lemmas.WP
import Verif.Lemmas.Math

/-
Exact effect of the x/bank operations of the model.
-/
set_option linter.unusedSimpArgs false

namespace Dollar
open MM

/-- Sum of all balances. -/
def sumBal (s : State) : Int := s.bal.sum fun _ v => v
/-- Sum of all recorded principals. -/
def sumPrin (s : State) : Int := s.principal.sum fun _ v => v

theorem at'_val {K : Type} [DecidableEq K] (m : KV K Int) (k : K) :
    m.at' k (fun _ v => v) = (m.get? k).getD 0 := by
  unfold KV.at'
  cases m.get? k <;> rfl

theorem sum_set_val {K : Type} [DecidableEq K] [KeyOrd K] (m : KV K Int) (k : K) (v : Int) :
    (m.set k v).sum (fun _ v => v) = m.sum (fun _ v => v) - (m.get? k).getD 0 + v := by
  rw [KV.sum_set, at'_val]

theorem getD_set {K : Type} [DecidableEq K] [KeyOrd K] (m : KV K Int) (k x : K) (v : Int) :
    ((m.set k v).get? x).getD 0 = if x = k then v else (m.get? x).getD 0 := by
  rw [KV.get?_set]
  split <;> simp

theorem balance_bal_set (s : State) (a x : Addr) (v : Int) :
    State.balance { s with bal := s.bal.set a v } x = if x = a then v else s.balance x :=
  getD_set _ _ _ _

/-- State after taking coins from an account. -/
def debit (s : State) (a : Addr) (amt : Int) : State :=
  { s with bal := s.bal.set a (s.balance a - amt) }
/-- State after adding coins to an account. -/
def credit (s : State) (a : Addr) (amt : Int) : State :=
  { s with bal := s.bal.set a (s.balance a + amt) }

theorem balance_debit (s : State) (a x : Addr) (amt : Int) :
    (debit s a amt).balance x = s.balance x - (if x = a then amt else 0) := by
  unfold debit
  rw [balance_bal_set]
  split
  · next h => rw [h]
  · ring

theorem balance_credit (s : State) (a x : Addr) (amt : Int) :
    (credit s a amt).balance x = s.balance x + (if x = a then amt else 0) := by
  unfold credit
  rw [balance_bal_set]
  split
  · next h => rw [h]
  · ring

theorem sumBal_debit (s : State) (a : Addr) (amt : Int) :
    sumBal (debit s a amt) = sumBal s - amt := by
  refine (sum_set_val _ _ _).trans ?_
  show sumBal s - s.balance a + _ = _
  ring

theorem sumBal_credit (s : State) (a : Addr) (amt : Int) :
    sumBal (credit s a amt) = sumBal s + amt := by
  refine (sum_set_val _ _ _).trans ?_
  show sumBal s - s.balance a + _ = _
  ring

/-- The state without the fields a transfer may change. -/
def bankCore (s : State) : State :=
  { s with bal := [], principal := [], holders := 0, totalPrincipal := 0 }

/-- Holder count after a sender is left with `v`. -/
def heldSender (c : Cfg) (a : Addr) (v : Int) (h : Nat) : Nat :=
  if a ≠ c.moduleAddr ∧ v = 0 then h - 1 else h
/-- Holder count after coins arrive at an account that holds `v`. -/
def heldRecipient (c : Cfg) (b : Addr) (v : Int) (h : Nat) : Nat :=
  if b ≠ c.moduleAddr ∧ v = 0 then h + 1 else h
/-- Holder count after a transfer between accounts other than the yield account. -/
def heldAfter (c : Cfg) (s : State) (a b : Addr) (amt : Int) : Nat :=
  heldRecipient c b ((debit s a amt).balance b)
    (heldSender c a ((debit s a amt).balance a) s.holders)

/-- The effect of a successful `SendCoins`. -/
structure Moved (c : Cfg) (s : State) (a b : Addr) (amt : Int) (s' : State) : Prop where
  /-- only these fields change -/
  frame : bankCore s' = bankCore s
  /-- the balances after the transfer -/
  bal : ∀ x, s'.balance x = s.balance x - (if x = a then amt else 0) + (if x = b then amt else 0)
  sum : sumBal s' = sumBal s
  enough : amt = 0 ∨ amt ≤ s.balance a
  zero : amt = 0 → s' = s
  /-- a transfer from or to the yield account leaves principal alone -/
  skip : (a = c.yieldAddr ∨ b = c.yieldAddr) →
    s'.principal = s.principal ∧ s'.totalPrincipal = s.totalPrincipal ∧ s'.holders = s.holders
  not_yield : amt ≠ 0 → b = c.yieldAddr → a = c.yieldAddr ∨ a = c.moduleAddr
  index_ne : amt ≠ 0 → a ≠ c.yieldAddr → b ≠ c.yieldAddr → s.index ≠ 0
  total : amt ≠ 0 → a ≠ c.yieldAddr → b ≠ c.yieldAddr →
    s'.totalPrincipal = s.totalPrincipal
      + (if a = c.moduleAddr then roundedUp amt s.index else 0)
      - (if b = c.moduleAddr then roundedUp amt s.index else 0)
  prin : amt ≠ 0 → a ≠ c.yieldAddr → b ≠ c.yieldAddr → ∀ x,
    s'.principalOf x = s.principalOf x
      - (if x = a ∧ a ≠ c.moduleAddr then roundedUp amt s.index else 0)
      + (if x = b ∧ b ≠ c.moduleAddr then
          (if a = c.moduleAddr then roundedDown amt s.index else roundedUp amt s.index) else 0)
  sumP : amt ≠ 0 → a ≠ c.yieldAddr → b ≠ c.yieldAddr →
    sumPrin s' = sumPrin s
      - (if a ≠ c.moduleAddr then roundedUp amt s.index else 0)
      + (if b ≠ c.moduleAddr then
          (if a = c.moduleAddr then roundedDown amt s.index else roundedUp amt s.index) else 0)
  /-- the balance store itself -/
  store : amt ≠ 0 → s'.bal = (credit (debit s a amt) b amt).bal
  /-- the holder count -/
  held : amt ≠ 0 → a ≠ c.yieldAddr → b ≠ c.yieldAddr → s'.holders = heldAfter c s a b amt

/-- The effect of a failed `SendCoins`: nothing happened, or the coins were taken from the sender
because the restriction refused the yield account as recipient. -/
def SendFailed (c : Cfg) (s : State) (a b : Addr) (amt : Int) (s' : State) : Prop :=
  (s' = s ∧ s.balance a < amt) ∨
  (amt ≠ 0 ∧ b = c.yieldAddr ∧ a ≠ c.yieldAddr ∧ a ≠ c.moduleAddr ∧
    s' = debit s a amt)

theorem addCoins_eq (a : Addr) (amt : Int) (s : State) :
    addCoins a amt s = .ok () (credit s a amt) := rfl

theorem subCoins_eq (a : Addr) (amt : Int) (s : State) :
    subCoins a amt s = if s.balance a < amt then .err .insufficientFunds s
      else .ok () (debit s a amt) := by
  unfold subCoins
  simp only [bind_apply, get_apply]
  split <;> rfl

/-- Restriction for an effective transfer not involving the yield account. -/
structure Restricted (c : Cfg) (s : State) (a b : Addr) (amt : Int) (s' : State) : Prop where
  frame : s' = { s with principal := s'.principal, holders := s'.holders,
                        totalPrincipal := s'.totalPrincipal }
  total : s'.totalPrincipal = s.totalPrincipal
      + (if a = c.moduleAddr then roundedUp amt s.index else 0)
      - (if b = c.moduleAddr then roundedUp amt s.index else 0)
  prin : ∀ x,
    s'.principalOf x = s.principalOf x
      - (if x = a ∧ a ≠ c.moduleAddr then roundedUp amt s.index else 0)
      + (if x = b ∧ b ≠ c.moduleAddr then
          (if a = c.moduleAddr then roundedDown amt s.index else roundedUp amt s.index) else 0)
  sumP : 
    sumPrin s' = sumPrin s
      - (if a ≠ c.moduleAddr then roundedUp amt s.index else 0)
      + (if b ≠ c.moduleAddr then
          (if a = c.moduleAddr then roundedDown amt s.index else roundedUp amt s.index) else 0)
  index_ne : s.index ≠ 0
  held : s'.holders = heldRecipient c b (s.balance b) (heldSender c a (s.balance a) s.holders)

theorem principalOf_addPrincipal (s : State) (a x : Addr) (d : Int) :
    State.principalOf { s with principal := s.principal.set a (s.principalOf a + d) } x =
      s.principalOf x + (if x = a then d else 0) := by
  show ((s.principal.set a (s.principalOf a + d)).get? x).getD 0 = _
  rw [getD_set]
  split
  · next h => subst h; rfl
  · show _ = _ ; simp [State.principalOf]

theorem sumPrin_addPrincipal (s : State) (a : Addr) (d : Int) :
    sumPrin { s with principal := s.principal.set a (s.principalOf a + d) } = sumPrin s + d := by
  show (s.principal.set a (s.principalOf a + d)).sum (fun _ v => v) = _
  rw [sum_set_val]
  unfold sumPrin State.principalOf
  ring

theorem restrictSender_spec (c : Cfg) (a : Addr) (p : Int) (s : State) :
    ∃ s', restrictSender c a p s = .ok () s' ∧
      s' = { s with principal := s'.principal, holders := s'.holders,
                    totalPrincipal := s'.totalPrincipal } ∧
      s'.totalPrincipal = s.totalPrincipal + (if a = c.moduleAddr then p else 0) ∧
      (∀ x, s'.principalOf x = s.principalOf x - (if x = a ∧ a ≠ c.moduleAddr then p else 0)) ∧
      sumPrin s' = sumPrin s - (if a ≠ c.moduleAddr then p else 0) ∧
      s'.holders = heldSender c a (s.balance a) s.holders := by
  unfold restrictSender heldSender
  split
  · next h =>
    refine ⟨_, rfl, rfl, rfl, ?_, ?_, ?_⟩
    · intro x; simp [h, State.principalOf]
    · simp [h, sumPrin]
    · simp [h]
  · next h =>
    simp only [addPrincipal, bind_apply, modify_apply, get_apply]
    have hp := principalOf_addPrincipal s a
    have hs := sumPrin_addPrincipal s a (-p)
    split
    · next hz =>
      have hz : s.balance a = 0 := hz
      refine ⟨_, rfl, rfl, by simp [h], fun x => ?_, ?_, ?_⟩
      · have := hp x (-p)
        show State.principalOf { s with principal := s.principal.set a (s.principalOf a + -p) } x = _
        rw [this]; by_cases hx : x = a <;> simp [hx, h, sub_eq_add_neg]
      · show sumPrin { s with principal := s.principal.set a (s.principalOf a + -p) } = _
        rw [hs]; simp [h, sub_eq_add_neg]
      · rw [if_pos ⟨h, hz⟩]
        show (if 0 < s.holders then s.holders - 1 else s.holders) = _
        split <;> omega
    · next hz =>
      have hz : ¬ s.balance a = 0 := hz
      refine ⟨_, rfl, rfl, by simp [h], fun x => ?_, ?_, ?_⟩
      · rw [hp x (-p)]; by_cases hx : x = a <;> simp [hx, h, sub_eq_add_neg]
      · rw [hs]; simp [h, sub_eq_add_neg]
      · rw [if_neg fun h => hz h.2]

theorem restrictRecipient_spec (c : Cfg) (a b : Addr) (amt i p : Int) (hi : i ≠ 0) (s : State) :
    ∃ s', restrictRecipient c a b amt i p s = .ok () s' ∧
      s' = { s with principal := s'.principal, holders := s'.holders,
                    totalPrincipal := s'.totalPrincipal } ∧
      s'.totalPrincipal = s.totalPrincipal - (if b = c.moduleAddr then p else 0) ∧
      (∀ x, s'.principalOf x = s.principalOf x + (if x = b ∧ b ≠ c.moduleAddr then
        (if a = c.moduleAddr then roundedDown amt i else p) else 0)) ∧
      sumPrin s' = sumPrin s + (if b ≠ c.moduleAddr then
        (if a = c.moduleAddr then roundedDown amt i else p) else 0) ∧
      s'.holders = heldRecipient c b (s.balance b) s.holders := by
  unfold restrictRecipient heldRecipient
  split
  · next h =>
    refine ⟨_, rfl, rfl, rfl, ?_, ?_, ?_⟩
    · intro x; simp [h, State.principalOf]
    · simp [h, sumPrin]
    · simp [h]
  · next h =>
    have key : ∀ q : Int, ∃ s', (do
        addPrincipal b q
        let s ← get
        if s.balance b = 0 then incrementHolders else pure () : M Unit) s = .ok () s' ∧
      s' = { s with principal := s'.principal, holders := s'.holders,
                    totalPrincipal := s'.totalPrincipal } ∧
      s'.totalPrincipal = s.totalPrincipal ∧
      (∀ x, s'.principalOf x = s.principalOf x + (if x = b then q else 0)) ∧
      sumPrin s' = sumPrin s + q ∧
      s'.holders = if b ≠ c.moduleAddr ∧ s.balance b = 0 then s.holders + 1 else s.holders := by
      intro q
      simp only [addPrincipal, bind_apply, modify_apply, get_apply]
      have hp := fun x => principalOf_addPrincipal s b x q
      have hs := sumPrin_addPrincipal s b q
      split
      · next hz =>
        have hz : s.balance b = 0 := hz
        exact ⟨_, rfl, rfl, rfl, hp, hs, (if_pos ⟨h, hz⟩).symm⟩
      · next hz =>
        have hz : ¬ s.balance b = 0 := hz
        exact ⟨_, rfl, rfl, rfl, hp, hs, (if_neg fun h => hz h.2).symm⟩
    by_cases ha : a = c.moduleAddr
    · obtain ⟨s', h1, h2, h3, h4, h5, h6⟩ := key (roundedDown amt i)
      refine ⟨s', ?_, h2, by simp [h, h3], fun x => ?_, ?_, h6⟩
      · simpa [ha, principalDown, hi] using h1
      · rw [h4]; simp [h, ha]
      · rw [h5]; simp [h, ha]
    · obtain ⟨s', h1, h2, h3, h4, h5, h6⟩ := key p
      refine ⟨s', ?_, h2, by simp [h, h3], fun x => ?_, ?_, h6⟩
      · simpa [ha] using h1
      · rw [h4]; simp [h, ha]
      · rw [h5]; simp [h, ha]

theorem principalUp_eq {amt i : Int} (hi : i ≠ 0) : principalUp amt i = pure (roundedUp amt i) := by
  unfold principalUp; simp [hi]

theorem principalDown_eq {amt i : Int} (hi : i ≠ 0) :
    principalDown amt i = pure (roundedDown amt i) := by
  unfold principalDown; simp [hi]

theorem restrict_spec (c : Cfg) (a b : Addr) (amt : Int) (s : State) (h0 : amt ≠ 0)
    (ha : a ≠ c.yieldAddr) (hb : b ≠ c.yieldAddr) (hi : s.index ≠ 0) :
    ∃ s', sendRestriction c a b amt s = .ok () s' ∧ Restricted c s a b amt s' := by
  unfold sendRestriction
  simp only [h0, ha, hb, if_false]
  simp only [bind_apply, get_apply, principalUp_eq hi, pure_apply]
  obtain ⟨s1, h1, f1, t1, p1, q1, r1⟩ := restrictSender_spec c a (roundedUp amt s.index) s
  obtain ⟨s2, h2, f2, t2, p2, q2, r2⟩ :=
    restrictRecipient_spec c a b amt s.index (roundedUp amt s.index) hi s1
  refine ⟨s2, by simp only [h1, h2], ⟨?_, ?_, ?_, ?_, hi, ?_⟩⟩
  · rw [f2, f1]
  · rw [t2, t1]
  · intro x; rw [p2, p1]
  · rw [q2, q1]
  · have hb : s1.balance b = s.balance b := by
      show (s1.bal.get? b).getD 0 = _
      rw [f1]; rfl
    rw [r2, r1, hb]

theorem sendCoins_zero (c : Cfg) (a b : Addr) (s : State) : sendCoins c a b 0 s = .ok () s := rfl

theorem Moved.refl (c : Cfg) (s : State) (a b : Addr) : Moved c s a b 0 s where
  frame := rfl
  bal := by intro x; simp
  sum := rfl
  enough := .inl rfl
  zero := fun _ => rfl
  skip := fun _ => ⟨rfl, rfl, rfl⟩
  not_yield h := absurd rfl h
  index_ne h := absurd rfl h
  total h := absurd rfl h
  prin h := absurd rfl h
  sumP h := absurd rfl h
  store h := absurd rfl h
  held h := absurd rfl h

/-- Exact effect of `SendCoins`. -/
theorem sendCoins_wp (c : Cfg) (a b : Addr) (amt : Int) (s : State) :
    wp (sendCoins c a b amt) s (fun _ s' => Moved c s a b amt s')
      (fun _ s' => SendFailed c s a b amt s') := by
  unfold sendCoins
  refine wp.ite (fun h => ?_) (fun h0 => ?_)
  · subst h; exact Moved.refl c s a b
  unfold wp
  simp only [bind_apply, subCoins_eq]
  by_cases hlt : s.balance a < amt
  · simp only [hlt, if_true]
    exact .inl ⟨rfl, hlt⟩
  simp only [hlt, if_false]
  by_cases hay : a = c.yieldAddr
  · have hr : sendRestriction c a b amt (debit s a amt) = .ok () (debit s a amt) := by
      unfold sendRestriction; simp only [h0, if_false, hay, if_true]; rfl
    simp only [hr, addCoins_eq]
    exact {
      frame := rfl
      bal := fun x => by rw [balance_credit, balance_debit]
      sum := by rw [sumBal_credit, sumBal_debit]; ring
      enough := .inr (by omega)
      zero := fun h => absurd h h0
      skip := fun _ => ⟨rfl, rfl, rfl⟩
      not_yield := fun _ _ => .inl hay
      index_ne := fun _ h => absurd hay h
      total := fun _ h => absurd hay h
      prin := fun _ h => absurd hay h
      sumP := fun _ h => absurd hay h
      store := fun _ => rfl
      held := fun _ h => absurd hay h }
  by_cases hby : b = c.yieldAddr
  · by_cases ham : a = c.moduleAddr
    · have hr : sendRestriction c a b amt (debit s a amt) = .ok () (debit s a amt) := by
        unfold sendRestriction
        simp only [h0, if_false, hay, hby, if_true]
        simp only [ham, if_true]; rfl
      simp only [hr, addCoins_eq]
      exact {
        frame := rfl
        bal := fun x => by rw [balance_credit, balance_debit]
        sum := by rw [sumBal_credit, sumBal_debit]; ring
        enough := .inr (by omega)
        zero := fun h => absurd h h0
        skip := fun _ => ⟨rfl, rfl, rfl⟩
        not_yield := fun _ _ => .inr ham
        index_ne := fun _ _ h => absurd hby h
        total := fun _ _ h => absurd hby h
        prin := fun _ _ h => absurd hby h
        sumP := fun _ _ h => absurd hby h
        store := fun _ => rfl
        held := fun _ _ h => absurd hby h }
    · have hr : sendRestriction c a b amt (debit s a amt) = .err .yieldAccount (debit s a amt) := by
        unfold sendRestriction
        simp only [h0, if_false, hay, hby, if_true, ham]; rfl
      simp only [hr]
      exact .inr ⟨h0, hby, hay, ham, rfl⟩
  by_cases hi : s.index = 0
  · have hr : sendRestriction c a b amt (debit s a amt) = .panic := by
      unfold sendRestriction
      have hi' : (debit s a amt).index = 0 := hi
      simp only [h0, if_false, hay, hby, bind_apply, get_apply, principalUp, hi', if_true]; rfl
    simp only [hr]
  · obtain ⟨s1, h1, r⟩ := restrict_spec c a b amt (debit s a amt) h0 hay hby hi
    simp only [h1, addCoins_eq]
    have hb1 : ∀ x, s1.balance x = (debit s a amt).balance x := fun x => by
      show ((s1.bal).get? x).getD 0 = _
      rw [r.frame]; rfl
    have hs1 : sumBal s1 = sumBal (debit s a amt) := by
      unfold sumBal; rw [r.frame]
    exact {
      frame := by
        show bankCore s1 = bankCore s
        rw [r.frame]; rfl
      bal := fun x => by rw [balance_credit, hb1, balance_debit]
      sum := by rw [sumBal_credit, hs1, sumBal_debit]; ring
      enough := .inr (by omega)
      zero := fun h => absurd h h0
      skip := fun h => by rcases h with h | h <;> contradiction
      not_yield := fun _ h => absurd h hby
      index_ne := fun _ _ _ => hi
      total := fun _ _ _ => r.total
      prin := fun _ _ _ => r.prin
      sumP := fun _ _ _ => r.sumP
      store := fun _ => by
        have e : s1.bal = (debit s a amt).bal := by rw [r.frame]
        show s1.bal.set b (s1.balance b + amt) = (debit s a amt).bal.set b ((debit s a amt).balance b + amt)
        rw [e, hb1]
      held := fun _ _ _ => r.held }

end Dollar

namespace Dollar
open MM

namespace Moved
variable {c : Cfg} {s s' : State} {a b : Addr} {amt : Int}

theorem supply (h : Moved c s a b amt s') : s'.supply = s.supply := (congrArg State.supply h.frame :)
theorem paused (h : Moved c s a b amt s') : s'.paused = s.paused := (congrArg State.paused h.frame :)
theorem index (h : Moved c s a b amt s') : s'.index = s.index := (congrArg State.index h.frame :)
theorem totalYield (h : Moved c s a b amt s') : s'.totalYield = s.totalYield := (congrArg State.totalYield h.frame :)
theorem extYield (h : Moved c s a b amt s') : s'.extYield = s.extYield := (congrArg State.extYield h.frame :)
theorem recipients (h : Moved c s a b amt s') : s'.recipients = s.recipients := (congrArg State.recipients h.frame :)
theorem retry (h : Moved c s a b amt s') : s'.retry = s.retry := (congrArg State.retry h.frame :)
theorem owner (h : Moved c s a b amt s') : s'.owner = s.owner := (congrArg State.owner h.frame :)
theorem portalPaused (h : Moved c s a b amt s') : s'.portalPaused = s.portalPaused := (congrArg State.portalPaused h.frame :)
theorem peers (h : Moved c s a b amt s') : s'.peers = s.peers := (congrArg State.peers h.frame :)
theorem paths (h : Moved c s a b amt s') : s'.paths = s.paths := (congrArg State.paths h.frame :)
theorem nonce (h : Moved c s a b amt s') : s'.nonce = s.nonce := (congrArg State.nonce h.frame :)
theorem vPaused (h : Moved c s a b amt s') : s'.vPaused = s.vPaused := (congrArg State.vPaused h.frame :)
theorem seasonOneEnded (h : Moved c s a b amt s') : s'.seasonOneEnded = s.seasonOneEnded := (congrArg State.seasonOneEnded h.frame :)
theorem collector (h : Moved c s a b amt s') : s'.collector = s.collector := (congrArg State.collector h.frame :)
theorem positions (h : Moved c s a b amt s') : s'.positions = s.positions := (congrArg State.positions h.frame :)
theorem totalFlexible (h : Moved c s a b amt s') : s'.totalFlexible = s.totalFlexible := (congrArg State.totalFlexible h.frame :)
theorem rewards (h : Moved c s a b amt s') : s'.rewards = s.rewards := (congrArg State.rewards h.frame :)
theorem vstats (h : Moved c s a b amt s') : s'.vstats = s.vstats := (congrArg State.vstats h.frame :)
theorem archive (h : Moved c s a b amt s') : s'.archive = s.archive := (congrArg State.archive h.frame :)
theorem posted (h : Moved c s a b amt s') : s'.posted = s.posted := (congrArg State.posted h.frame :)
theorem collateral (h : Moved c s a b amt s') : s'.collateral = s.collateral := (congrArg State.collateral h.frame :)
theorem ibcOut (h : Moved c s a b amt s') : s'.ibcOut = s.ibcOut := (congrArg State.ibcOut h.frame :)
theorem inflight (h : Moved c s a b amt s') : s'.inflight = s.inflight := (congrArg State.inflight h.frame :)
theorem vouchers (h : Moved c s a b amt s') : s'.vouchers = s.vouchers := (congrArg State.vouchers h.frame :)
theorem warpOut (h : Moved c s a b amt s') : s'.warpOut = s.warpOut := (congrArg State.warpOut h.frame :)
theorem events (h : Moved c s a b amt s') : s'.events = s.events := (congrArg State.events h.frame :)
theorem vouchersOf (h : Moved c s a b amt s') (ch : String) : s'.vouchersOf ch = s.vouchersOf ch := by
  unfold State.vouchersOf; rw [h.vouchers]
theorem retryOf (h : Moved c s a b amt s') (p : Int) (i : String) :
    s'.retryOf p i = s.retryOf p i := by
  unfold State.retryOf; rw [h.retry]

theorem nonneg (h : Moved c s a b amt s') (ha : 0 ≤ amt) (hb : ∀ x, 0 ≤ s.balance x) (x : Addr) :
    0 ≤ s'.balance x := by
  rw [h.bal]
  have h1 := hb x
  have h2 := hb a
  have h3 := h.enough
  by_cases hxa : x = a
  · subst hxa
    split <;> simp <;> omega
  · simp only [hxa, if_false]
    split <;> omega

/-- Every account but the sender keeps or gains. -/
theorem mono (h : Moved c s a b amt s') (ha : 0 ≤ amt) {x : Addr} (hx : x ≠ a) :
    s.balance x ≤ s'.balance x := by
  rw [h.bal]
  simp only [hx, if_false]
  split <;> omega

theorem same (h : Moved c s a b amt s') {x : Addr} (hx : x ≠ a) (hy : x ≠ b) :
    s'.balance x = s.balance x := by
  rw [h.bal]; simp [hx, hy]

theorem self (h : Moved c s a a amt s') (x : Addr) : s'.balance x = s.balance x := by
  rw [h.bal]; split <;> ring

theorem prin_same (h : Moved c s a b amt s') {x : Addr} (hx : x ≠ a) (hy : x ≠ b) :
    s'.principalOf x = s.principalOf x := by
  by_cases h0 : amt = 0
  · rw [h.zero h0]
  by_cases hz : a = c.yieldAddr ∨ b = c.yieldAddr
  · unfold State.principalOf; rw [(h.skip hz).1]
  · push Not at hz
    rw [h.prin h0 hz.1 hz.2]; simp [hx, hy]

theorem yield_prin (h : Moved c s a b amt s') :
    s'.principalOf c.yieldAddr = s.principalOf c.yieldAddr := by
  by_cases h0 : amt = 0
  · rw [h.zero h0]
  by_cases hz : a = c.yieldAddr ∨ b = c.yieldAddr
  · unfold State.principalOf; rw [(h.skip hz).1]
  · push Not at hz
    rw [h.prin h0 hz.1 hz.2]; simp [hz.1.symm, hz.2.symm]

theorem total_of_ne_module (h : Moved c s a b amt s') (ha : a ≠ c.moduleAddr)
    (hb : b ≠ c.moduleAddr) : s'.totalPrincipal = s.totalPrincipal := by
  by_cases h0 : amt = 0
  · rw [h.zero h0]
  by_cases hz : a = c.yieldAddr ∨ b = c.yieldAddr
  · exact (h.skip hz).2.1
  · push Not at hz
    rw [h.total h0 hz.1 hz.2]; simp [ha, hb]

theorem sumP_of_ne_module (h : Moved c s a b amt s') (ha : a ≠ c.moduleAddr)
    (hb : b ≠ c.moduleAddr) : sumPrin s' = sumPrin s := by
  by_cases h0 : amt = 0
  · rw [h.zero h0]
  by_cases hz : a = c.yieldAddr ∨ b = c.yieldAddr
  · unfold sumPrin; rw [(h.skip hz).1]
  · push Not at hz
    rw [h.sumP h0 hz.1 hz.2]; simp [ha, hb]

/-- The gap between the total-principal statistic and the recorded principals never shrinks. -/
theorem gap (h : Moved c s a b amt s') (ha : 0 ≤ amt) (hi : 0 < s.index) :
    s.totalPrincipal - sumPrin s ≤ s'.totalPrincipal - sumPrin s' := by
  by_cases h0 : amt = 0
  · rw [h.zero h0]
  by_cases hz : a = c.yieldAddr ∨ b = c.yieldAddr
  · unfold sumPrin; rw [(h.skip hz).1, (h.skip hz).2.1]
  · push Not at hz
    rw [h.sumP h0 hz.1 hz.2, h.total h0 hz.1 hz.2]
    have := down_le_up ha hi
    by_cases h1 : a = c.moduleAddr <;> by_cases h2 : b = c.moduleAddr <;>
      simp only [h1, h2, if_true, if_false, ne_eq, not_true, not_false_eq_true] <;> omega

end Moved

theorem sendCoins_ok {c : Cfg} {a b : Addr} {amt : Int} {s s' : State} {u : Unit}
    (h : sendCoins c a b amt s = .ok u s') : Moved c s a b amt s' :=
  (sendCoins_wp c a b amt s).of_ok h

/-- `SendCoins` succeeds when the sender has the coins, the index is set and the recipient is not
the yield account. -/
theorem sendCoins_progress {c : Cfg} {a b : Addr} {amt : Int} {s : State}
    (he : amt ≤ s.balance a) (hi : s.index ≠ 0)
    (hb : b ≠ c.yieldAddr ∨ a = c.yieldAddr ∨ a = c.moduleAddr) :
    ∃ s', sendCoins c a b amt s = .ok () s' ∧ Moved c s a b amt s' := by
  have hw := sendCoins_wp c a b amt s
  unfold wp at hw
  cases hx : sendCoins c a b amt s with
  | ok u s' => rw [hx] at hw; exact ⟨s', rfl, hw⟩
  | err e s' =>
    rw [hx] at hw
    rcases hw with ⟨_, h⟩ | ⟨h0, h1, h2, h3, _⟩
    · omega
    · rcases hb with h | h | h <;> contradiction
  | panic =>
    exfalso
    unfold sendCoins at hx
    by_cases h0 : amt = 0
    · simp [h0] at hx
    simp only [h0, if_false, bind_apply, subCoins_eq] at hx
    have hlt : ¬ s.balance a < amt := by omega
    simp only [hlt, if_false] at hx
    by_cases hz : a = c.yieldAddr ∨ b = c.yieldAddr
    · unfold sendRestriction at hx
      by_cases hay : a = c.yieldAddr
      · simp only [h0, if_false, hay, if_true, pure_apply, addCoins_eq] at hx
        cases hx
      · have hby : b = c.yieldAddr := by tauto
        simp only [h0, if_false, hay, hby, if_true] at hx
        by_cases ham : a = c.moduleAddr
        · simp only [ham, if_true, pure_apply, addCoins_eq] at hx
          cases hx
        · simp only [ham, if_false, fail_apply] at hx
          cases hx
    · push Not at hz
      obtain ⟨s1, h1, _⟩ := restrict_spec c a b amt (debit s a amt) h0 hz.1 hz.2 hi
      simp only [h1, addCoins_eq] at hx
      cases hx

end Dollar
