import Verif.Model.BankOrder
import Verif.Lemmas.Blind
import Verif.Lemmas.Bank
import Verif.Spec.Demo

/-
C108: whether the bank debits the sender before or after it asks the module's send restriction shows in
nothing but the holder statistic.
-/
set_option maxRecDepth 100000
namespace Dollar
open MM Spec

/-- The state without balances and holder statistic. -/
def hidden (s : State) : State := { s with bal := [], holders := 0 }

/-- Agreement on everything but balances and holder statistic. -/
def Hid (s t : State) : Prop := hidden s = hidden t

theorem Hid.index {s t : State} (h : Hid s t) : t.index = s.index := (congrArg State.index h :).symm
theorem Hid.principal {s t : State} (h : Hid s t) : t.principal = s.principal := (congrArg State.principal h :).symm
theorem Hid.total {s t : State} (h : Hid s t) : t.totalPrincipal = s.totalPrincipal :=
  (congrArg State.totalPrincipal h :).symm

theorem Hid.addPrincipal (a : Addr) (v : Int) : Same Hid (addPrincipal a v) := by
  refine Same.modify fun s t h => ?_
  have hp := h.principal
  unfold Hid hidden at *
  simp only [State.principalOf, hp]
  exact (congrArg (fun x : State => { x with principal := s.principal.set a ((s.principal.get? a).getD 0 + v) }) h :)

theorem Hid.decrementHolders : Same Hid decrementHolders :=
  Same.modify fun _ _ h => h
theorem Hid.incrementHolders : Same Hid incrementHolders :=
  Same.modify fun _ _ h => h
theorem Hid.addTotal (v : Int) :
    Same Hid (MM.modify fun s => { s with totalPrincipal := s.totalPrincipal + v } : M Unit) :=
  Same.modify fun s t h => by
    rw [h.total]
    exact (congrArg (fun x : State => { x with totalPrincipal := s.totalPrincipal + v }) h :)

/-- A step that may change the holder statistic, depending on a balance. -/
theorem Hid.count (p : State → Prop) [DecidablePred p] (x : M Unit)
    (hx : ∀ s, ∃ h, x s = .ok () { s with holders := h }) :
    Same Hid (do let s ← get; if p s then x else pure ()) := by
  have key : ∀ s, ∃ h, (do let s ← get; if p s then x else pure () : M Unit) s = .ok () { s with holders := h } := by
    intro s
    simp only [bind_apply, get_apply]
    split
    · exact hx s
    · exact ⟨s.holders, rfl⟩
  refine ⟨fun s t h => ?_⟩
  obtain ⟨h1, e1⟩ := key s
  obtain ⟨h2, e2⟩ := key t
  rw [e1, e2]
  exact ⟨rfl, h⟩

theorem Hid.restrictSender (c : Cfg) (a : Addr) (p : Int) : Same Hid (restrictSender c a p) := by
  unfold Dollar.restrictSender
  split
  · exact addTotal p
  · exact Same.bind (addPrincipal a _) fun _ => count _ _ fun s => ⟨_, rfl⟩

theorem Hid.restrictRecipient (c : Cfg) (a b : Addr) (v i p : Int) : Same Hid (restrictRecipient c a b v i p) := by
  unfold Dollar.restrictRecipient
  split
  · exact addTotal (-p)
  · have hq : ∀ q, Same Hid (do
        Dollar.addPrincipal b q
        let s ← get
        if s.balance b = 0 then Dollar.incrementHolders else pure () : M Unit) := fun q =>
      Same.bind (addPrincipal b q) fun _ => count _ _ fun s => ⟨_, rfl⟩
    split
    · exact Same.bind (Same.principalDown _ _) hq
    · exact hq _

/-- The restriction looks at no balance, except to keep the holder statistic. -/
theorem Hid.sendRestriction (c : Cfg) (a b : Addr) (v : Int) : Same Hid (sendRestriction c a b v) := by
  unfold Dollar.sendRestriction
  refine Same.ite (Same.pure _) (Same.ite (Same.pure _) (Same.ite (Same.ite (Same.pure _) (Same.fail _)) ?_))
  refine Same.getBind (fun s t h => by rw [h.index]) fun s => ?_
  exact Same.bind (Same.principalUp _ _) fun _ =>
    Same.bind (restrictSender c a _) fun _ => restrictRecipient c a b _ _ _

/-- The restriction moves no coins. -/
theorem sendRestriction_bal {c : Cfg} {a b : Addr} {v : Int} {s s' : State} {u : Unit}
    (h : sendRestriction c a b v s = .ok u s') : s'.bal = s.bal := by
  by_cases h0 : v = 0
  · subst h0; cases h; rfl
  by_cases hz : a = c.yieldAddr ∨ b = c.yieldAddr
  · unfold sendRestriction at h
    rw [if_neg h0] at h
    split at h
    · cases h; rfl
    · rw [if_pos (by tauto)] at h
      split at h <;> cases h
      rfl
  push Not at hz
  by_cases hi : s.index = 0
  · exfalso
    unfold sendRestriction principalUp at h
    simp only [h0, hz.1, hz.2, if_false, bind_apply, get_apply, hi, if_true] at h
    cases h
  · obtain ⟨s1, h1, r⟩ := restrict_spec c a b v s h0 hz.1 hz.2 hi
    rw [h1] at h
    cases h
    rw [r.frame]

/-- States that agree up to balances and holder statistic, and on the balances. -/
theorem hid_ext {s t : State} (h : Hid s t) (hb : s.bal = t.bal) : { s with holders := t.holders } = t := by
  have := congrArg (fun x : State => { x with bal := t.bal, holders := t.holders }) h
  refine Eq.trans ?_ (this.trans rfl)
  show { s with holders := t.holders } = { s with bal := t.bal, holders := t.holders }
  rw [← hb]

/-- C108, single transfers: a bank that asks the restriction first, like the one in the repository's tests,
carries out exactly the transfers the real one carries out, and leaves the same state except for the
statistic of holders. -/
theorem C108_send (c : Cfg) (a b : Addr) (v : Int) (s : State) :
    (∀ s', sendCoins c a b v s = .ok () s' →
      ∃ s'', mockSendCoins c a b v s = .ok () s'' ∧ { s'' with holders := s'.holders } = s') ∧
    (∀ s'', mockSendCoins c a b v s = .ok () s'' → ∃ s', sendCoins c a b v s = .ok () s') := by
  unfold sendCoins mockSendCoins
  by_cases h0 : v = 0
  · simp only [h0, if_true]
    refine ⟨fun s' h => ⟨s, rfl, ?_⟩, fun _ _ => ⟨s, rfl⟩⟩
    cases h; rfl
  simp only [h0, if_false]
  have hs : Hid (debit s a v) s := rfl
  have hr := (Hid.sendRestriction c a b v).rel _ _ hs
  constructor
  · intro s' h
    simp only [bind_ok, subCoins_eq, addCoins_eq] at h
    obtain ⟨_, s1, h1, _, s2, h2, h3⟩ := h
    split at h1
    · cases h1
    next hlt =>
    cases h1
    cases h3
    have hb2 := sendRestriction_bal h2
    rw [h2] at hr
    cases h4 : sendRestriction c a b v s with
    | err e t => rw [h4] at hr; exact hr.elim
    | panic => rw [h4] at hr; exact hr.elim
    | ok u t =>
      rw [h4] at hr
      have hb4 := sendRestriction_bal h4
      refine ⟨credit (debit t a v) b v, ?_, ?_⟩
      · have hbal : t.balance a = s.balance a := by unfold State.balance; rw [hb4]
        simp only [bind_apply, h4, subCoins_eq, hbal, if_neg hlt, addCoins_eq]
      · refine hid_ext hr.2.symm ?_
        unfold credit debit State.balance
        simp only [hb2, hb4]
        rfl
  · intro s'' h
    simp only [bind_ok, subCoins_eq, addCoins_eq] at h
    obtain ⟨_, s1, h1, _, s2, h2, h3⟩ := h
    rw [h1] at hr
    have hb := sendRestriction_bal h1
    have hbal : s1.balance a = s.balance a := by unfold State.balance; rw [hb]
    rw [hbal] at h2
    split at h2
    · cases h2
    next hlt =>
    cases h4 : sendRestriction c a b v (debit s a v) with
    | err e t => rw [h4] at hr; exact hr.elim
    | panic => rw [h4] at hr; exact hr.elim
    | ok u t =>
      exact ⟨credit t b v, by simp only [bind_apply, subCoins_eq, if_neg hlt, h4, addCoins_eq]⟩

/-- Balances after the credits of a multi-send. -/
def creditedBal (outs : List (Addr × Int)) (m : KV Addr Int) : KV Addr Int :=
  outs.foldl (fun m o => m.set o.1 ((m.get? o.1).getD 0 + o.2)) m

theorem creditAll_eq (outs : List (Addr × Int)) (s : State) :
    creditAll outs s = .ok () { s with bal := creditedBal outs s.bal } := by
  induction outs generalizing s with
  | nil => rfl
  | cons o t ih =>
    unfold creditAll
    simp only [bind_apply, addCoins_eq, ih]
    rfl

theorem outputs_restrictAll (c : Cfg) (a : Addr) (outs : List (Addr × Int)) {s t : State} (h : Hid s t) :
    (∀ s', multiSendOutputs c a outs s = .ok () s' → ∃ t', restrictAll c a outs t = .ok () t' ∧ Hid s' t' ∧
      t'.bal = t.bal ∧ s'.bal = creditedBal outs s.bal) ∧
    (∀ t', restrictAll c a outs t = .ok () t' → t'.bal = t.bal ∧ ∃ s', multiSendOutputs c a outs s = .ok () s') := by
  induction outs generalizing s t with
  | nil => exact ⟨fun s' e => by cases e; exact ⟨t, rfl, h, rfl, rfl⟩, fun t' e => by cases e; exact ⟨rfl, s, rfl⟩⟩
  | cons o l ih =>
    obtain ⟨b, v⟩ := o
    unfold multiSendOutputs restrictAll
    have hr := (Hid.sendRestriction c a b v).rel _ _ h
    simp only [bind_apply, addCoins_eq]
    cases h1 : sendRestriction c a b v s with
    | err e x =>
      rw [h1] at hr
      cases h2 : sendRestriction c a b v t with
      | err e x => exact ⟨fun _ h => (nomatch h), fun _ h => (nomatch h)⟩
      | ok u x => rw [h2] at hr; exact hr.elim
      | panic => rw [h2] at hr; exact hr.elim
    | panic =>
      rw [h1] at hr
      cases h2 : sendRestriction c a b v t with
      | panic => exact ⟨fun _ h => (nomatch h), fun _ h => (nomatch h)⟩
      | ok u x => rw [h2] at hr; exact hr.elim
      | err e x => rw [h2] at hr; exact hr.elim
    | ok u s1 =>
      rw [h1] at hr
      cases h2 : sendRestriction c a b v t with
      | err e x => rw [h2] at hr; exact hr.elim
      | panic => rw [h2] at hr; exact hr.elim
      | ok u t1 =>
        rw [h2] at hr
        have hb1 := sendRestriction_bal h1
        have hb2 := sendRestriction_bal h2
        have hc : Hid (credit s1 b v) t1 := hr.2
        obtain ⟨i1, i2⟩ := ih hc
        refine ⟨fun s' e => ?_, fun t' e => ?_⟩
        · obtain ⟨t', j1, j2, j3, j4⟩ := i1 s' e
          refine ⟨t', j1, j2, j3.trans hb2, j4.trans ?_⟩
          unfold credit State.balance
          rw [hb1]; rfl
        · obtain ⟨j1, j2⟩ := i2 t' e
          exact ⟨j1.trans hb2, j2⟩

/-- C108, multi-sends: a bank that puts every output to the restriction before it debits the input carries
out exactly the multi-sends the real one carries out, and leaves the same state except for the statistic of
holders. -/
theorem C108_multi (c : Cfg) (a : Addr) (outs : List (Addr × Int)) (s : State) :
    (∀ s', multiSend c a outs s = .ok () s' →
      ∃ s'', mockMultiSend c a outs s = .ok () s'' ∧ { s'' with holders := s'.holders } = s') ∧
    (∀ s'', mockMultiSend c a outs s = .ok () s'' → ∃ s', multiSend c a outs s = .ok () s') := by
  unfold multiSend mockMultiSend
  obtain ⟨k1, k2⟩ := outputs_restrictAll c a outs (show Hid (debit s a (outs.map Prod.snd).sum) s from rfl)
  constructor
  · intro s' h
    simp only [bind_ok, subCoins_eq] at h
    obtain ⟨_, s1, h1, h2⟩ := h
    split at h1
    · cases h1
    next hlt =>
    cases h1
    obtain ⟨t, h3, h4, h5, h6⟩ := k1 s' h2
    have hbal : t.balance a = s.balance a := by unfold State.balance; rw [h5]
    refine ⟨{ debit t a (outs.map Prod.snd).sum with
      bal := creditedBal outs (debit t a (outs.map Prod.snd).sum).bal }, ?_, ?_⟩
    · simp only [bind_apply, h3, subCoins_eq, hbal, if_neg hlt, creditAll_eq]
    refine hid_ext h4.symm ?_
    rw [h6]
    unfold debit State.balance
    simp only [h5]
  · intro s'' h
    simp only [bind_ok, subCoins_eq] at h
    obtain ⟨_, s1, h1, _, s2, h2, h3⟩ := h
    obtain ⟨h5, s', h6⟩ := k2 s1 h1
    have hbal : s1.balance a = s.balance a := by unfold State.balance; rw [h5]
    rw [hbal] at h2
    split at h2
    · cases h2
    next hlt =>
    exact ⟨s', by simp only [bind_apply, subCoins_eq, if_neg hlt, h6]⟩

/-- C108, what the statistic does under a bank that asks first: an account that sends everything away stays
counted, because its balance is not yet zero when the restriction looks; a recipient without coins is counted
as with the real bank. -/
theorem C108_statistic {c : Cfg} {a b : Addr} {v : Int} {s s'' : State} (hv : 0 < v) (ha : a ≠ c.yieldAddr)
    (hb : b ≠ c.yieldAddr) (h : mockSendCoins c a b v s = .ok () s'') :
    s''.holders = s.holders + if b ≠ c.moduleAddr ∧ s.balance b = 0 then 1 else 0 := by
  unfold mockSendCoins at h
  rw [if_neg (by omega)] at h
  simp only [bind_ok, subCoins_eq, addCoins_eq] at h
  obtain ⟨_, s1, h1, _, s2, h2, h3⟩ := h
  have hb1 := sendRestriction_bal h1
  have hbal : s1.balance a = s.balance a := by unfold State.balance; rw [hb1]
  rw [hbal] at h2
  split at h2
  · cases h2
  next hlt =>
  cases h2
  cases h3
  by_cases hi : s.index = 0
  · exfalso
    unfold sendRestriction principalUp at h1
    rw [if_neg (by omega), if_neg ha, if_neg hb] at h1
    simp only [bind_apply, get_apply, hi, if_true] at h1
    cases h1
  obtain ⟨t, h4, r⟩ := restrict_spec c a b v s (by omega) ha hb hi
  rw [h4] at h1
  cases h1
  show s1.holders = _
  rw [r.held]
  unfold heldRecipient heldSender
  have hn : ¬ (a ≠ c.moduleAddr ∧ s.balance a = 0) := fun x => by have := x.2; omega
  rw [if_neg hn]
  split <;> rfl

theorem restrictAll_held {c : Cfg} {a : Addr} (ha : a ≠ c.yieldAddr) {outs : List (Addr × Int)}
    (ho : ∀ o ∈ outs, 0 < o.2 ∧ o.1 ≠ c.yieldAddr ∧ o.1 ≠ c.moduleAddr) {s s' : State} (hz : s.balance a ≠ 0)
    (h : restrictAll c a outs s = .ok () s') :
    s'.holders = s.holders + (outs.filter fun o => s.balance o.1 = 0).length := by
  induction outs generalizing s with
  | nil => cases h; rfl
  | cons o l ih =>
    obtain ⟨b, v⟩ := o
    obtain ⟨h0, hb, hm⟩ := ho (b, v) List.mem_cons_self
    unfold restrictAll at h
    simp only [bind_ok] at h
    obtain ⟨_, s1, h1, h2⟩ := h
    have hb1 := sendRestriction_bal h1
    have hbal : ∀ x, s1.balance x = s.balance x := fun x => by unfold State.balance; rw [hb1]
    have := ih (fun o h => ho o (List.mem_cons_of_mem _ h)) (by rw [hbal]; exact hz) h2
    rw [this]
    have hi : s.index ≠ 0 := by
      intro hi
      unfold sendRestriction principalUp at h1
      rw [if_neg (by simpa using h0.ne'), if_neg ha, if_neg hb] at h1
      simp only [bind_apply, get_apply, hi, if_true] at h1
      cases h1
    obtain ⟨t, h4, r⟩ := restrict_spec c a b v s (by simpa using h0.ne') ha hb hi
    rw [h4] at h1
    cases h1
    rw [r.held]
    unfold heldRecipient heldSender
    have hn : ¬ (a ≠ c.moduleAddr ∧ s.balance a = 0) := fun x => hz x.2
    rw [if_neg hn]
    simp only [hbal]
    by_cases h5 : s.balance b = 0
    · rw [if_pos ⟨hm, h5⟩, List.filter_cons_of_pos (by simpa using h5), List.length_cons]
      omega
    · rw [if_neg (fun x => h5 x.2), List.filter_cons_of_neg (by simpa using h5)]

/-- C108, what the statistic does in a multi-send under a bank that asks first: it grows by one for every
output to an account without coins, also when several outputs go to the same account; so it can count too
many, which it never does with the real bank (C43). -/
theorem C108_multi_statistic {c : Cfg} {a : Addr} {outs : List (Addr × Int)} {s s'' : State}
    (ha : a ≠ c.yieldAddr) (hz : s.balance a ≠ 0)
    (ho : ∀ o ∈ outs, 0 < o.2 ∧ o.1 ≠ c.yieldAddr ∧ o.1 ≠ c.moduleAddr)
    (h : mockMultiSend c a outs s = .ok () s'') :
    s''.holders = s.holders + (outs.filter fun o => s.balance o.1 = 0).length := by
  unfold mockMultiSend at h
  simp only [bind_ok, subCoins_eq, creditAll_eq] at h
  obtain ⟨_, s1, h1, _, s2, h2, h3⟩ := h
  split at h2
  · cases h2
  cases h2
  cases h3
  show s1.holders = _
  exact restrictAll_held ha ho hz h1

/-- Holders after a computation that succeeds. -/
def heldBy (x : M Unit) (s : State) : Option Nat :=
  match x s with
  | .ok _ t => some t.holders
  | _ => none

/-- Non-vacuity: Alice sends everything to an account without coins, in one transfer and in a multi-send with two
outputs.  Both banks carry it out; the real one ends with as many holders as before after the transfer, the
other one with one more; with two more after the multi-send. -/
example :
    let s := run Demo.cfg Demo.hist1 Demo.start
    let all := s.balance Demo.alice
    1 < all ∧ s.balance Demo.collector = 0 ∧
    heldBy (sendCoins Demo.cfg Demo.alice Demo.collector all) s = some s.holders ∧
    heldBy (mockSendCoins Demo.cfg Demo.alice Demo.collector all) s = some (s.holders + 1) ∧
    heldBy (mockMultiSend Demo.cfg Demo.alice [(Demo.collector, 1), (Demo.collector, all - 1)]) s = some (s.holders + 2) ∧
    (heldBy (multiSend Demo.cfg Demo.alice [(Demo.collector, 1), (Demo.collector, all - 1)]) s).isSome = true := by
  decide +kernel

end Dollar
