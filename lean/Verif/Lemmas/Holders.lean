import Verif.Lemmas.Deliver
import Verif.Lemmas.Shape
import Verif.Lemmas.VInv2

/-
The holder statistic against the number of accounts that hold coins.
-/
set_option linter.unnecessarySeqFocus false
set_option linter.unusedSectionVars false
namespace Dollar
open MM

/-- Whether an account with balance `v` counts as a holder. -/
def ind (c : Cfg) (k : Addr) (v : Int) : Int :=
  if v ≠ 0 ∧ k ≠ c.yieldAddr ∧ k ≠ c.moduleAddr then 1 else 0

/-- Number of accounts with a non-zero balance, as a sum. -/
def nz (c : Cfg) (s : State) : Int := s.bal.sum (ind c)

theorem ind_zero (c : Cfg) (k : Addr) : ind c k 0 = 0 := by simp [ind]
theorem ind_nonneg (c : Cfg) (k : Addr) (v : Int) : 0 ≤ ind c k v := by unfold ind; split <;> omega

theorem at'_ind (c : Cfg) (s : State) (k : Addr) : s.bal.at' k (ind c) = ind c k (s.balance k) := by
  unfold KV.at' State.balance
  cases s.bal.get? k with
  | none => simp [ind_zero]
  | some v => simp

theorem nz_debit (c : Cfg) (s : State) (a : Addr) (amt : Int) :
    nz c (debit s a amt) = nz c s - ind c a (s.balance a) + ind c a (s.balance a - amt) := by
  show KV.sum (s.bal.set a (s.balance a - amt)) (ind c) = _
  rw [KV.sum_set, at'_ind]; rfl

theorem nz_credit (c : Cfg) (s : State) (a : Addr) (amt : Int) :
    nz c (credit s a amt) = nz c s - ind c a (s.balance a) + ind c a (s.balance a + amt) := by
  show KV.sum (s.bal.set a (s.balance a + amt)) (ind c) = _
  rw [KV.sum_set, at'_ind]; rfl

theorem nz_nonneg (c : Cfg) (s : State) : 0 ≤ nz c s := KV.sum_nonneg fun _ _ => ind_nonneg _ _ _

theorem nz_congr {c : Cfg} {s s' : State} (h : s'.bal = s.bal) : nz c s' = nz c s := by
  unfold nz; rw [h]

/-- The statistic is at most the number of holders. -/
structure HLe (c : Cfg) (s : State) : Prop where
  bal : ∀ x, 0 ≤ s.balance x
  coll : s.collector ≠ c.yieldAddr
  le : (s.holders : Int) ≤ nz c s

/-- The fields `HLe` reads. -/
def heldF (s : State) := (s.bal, s.collector, s.holders)

theorem HLe.congr {c : Cfg} {s s' : State} (h : HLe c s) (e : heldF s' = heldF s := by rfl) :
    HLe c s' := by
  simp only [heldF, Prod.mk.injEq] at e
  obtain ⟨e1, e2, e3⟩ := e
  refine ⟨fun x => ?_, by rw [e2]; exact h.coll, ?_⟩
  · show 0 ≤ (s'.bal.get? x).getD 0
    rw [e1]; exact h.bal x
  · rw [e3, nz_congr e1]; exact h.le

/-- A transfer changes the number of holders as it changes the statistic, except that a payment
from the yield account to an account without coins is not counted. -/
theorem Moved.count {c : Cfg} {s s' : State} {a b : Addr} {amt : Int}
    (hb : ∀ x, 0 ≤ s.balance x) (h : Moved c s a b amt s') (h0 : 0 ≤ amt)  :
    ((s.holders : Int) ≤ nz c s → (s'.holders : Int) ≤ nz c s') ∧
    ((a ≠ c.yieldAddr ∨ s.balance b ≠ 0 ∨ amt = 0) → (s.holders : Int) = nz c s →
      (s'.holders : Int) = nz c s') := by
  by_cases hz : amt = 0
  · rw [h.zero hz]; exact ⟨id, fun _ => id⟩
  have hnz : nz c s' = nz c s - ind c a (s.balance a) + ind c a (s.balance a - amt)
      - ind c b ((debit s a amt).balance b) + ind c b ((debit s a amt).balance b + amt) := by
    rw [nz_congr (h.store hz), nz_credit, nz_debit]
  have hen : amt ≤ s.balance a := h.enough.resolve_left hz
  have hdb : 0 ≤ (debit s a amt).balance b := by
    rw [balance_debit]
    have := hb b
    split
    · next e => subst e; omega
    · omega
  have hda : (debit s a amt).balance a = s.balance a - amt := by rw [balance_debit]; simp
  rw [hnz]
  by_cases hay : a = c.yieldAddr
  · obtain ⟨-, -, hh⟩ := h.skip (.inl hay)
    rw [hh]
    have ia : ∀ v, ind c a v = 0 := fun v => by simp [ind, hay]
    rw [ia, ia]
    constructor
    · intro hle
      have : ind c b ((debit s a amt).balance b) ≤ ind c b ((debit s a amt).balance b + amt) := by
        unfold ind
        split
        · next hi => rw [if_pos ⟨by omega, hi.2⟩]
        · split <;> omega
      omega
    · intro hx he
      have : ind c b ((debit s a amt).balance b) = ind c b ((debit s a amt).balance b + amt) := by
        by_cases hab : b = a
        · subst hab; rw [ia, ia]
        · have hx := (hx.resolve_left (not_not.2 hay)).resolve_right hz
          have : (debit s a amt).balance b = s.balance b := by rw [balance_debit]; simp [hab]
          rw [this] at hdb ⊢
          have : s.balance b + amt ≠ 0 := by omega
          simp [ind, hx, this]
      omega
  by_cases hby : b = c.yieldAddr
  · obtain ⟨-, -, hh⟩ := h.skip (.inr hby)
    rw [hh]
    have ha : a = c.moduleAddr := (h.not_yield hz hby).resolve_left hay
    have ia : ∀ v, ind c a v = 0 := fun v => by simp [ind, ha]
    have ib : ∀ v, ind c b v = 0 := fun v => by simp [ind, hby]
    rw [ia, ia, ib, ib]
    omega
  rw [h.held hz hay hby]
  unfold heldAfter
  rw [hda]
  generalize (debit s a amt).balance b = w at *
  have hA : nz c s - ind c a (s.balance a) + ind c a (s.balance a - amt) =
      nz c (debit s a amt) := (nz_debit _ _ _ _).symm
  have hn := nz_nonneg c (debit s a amt)
  rw [hA]
  have key : ((s.holders : Int) ≤ nz c s →
        (heldSender c a (s.balance a - amt) s.holders : Int) ≤ nz c (debit s a amt)) ∧
      ((s.holders : Int) = nz c s →
        (heldSender c a (s.balance a - amt) s.holders : Int) = nz c (debit s a amt)) := by
    rw [← hA] at hn ⊢
    unfold heldSender
    by_cases hc : a ≠ c.moduleAddr ∧ s.balance a - amt = 0
    · rw [if_pos hc]
      have e1 : ind c a (s.balance a) = 1 := by
        unfold ind; rw [if_pos ⟨by omega, hay, hc.1⟩]
      have e2 : ind c a (s.balance a - amt) = 0 := by rw [hc.2, ind_zero]
      rw [e1, e2] at hn ⊢
      omega
    · rw [if_neg hc]
      have : ind c a (s.balance a) = ind c a (s.balance a - amt) := by
        by_cases ham : a = c.moduleAddr
        · simp [ind, ham]
        · have h1 : s.balance a - amt ≠ 0 := fun e => hc ⟨ham, e⟩
          have h2 : s.balance a ≠ 0 := by omega
          simp [ind, h1, h2]
      omega
  generalize heldSender c a (s.balance a - amt) s.holders = k at *
  have key2 : (heldRecipient c b w k : Int) = k - ind c b w + ind c b (w + amt) := by
    unfold heldRecipient
    by_cases hc : b ≠ c.moduleAddr ∧ w = 0
    · rw [if_pos hc, hc.2, ind_zero]
      unfold ind
      rw [if_pos ⟨by omega, hby, hc.1⟩]
      push_cast; ring
    · rw [if_neg hc]
      have : ind c b w = ind c b (w + amt) := by
        by_cases hbm : b = c.moduleAddr
        · simp [ind, hbm]
        · have h1 : w ≠ 0 := fun e => hc ⟨hbm, e⟩
          have h2 : w + amt ≠ 0 := by omega
          simp [ind, h1, h2]
      omega
  rw [key2]
  constructor
  · intro h; have := key.1 h; omega
  · intro _ h; have := key.2 h; omega

theorem HLe.moved {c : Cfg} {s s' : State} {a b : Addr} {amt : Int}
    (hs : HLe c s) (h : Moved c s a b amt s') (h0 : 0 ≤ amt) : HLe c s' where
  bal x := by
    rw [h.bal]
    have := hs.bal x
    rcases h.enough with e | e
    · subst e; simp [this]
    · split
      · next hx => subst hx; split <;> omega
      · split <;> omega
  coll := by rw [h.collector]; exact hs.coll
  le := (h.count hs.bal h0).1 hs.le

namespace HLe
variable {c : Cfg} (hc : c.WF) (env : Env)
include hc

theorem sendCoins {a b : Addr} {v : Int} (h0 : 0 ≤ v)
    (hb : b = c.yieldAddr → a = c.yieldAddr ∨ a = c.moduleAddr) :
    Keeps (HLe c) (sendCoins c a b v) := ⟨fun s => by
  have := sendCoins_wp c a b v s
  unfold wp at this
  unfold Res.Ends
  generalize Dollar.sendCoins c a b v s = r at *
  cases r with
  | ok _ s' => exact fun hs => hs.moved this h0
  | err e s' =>
    intro hs
    rcases this with ⟨e, _⟩ | ⟨_, hy, h1, h2, _⟩
    · rw [e]; exact hs
    · rcases hb hy with h | h <;> contradiction
  | panic => trivial⟩

theorem fromYield (b : Addr) {v : Int} (h0 : 0 ≤ v) :
    Keeps (HLe c) (sendModuleToAccount c c.yieldAddr b v) := by
  unfold sendModuleToAccount
  exact Keeps.ite (Keeps.fail _) (sendCoins hc h0 fun _ => .inl rfl)

omit hc in
theorem modify {f : State → State} (h : ∀ s, heldF (f s) = heldF s := by intro _; rfl) :
    Keeps (HLe c) (MM.modify f) := Keeps.modify fun s hs => hs.congr (h s)

omit hc in
theorem ite {α : Type} {p : Prop} [Decidable p] {x y : M α} {P : State → Prop} (hx : p → Keeps P x)
    (hy : ¬ p → Keeps P y) : Keeps P (if p then x else y) := by
  split
  · exact hx ‹_›
  · exact hy ‹_›

omit hc in
theorem emit (e : Event) : Keeps (HLe c) (emit e) := Keeps.emit (fun _ _ h => h.congr) e

theorem claimModuleYield (a : Addr) : Keeps (HLe c) (claimModuleYield c a) := by
  unfold Dollar.claimModuleYield
  refine Keeps.bind Keeps.get fun s => ite (fun h => ?_) fun _ => Keeps.pure _
  exact Keeps.bind (fromYield hc a h.le) fun _ => Keeps.pure _

omit hc in
theorem takeRetry (p : Int) (i : String) : Keeps (HLe c) (takeRetry p i) := by
  unfold Dollar.takeRetry
  keeps <;> exact modify

omit hc in
theorem incrementRetry (p : Int) (i : String) (a : Int) : Keeps (HLe c) (incrementRetry p i a) := modify

omit hc in
theorem incrementExtYield (p : Int) (i : String) (a : Int) : Keeps (HLe c) (incrementExtYield p i a) :=
  modify

theorem ibcTransfer (ch : String) (a : Addr) (r : String) {v : Int} (h0 : 0 ≤ v) :
    Keeps (HLe c) (ibcTransfer c env ch a r v) := by
  have := sendCoins hc (a := a) (b := c.escrowAddr ch) h0 fun h => absurd h.symm (hc.mod_ne_escrow _ _ _)
  unfold Dollar.ibcTransfer ics4Check bookPacket
  keeps <;> exact modify

theorem ibcOne (r : KV String String) (ch : String) : Keeps (HLe c) (ibcOne c env r ch) := by
  unfold Dollar.ibcOne retryOnError
  refine Keeps.bind (claimModuleYield hc _) fun y => Keeps.bind (takeRetry _ _) fun q =>
    ite (fun h => ?_) fun _ => Keeps.pure _
  have := ibcTransfer hc env ch (c.escrowAddr ch) ((r.get? ch).getD "") h.le
  keeps <;> exact modify

theorem ibcLoop (r : KV String String) (l : List String) : Keeps (HLe c) (ibcLoop c env r l) := by
  induction l with
  | nil => exact Keeps.pure _
  | cons e t ih =>
    unfold Dollar.ibcLoop
    exact Keeps.bind (ibcOne hc env _ _) fun _ => ih

omit hc in
theorem hypRoutes (l : List String) : Keeps (HLe c) (hypRoutes c l) := by
  induction l with
  | nil => exact Keeps.pure _
  | cons e t ih => unfold Dollar.hypRoutes; keeps

theorem warpTransfer (r : Route) (d : Nat) (b : Bytes) {a : Int} (h0 : 0 ≤ a) :
    Keeps (HLe c) (warpTransfer c env r d b a) := by
  have := sendCoins hc (a := c.warpAddr) (b := c.warpAddr) h0 fun h => .inl h
  unfold Dollar.warpTransfer
  keeps <;> exact modify

theorem hypOne (rs : KV String String) (t y : Int) (r : Route) :
    Keeps (HLe c) (hypOne c env rs t y r) := by
  unfold Dollar.hypOne retryOnError
  refine Keeps.bind (takeRetry _ _) fun q => ite (fun h => ?_) fun _ => Keeps.pure _
  have := fun d b => warpTransfer hc env r d b h.le
  keeps <;> first | exact this _ _ | exact modify

theorem hypLoop (rs : KV String String) (t y : Int) (l : List Route) :
    Keeps (HLe c) (hypLoop c env rs t y l) := by
  induction l with
  | nil => exact Keeps.pure _
  | cons e t ih =>
    unfold Dollar.hypLoop
    exact Keeps.bind (hypOne hc env _ _ _ _) fun _ => ih

omit hc in
theorem addPrincipal (a : Addr) (v : Int) : Keeps (HLe c) (addPrincipal a v) := modify

theorem claimStakedVaultYield : Keeps (HLe c) (claimStakedVaultYield c) := by
  unfold Dollar.claimStakedVaultYield
  refine Keeps.bind Keeps.get fun s => ite (fun h => ?_) fun _ => Keeps.pure _
  have := fromYield hc c.flexibleAddr h.le
  keeps <;> exact addPrincipal _ _

omit hc in
theorem mintCoins (v : Int) (h0 : 0 ≤ v) : Keeps (HLe c) (mintCoins c v) := by
  unfold Dollar.mintCoins
  refine Keeps.bind ?_ fun _ => modify
  refine ⟨fun s => ?_⟩
  rw [addCoins_eq]
  intro hs
  refine ⟨fun x => ?_, hs.coll, ?_⟩
  · rw [balance_credit]
    have := hs.bal x
    split <;> omega
  · rw [nz_credit]
    have : ∀ v, ind c c.moduleAddr v = 0 := fun v => by simp [ind]
    rw [this, this]
    have := hs.le
    show (s.holders : Int) ≤ _
    omega

theorem handleSeasonTwo : Keeps (HLe c) (handleSeasonTwo c) := by
  unfold Dollar.handleSeasonTwo
  refine Keeps.bind (claimModuleYield hc _) fun y => ite (fun h => ?_) fun _ => Keeps.pure _
  refine ⟨fun s => ?_⟩
  unfold Res.Ends
  have e : (get >>= fun s => Dollar.sendCoins c c.stakedAddr s.collector y : M Unit) s =
    Dollar.sendCoins c c.stakedAddr s.collector y s := rfl
  rw [e]
  by_cases hco : s.collector = c.yieldAddr
  · cases Dollar.sendCoins c c.stakedAddr s.collector y s with
    | ok _ _ => exact fun hs => absurd hco hs.coll
    | err _ _ => exact fun hs => absurd hco hs.coll
    | panic => trivial
  · exact (sendCoins hc h.le fun h => absurd h hco).steps s

theorem accrueYield (d : Int) : Keeps (HLe c) (accrueYield c d) := by
  unfold Dollar.accrueYield
  refine Keeps.bind (Keeps.newCoin _) fun _ => ite (fun h => ?_) fun _ => Keeps.pure _
  exact Keeps.bind (mintCoins _ h.le) fun _ => Keeps.bind (sendCoins hc h.le fun _ => .inr rfl) fun _ =>
    modify

theorem updateIndex (i : Int) : Keeps (HLe c) (updateIndex c env i) := by
  have h1 := accrueYield hc
  have h2 := claimModuleYield hc
  have h3 := handleSeasonTwo hc
  have h4 := claimStakedVaultYield hc
  unfold Dollar.updateIndex handleVaults handleSeasonOne claimExternalIBC claimExternalHyperlane
  keeps <;> first
    | exact emit _ | exact h1 _ | exact h2 _ | exact ibcLoop hc _ _ _
    | exact hypRoutes _ | exact hypLoop hc _ _ _ _ _ | exact modify

end HLe

/-- Effect of a state change on the holder statistic; exact if `e`. -/
structure Cnt (c : Cfg) (e : Prop) (s s' : State) : Prop where
  le : HLe c s → HLe c s'
  eq : e → HLe c s → (s.holders : Int) = nz c s → (s'.holders : Int) = nz c s'

namespace Cnt
variable {c : Cfg} {e : Prop} {s s' s'' : State}

theorem of_eq (h : heldF s' = heldF s := by rfl) : Cnt c e s s' where
  le hs := hs.congr h
  eq _ _ hn := by
    simp only [heldF, Prod.mk.injEq] at h
    rw [h.2.2, nz_congr h.1]; exact hn

theorem trans (h1 : Cnt c e s s') (h2 : Cnt c e s' s'') : Cnt c e s s'' :=
  ⟨fun h => h2.le (h1.le h), fun he h hn => h2.eq he (h1.le h) (h1.eq he h hn)⟩

theorem mono {e' : Prop} (h : Cnt c e s s') (he : e' → e) : Cnt c e' s s' := ⟨h.le, fun x => h.eq (he x)⟩

theorem of_moved {a b : Addr} {amt : Int} (h : Moved c s a b amt s') (h0 : 0 ≤ amt)
    (he : e → a ≠ c.yieldAddr ∨ s.balance b ≠ 0 ∨ amt = 0) : Cnt c e s s' :=
  ⟨fun hs => hs.moved h h0, fun x hs hn => (h.count hs.bal h0).2 (he x) hn⟩

end Cnt

theorem OneOk.cnt {c : Cfg} (hc : c.WF) {signer : String} {a : Addr} {v : Int} {p : PosEntry}
    {amt : Int} {e : Prop} {s s' : State} (hd : c.decode signer = some a)
    (hpa : p.address = a) (hu : c.IsUser a) (hf : e → v = FLEXIBLE → s.balance (flexAcct c a p.time) ≠ 0)
    (h : OneOk c signer a v p amt s s') : Cnt c e s s' := by
  cases h with
  | staked m hv ha hm e =>
    rw [posAddr_eq hc hd] at hm
    subst e
    exact (Cnt.of_moved hm ha fun _ => .inl (acctOf_ne_yield hc _ _ _)).trans Cnt.of_eq
  | flexible s1 m3 m4 owed y hv hr hy h3 hn h4 e =>
    rw [posAddr_eq hc hd] at h3 h4 hy
    subst e
    have q1 : Cnt c e s s1 ∧ s1.balance (flexAcct c a p.time) = s.balance (flexAcct c a p.time) := by
      rcases hr.run with ⟨_, _, rfl⟩ | ⟨_, _, _, m, hm, rfl⟩
      · exact ⟨Cnt.of_eq, rfl⟩
      · refine ⟨Cnt.trans (s' := { { s with totalFlexible := s.totalFlexible - roundedDown amt p.index } with
            rewards := rewardsAfter s.rewards p.index s.index (roundedDown amt p.index) }) Cnt.of_eq
            ((Cnt.of_moved hm hr.nonneg fun _ => .inl hc.flexible_ne_yield).trans Cnt.of_eq), ?_⟩
        show m.balance _ = _
        rw [hm.bal, if_neg (flexAcct_ne_flexible hc _ _), if_neg]
        · simp; rfl
        · rw [hpa]; exact (hu.ne_flexAcct _ _).symm
    have hy0 : 0 ≤ y := by rw [hy]; exact claimable_nonneg _ _
    refine q1.1.trans (Cnt.trans (s' := { s1 with vstats := { s1.vstats with
      flexDistributed := s1.vstats.flexDistributed + owed } }) Cnt.of_eq
      ((Cnt.of_moved h3 hy0 fun he => .inr (.inl ?_)).trans
        ((Cnt.of_moved h4 hn fun _ => .inl (acctOf_ne_yield hc _ _ _)).trans Cnt.of_eq)))
    have := hf he hv
    rw [← q1.2] at this
    unfold acctOf
    rw [if_pos hv]
    exact this

theorem LoopOk.cnt {c : Cfg} (hc : c.WF) {signer : String} {a : Addr} {v : Int} {l : List PosEntry}
    {e : Prop} {rem removed rem' removed' : Int} {s s' : State} (hd : c.decode signer = some a)
    (hu : c.IsUser a) (hi : V0 c s) (hp : Pending s a v l) (h0 : 0 ≤ rem)
    (hf : e → v = FLEXIBLE → ∀ p ∈ l, 0 < p.amount)
    (h : LoopOk c signer a v l rem removed s rem' removed' s') : Cnt c e s s' := by
  induction h with
  | nil => exact Cnt.of_eq
  | stop => exact Cnt.of_eq
  | step p t rem removed s m rem' removed' s' hne _ h1 _ ih =>
    have hpa := hp.addr p List.mem_cons_self
    have hpv := hp.vault p List.mem_cons_self
    have hget := hp.stored p List.mem_cons_self
    have ho := hi.entry _ (KV.mem_of_get? hget)
    obtain ⟨b0, b1, b2⟩ := amountToRemove_bounds (p := p) h0 ho.amount
    obtain ⟨g1, g2, g3⟩ := hi.of_one hc hd hu hpa hpv hget b0 b1 h1
    refine (h1.cnt hc hd hpa hu fun he hv => ?_).trans
      (ih g1 (hp.tail g2) (by omega) fun he hv q hq => hf he hv q (List.mem_cons_of_mem _ hq))
    have h2 := hi.flex _ (KV.mem_of_get? hget) (hpv.trans hv)
    have h3 := hf he hv p List.mem_cons_self
    have h2 : p.amount ≤ s.balance (flexAcct c p.address p.time) := h2
    rw [hpa] at h2
    omega

/-! ### Multi-send -/

theorem restricted_bal {c : Cfg} {s s1 : State} {a b : Addr} {amt : Int} (r : Restricted c s a b amt s1) :
    s1.bal = s.bal := by rw [r.frame]

/-- Outputs of a multi-send, while the sender still has coins. -/
theorem multiOutputs_eq {c : Cfg} {a : Addr} (ha : a ≠ c.yieldAddr) (ham : a ≠ c.moduleAddr)
    {outs : List (Addr × Int)} (hp : ∀ o ∈ outs, 0 < o.2) {s s' : State} {u : Unit}
    (hi : s.index ≠ 0) (h : multiSendOutputs c a outs s = .ok u s') (hs : ∀ x, 0 ≤ s.balance x)
    (hb : s.balance a ≠ 0) : (s'.holders : Int) - nz c s' = s.holders - nz c s := by
  induction outs generalizing s with
  | nil =>
    obtain ⟨_, rfl⟩ := pure_ok.1 h
    rfl
  | cons o t ih =>
    obtain ⟨b, amt⟩ := o
    have hpos := hp _ List.mem_cons_self
    have hpos : 0 < amt := hpos
    unfold multiSendOutputs at h
    simp only [bind_ok] at h
    obtain ⟨_, s1, h1, _, s2, h2, h3⟩ := h
    have hby : b ≠ c.yieldAddr := by
      intro hb
      unfold sendRestriction at h1
      rw [if_neg hpos.ne', if_neg ha, if_pos hb, if_neg ham] at h1
      cases h1
    obtain ⟨s1', h1', r⟩ := restrict_spec c a b amt s hpos.ne' ha hby hi
    rw [h1] at h1'
    cases h1'
    rw [addCoins_eq] at h2
    cases h2
    have hb1 : ∀ x, s1.balance x = s.balance x := fun x => by
      show ((s1.bal).get? x).getD 0 = _
      rw [r.frame]; rfl
    have hi2 : (credit s1 b amt).index ≠ 0 := by
      show s1.index ≠ 0
      rw [r.frame]; exact hi
    rw [ih (fun o ho => hp o (List.mem_cons_of_mem _ ho)) hi2 h3
      (fun x => by rw [balance_credit, hb1]; have := hs x; split <;> omega)
      (by rw [balance_credit, hb1]; have := hs a; split <;> omega)]
    show (s1.holders : Int) - _ = _
    rw [nz_credit, hb1, nz_congr (restricted_bal r), r.held]
    have e1 : heldSender c a (s.balance a) s.holders = s.holders := by
      unfold heldSender; rw [if_neg fun h => hb h.2]
    rw [e1]
    have hw := hs b
    generalize s.balance b = w at *
    generalize s.holders = k
    have key2 : (heldRecipient c b w k : Int) = k - ind c b w + ind c b (w + amt) := by
      unfold heldRecipient
      by_cases hc : b ≠ c.moduleAddr ∧ w = 0
      · rw [if_pos hc, hc.2, ind_zero]
        unfold ind
        rw [if_pos ⟨by omega, hby, hc.1⟩]
        push_cast; ring
      · rw [if_neg hc]
        have : ind c b w = ind c b (w + amt) := by
          by_cases hbm : b = c.moduleAddr
          · simp [ind, hbm]
          · have h1 : w ≠ 0 := fun e => hc ⟨hbm, e⟩
            have h2 : w + amt ≠ 0 := by omega
            simp [ind, h1, h2]
        omega
    rw [key2]; ring

/-- Outputs of a multi-send: `d` is 1 while the emptied sender has not been subtracted yet. -/
theorem multiOutputs_le {c : Cfg} {a : Addr} (ha : a ≠ c.yieldAddr) (ham : a ≠ c.moduleAddr)
    {outs : List (Addr × Int)} (hp : ∀ o ∈ outs, 0 < o.2) {s s' : State} {u : Unit}
    (hi : s.index ≠ 0) (h : multiSendOutputs c a outs s = .ok u s') (hs : ∀ x, 0 ≤ s.balance x)
    (hle : (s.holders : Int) ≤ nz c s + (if s.balance a = 0 ∧ outs ≠ [] then 1 else 0)) :
    (s'.holders : Int) ≤ nz c s' := by
  induction outs generalizing s with
  | nil =>
    obtain ⟨_, rfl⟩ := pure_ok.1 h
    simpa using hle
  | cons o t ih =>
    obtain ⟨b, amt⟩ := o
    have hpos := hp _ List.mem_cons_self
    have hpos : 0 < amt := hpos
    unfold multiSendOutputs at h
    simp only [bind_ok] at h
    obtain ⟨_, s1, h1, _, s2, h2, h3⟩ := h
    have hby : b ≠ c.yieldAddr := by
      intro hb
      unfold sendRestriction at h1
      rw [if_neg hpos.ne', if_neg ha, if_pos hb, if_neg ham] at h1
      cases h1
    obtain ⟨s1', h1', r⟩ := restrict_spec c a b amt s hpos.ne' ha hby hi
    rw [h1] at h1'
    cases h1'
    rw [addCoins_eq] at h2
    cases h2
    have hb1 : ∀ x, s1.balance x = s.balance x := fun x => by
      show ((s1.bal).get? x).getD 0 = _
      rw [r.frame]; rfl
    have hi2 : (credit s1 b amt).index ≠ 0 := by
      show s1.index ≠ 0
      rw [r.frame]; exact hi
    refine ih (fun o ho => hp o (List.mem_cons_of_mem _ ho)) hi2 h3
      (fun x => by rw [balance_credit, hb1]; have := hs x; split <;> omega) ?_
    have hn := nz_nonneg c s
    have goal : ((credit s1 b amt).holders : Int) ≤ nz c (credit s1 b amt) := by
      show (s1.holders : Int) ≤ _
      rw [nz_credit, hb1, nz_congr (restricted_bal r), r.held]
      have e1 : (heldSender c a (s.balance a) s.holders : Int) ≤ nz c s := by
        unfold heldSender
        by_cases hz : s.balance a = 0
        · rw [if_pos ⟨ham, hz⟩]
          rw [if_pos ⟨hz, by simp⟩] at hle
          omega
        · rw [if_neg fun h => hz h.2]
          rw [if_neg fun h => hz h.1] at hle
          omega
      generalize heldSender c a (s.balance a) s.holders = k at *
      have hw := hs b
      generalize s.balance b = w at *
      have key2 : (heldRecipient c b w k : Int) = k - ind c b w + ind c b (w + amt) := by
        unfold heldRecipient
        by_cases hc : b ≠ c.moduleAddr ∧ w = 0
        · rw [if_pos hc, hc.2, ind_zero]
          unfold ind
          rw [if_pos ⟨by omega, hby, hc.1⟩]
          push_cast; ring
        · rw [if_neg hc]
          have : ind c b w = ind c b (w + amt) := by
            by_cases hbm : b = c.moduleAddr
            · simp [ind, hbm]
            · have h1 : w ≠ 0 := fun e => hc ⟨hbm, e⟩
              have h2 : w + amt ≠ 0 := by omega
              simp [ind, h1, h2]
          omega
      rw [key2]; omega
    split <;> omega

end Dollar
