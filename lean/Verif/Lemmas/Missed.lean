import Verif.Lemmas.Holders
import Verif.Lemmas.Sort

/-
By how much the holder statistic can fall behind the number of holders (C43).
-/
set_option linter.unusedSimpArgs false
set_option linter.unnecessarySeqFocus false
namespace Dollar
open MM

/-- How far the statistic is behind. -/
def behind (c : Cfg) (s : State) : Int := nz c s - s.holders

/-- Number of accounts of a list without coins. -/
def empties (A : List Addr) (s : State) : Nat := (A.filter fun x => s.balance x = 0).length

theorem empties_mono {A : List Addr} {s s' : State} (h : ∀ x ∈ A, s'.balance x = 0 → s.balance x = 0) :
    empties A s' ≤ empties A s := by
  induction A with
  | nil => exact le_refl _
  | cons x t ih =>
    have := ih fun y hy => h y (List.mem_cons_of_mem _ hy)
    have h1 := h x List.mem_cons_self
    unfold empties at *
    rw [List.filter_cons, List.filter_cons]
    by_cases e : s'.balance x = 0
    · simp only [e, h1 e, decide_true, if_true, List.length_cons]; omega
    · simp only [e, decide_false, Bool.false_eq_true, if_false]
      split
      · rw [List.length_cons]; omega
      · exact this

theorem empties_lt {A : List Addr} {s s' : State} (h : ∀ x ∈ A, s'.balance x = 0 → s.balance x = 0) {b : Addr}
    (hb : b ∈ A) (h0 : s.balance b = 0) (h1 : s'.balance b ≠ 0) : empties A s' + 1 ≤ empties A s := by
  induction A with
  | nil => cases hb
  | cons x t ih =>
    have ht : ∀ y ∈ t, s'.balance y = 0 → s.balance y = 0 := fun y hy => h y (List.mem_cons_of_mem _ hy)
    have hm := empties_mono ht
    have hx := h x List.mem_cons_self
    unfold empties at *
    rw [List.filter_cons, List.filter_cons]
    rcases List.mem_cons.1 hb with rfl | hb
    · simp only [h0, h1, decide_true, decide_false, Bool.false_eq_true, if_true, if_false, List.length_cons]
      omega
    · have := ih ht hb
      by_cases e : s'.balance x = 0
      · simp only [e, hx e, decide_true, if_true, List.length_cons]; omega
      · simp only [e, decide_false, Bool.false_eq_true, if_false]
        split
        · rw [List.length_cons]; omega
        · exact this

theorem empties_congr {A : List Addr} {s s' : State} (h : s'.bal = s.bal) : empties A s' = empties A s := by
  unfold empties State.balance; rw [h]

/-- A transfer that is not a payment of yield does not put the statistic behind; a payment of yield only if the
recipient had nothing. -/
theorem Moved.missed {c : Cfg} {s s' : State} {a b : Addr} {amt : Int}
    (hb : ∀ x, 0 ≤ s.balance x) (h : Moved c s a b amt s') (h0 : 0 ≤ amt) :
    behind c s' ≤ behind c s + if a = c.yieldAddr ∧ s.balance b = 0 ∧ amt ≠ 0 ∧ b ≠ a then 1 else 0 := by
  by_cases hz : amt = 0
  · rw [h.zero hz]; split <;> omega
  have hnz : nz c s' = nz c s - ind c a (s.balance a) + ind c a (s.balance a - amt)
      - ind c b ((debit s a amt).balance b) + ind c b ((debit s a amt).balance b + amt) := by
    rw [nz_congr (h.store hz), nz_credit, nz_debit]
  have hen : amt ≤ s.balance a := h.enough.resolve_left hz
  have hdb : 0 ≤ (debit s a amt).balance b := by
    rw [balance_debit]
    have := hb b
    split
    · next e => subst e; omega
    · omega
  have hda : (debit s a amt).balance a = s.balance a - amt := by rw [balance_debit]; simp
  have le1 : ∀ k v, ind c k v ≤ 1 := fun k v => by unfold ind; split <;> omega
  unfold Dollar.behind
  rw [hnz]
  by_cases hay : a = c.yieldAddr
  · obtain ⟨-, -, hh⟩ := h.skip (.inl hay)
    rw [hh]
    have ia : ∀ v, ind c a v = 0 := fun v => by simp [ind, hay]
    rw [ia, ia]
    by_cases hab : b = a
    · subst hab; rw [ia, ia]; split <;> omega
    have e : (debit s a amt).balance b = s.balance b := by rw [balance_debit]; simp [hab]
    rw [e]
    by_cases hx : s.balance b = 0
    · rw [if_pos ⟨hay, hx, hz, hab⟩, hx, ind_zero]
      have := le1 b (0 + amt)
      omega
    · have : ind c b (s.balance b) = ind c b (s.balance b + amt) := by
        have h1 := hb b
        have : s.balance b + amt ≠ 0 := by omega
        simp [ind, hx, this]
      rw [this]
      split <;> omega
  rw [if_neg fun h => hay h.1]
  by_cases hby : b = c.yieldAddr
  · obtain ⟨-, -, hh⟩ := h.skip (.inr hby)
    rw [hh]
    have ha : a = c.moduleAddr := (h.not_yield hz hby).resolve_left hay
    have ia : ∀ v, ind c a v = 0 := fun v => by simp [ind, ha]
    have ib : ∀ v, ind c b v = 0 := fun v => by simp [ind, hby]
    rw [ia, ia, ib, ib]
    omega
  rw [h.held hz hay hby]
  unfold heldAfter
  rw [hda]
  generalize (debit s a amt).balance b = w at *
  have key : (s.holders : Int) - ind c a (s.balance a) + ind c a (s.balance a - amt) ≤
      heldSender c a (s.balance a - amt) s.holders := by
    unfold heldSender
    by_cases hc : a ≠ c.moduleAddr ∧ s.balance a - amt = 0
    · rw [if_pos hc]
      have e1 : ind c a (s.balance a) = 1 := by
        unfold ind; rw [if_pos ⟨by omega, hay, hc.1⟩]
      have e2 : ind c a (s.balance a - amt) = 0 := by rw [hc.2, ind_zero]
      rw [e1, e2]
      omega
    · rw [if_neg hc]
      have : ind c a (s.balance a) = ind c a (s.balance a - amt) := by
        by_cases ham : a = c.moduleAddr
        · simp [ind, ham]
        · have h1 : s.balance a - amt ≠ 0 := fun e => hc ⟨ham, e⟩
          have h2 : s.balance a ≠ 0 := by omega
          simp [ind, h1, h2]
      omega
  generalize heldSender c a (s.balance a - amt) s.holders = k at *
  have key2 : (heldRecipient c b w k : Int) = k - ind c b w + ind c b (w + amt) := by
    unfold heldRecipient
    by_cases hc : b ≠ c.moduleAddr ∧ w = 0
    · rw [if_pos hc, hc.2, ind_zero]
      unfold ind
      rw [if_pos ⟨by omega, hby, hc.1⟩]
      push_cast; ring
    · rw [if_neg hc]
      have : ind c b w = ind c b (w + amt) := by
        by_cases hbm : b = c.moduleAddr
        · simp [ind, hbm]
        · have h1 : w ≠ 0 := fun e => hc ⟨hbm, e⟩
          have h2 : w + amt ≠ 0 := by omega
          simp [ind, h1, h2]
      omega
  rw [key2]
  omega

/-- The statistic is behind by at most `B`, where the accounts of `A` without coins count as already missed. -/
structure Few (c : Cfg) (r : KV (Int × String) String) (A : List Addr) (B : Int) (s : State) : Prop where
  held : HLe c s
  recips : s.recipients = r
  few : behind c s + empties A s ≤ B

/-- The fields `Few` reads. -/
def fewF (s : State) := (heldF s, s.recipients)

theorem Few.congr {c : Cfg} {r : KV (Int × String) String} {A : List Addr} {B : Int} {s s' : State} (h : Few c r A B s)
    (e : fewF s' = fewF s := by rfl) : Few c r A B s' := by
  simp only [fewF, Prod.mk.injEq] at e
  obtain ⟨e1, e2⟩ := e
  refine ⟨h.held.congr e1, e2.trans h.recips, ?_⟩
  simp only [heldF, Prod.mk.injEq] at e1
  unfold behind
  rw [nz_congr e1.1, empties_congr e1.1, e1.2.2]
  exact h.few

theorem Few.moved {c : Cfg} {r : KV (Int × String) String} {A : List Addr} {B : Int} {s s' : State} {a b : Addr} {amt : Int}
    (hs : Few c r A B s) (h : Moved c s a b amt s') (h0 : 0 ≤ amt) (ha : b = a ∨ a ∉ A)
    (hy : a = c.yieldAddr → b ∈ A) : Few c r A B s' := by
  refine ⟨hs.held.moved h h0, h.recipients.trans hs.recips, ?_⟩
  have hg := h.missed hs.held.bal h0
  have hm : ∀ x ∈ A, s'.balance x = 0 → s.balance x = 0 := by
    intro x hx e
    rw [h.bal] at e
    have := hs.held.bal x
    rcases ha with rfl | ha
    · split at e <;> omega
    · rw [if_neg (fun e : x = a => ha (e ▸ hx))] at e
      split at e <;> omega
  have := hs.few
  split at hg
  · next hc =>
    obtain ⟨e1, e2, e3, e4⟩ := hc
    have h1 : s'.balance b ≠ 0 := by
      rw [h.bal, if_neg e4, if_pos rfl]; omega
    have := empties_lt hm (hy e1) e2 h1
    omega
  · have := empties_mono hm
    omega

namespace Few
variable {c : Cfg} {r : KV (Int × String) String} {A : List Addr} {B : Int} (hc : c.WF) (env : Env)

theorem sendCoins {a b : Addr} {v : Int} (h0 : 0 ≤ v) (ha : b = a ∨ a ∉ A) (hy : a = c.yieldAddr → b ∈ A)
    (hb : b = c.yieldAddr → a = c.yieldAddr ∨ a = c.moduleAddr) :
    Keeps (Few c r A B) (sendCoins c a b v) := ⟨fun s => by
  have := sendCoins_wp c a b v s
  unfold wp at this
  unfold Res.Ends
  generalize Dollar.sendCoins c a b v s = q at *
  cases q with
  | ok _ s' => exact fun hs => hs.moved this h0 ha hy
  | err e s' =>
    intro hs
    rcases this with ⟨e, _⟩ | ⟨_, hy, h1, h2, _⟩
    · rw [e]; exact hs
    · rcases hb hy with h | h <;> contradiction
  | panic => trivial⟩

theorem fromYield (hA : c.yieldAddr ∉ A) {b : Addr} (hb : b ∈ A) {v : Int} (h0 : 0 ≤ v) :
    Keeps (Few c r A B) (sendModuleToAccount c c.yieldAddr b v) := by
  unfold sendModuleToAccount
  exact Keeps.ite (Keeps.fail _) (sendCoins h0 (.inr hA) (fun _ => hb) fun _ => .inl rfl)

theorem modify {f : State → State} (h : ∀ s, fewF (f s) = fewF s := by intro _; rfl) :
    Keeps (Few c r A B) (MM.modify f) := Keeps.modify fun s hs => hs.congr (h s)

theorem emit (e : Event) : Keeps (Few c r A B) (emit e) := Keeps.emit (fun _ _ h => h.congr) e

theorem claimModuleYield (hA : c.yieldAddr ∉ A) {a : Addr} (ha : a ∈ A) :
    Keeps (Few c r A B) (claimModuleYield c a) := by
  unfold Dollar.claimModuleYield
  refine Keeps.bind Keeps.get fun s => HLe.ite (fun h => ?_) fun _ => Keeps.pure _
  exact Keeps.bind (fromYield hA ha h.le) fun _ => Keeps.pure _

theorem takeRetry (p : Int) (i : String) : Keeps (Few c r A B) (takeRetry p i) := by
  unfold Dollar.takeRetry
  keeps <;> exact modify

theorem incrementRetry (p : Int) (i : String) (a : Int) : Keeps (Few c r A B) (incrementRetry p i a) := modify

theorem incrementExtYield (p : Int) (i : String) (a : Int) : Keeps (Few c r A B) (incrementExtYield p i a) :=
  modify

include hc

theorem ibcTransfer (ch : String) (q : String) {v : Int} (h0 : 0 ≤ v) :
    Keeps (Few c r A B) (ibcTransfer c env ch (c.escrowAddr ch) q v) := by
  have := sendCoins (r := r) (A := A) (B := B) (a := c.escrowAddr ch) (b := c.escrowAddr ch) h0 (.inl rfl)
    (fun h => absurd h.symm (hc.mod_ne_escrow _ _ _)) fun h => absurd h.symm (hc.mod_ne_escrow _ _ _)
  unfold Dollar.ibcTransfer ics4Check bookPacket
  keeps <;> exact modify

theorem ibcOne (hA : c.yieldAddr ∉ A) (q : KV String String) (ch : String) (hch : c.escrowAddr ch ∈ A) :
    Keeps (Few c r A B) (ibcOne c env q ch) := by
  unfold Dollar.ibcOne retryOnError
  refine Keeps.bind (claimModuleYield hA hch) fun y => Keeps.bind (takeRetry _ _) fun z =>
    HLe.ite (fun h => ?_) fun _ => Keeps.pure _
  have := ibcTransfer (r := r) (A := A) (B := B) hc env ch ((q.get? ch).getD "") h.le
  keeps <;> exact modify

theorem ibcLoop (hA : c.yieldAddr ∉ A) (q : KV String String) (l : List String) (hl : ∀ i ∈ l, c.escrowAddr i ∈ A) :
    Keeps (Few c r A B) (ibcLoop c env q l) := by
  induction l with
  | nil => exact Keeps.pure _
  | cons e t ih =>
    unfold Dollar.ibcLoop
    exact Keeps.bind (ibcOne hc env hA _ _ (hl e List.mem_cons_self)) fun _ =>
      ih fun i hi => hl i (List.mem_cons_of_mem _ hi)

omit hc in
theorem hypRoutes (l : List String) : Keeps (Few c r A B) (hypRoutes c l) := by
  induction l with
  | nil => exact Keeps.pure _
  | cons e t ih => unfold Dollar.hypRoutes; keeps

theorem warpTransfer (q : Route) (d : Nat) (b : Bytes) {a : Int} (h0 : 0 ≤ a) :
    Keeps (Few c r A B) (warpTransfer c env q d b a) := by
  have := sendCoins (r := r) (A := A) (B := B) (a := c.warpAddr) (b := c.warpAddr) h0 (.inl rfl)
    (fun h => absurd h hc.warp_ne_yield) fun h => .inl h
  unfold Dollar.warpTransfer
  keeps <;> exact modify

theorem hypOne (rs : KV String String) (t y : Int) (q : Route) :
    Keeps (Few c r A B) (hypOne c env rs t y q) := by
  unfold Dollar.hypOne retryOnError
  refine Keeps.bind (takeRetry _ _) fun z => HLe.ite (fun h => ?_) fun _ => Keeps.pure _
  have := fun d b => warpTransfer (r := r) (A := A) (B := B) hc env q d b h.le
  keeps <;> first | exact this _ _ | exact modify

theorem hypLoop (rs : KV String String) (t y : Int) (l : List Route) :
    Keeps (Few c r A B) (hypLoop c env rs t y l) := by
  induction l with
  | nil => exact Keeps.pure _
  | cons e t ih =>
    unfold Dollar.hypLoop
    exact Keeps.bind (hypOne hc env _ _ _ _) fun _ => ih

omit hc in
theorem claimStakedVaultYield (hA : c.yieldAddr ∉ A) (hf : c.flexibleAddr ∈ A) :
    Keeps (Few c r A B) (claimStakedVaultYield c) := by
  unfold Dollar.claimStakedVaultYield Dollar.addPrincipal
  refine Keeps.bind Keeps.get fun s => HLe.ite (fun h => ?_) fun _ => Keeps.pure _
  have := fromYield (r := r) (B := B) hA hf h.le
  keeps <;> exact modify

omit hc in
theorem mintCoins (hA : c.moduleAddr ∉ A) (v : Int) (h0 : 0 ≤ v) : Keeps (Few c r A B) (mintCoins c v) := by
  unfold Dollar.mintCoins
  refine Keeps.bind ?_ fun _ => modify
  refine ⟨fun s => ?_⟩
  rw [addCoins_eq]
  intro hs
  have im : ∀ v, ind c c.moduleAddr v = 0 := fun v => by simp [ind]
  have hn : nz c (credit s c.moduleAddr v) = nz c s := by rw [nz_credit, im, im]; ring
  refine ⟨⟨fun x => ?_, hs.held.coll, ?_⟩, hs.recips, ?_⟩
  · rw [balance_credit]
    have := hs.held.bal x
    split <;> omega
  · rw [hn]; exact hs.held.le
  · have : empties A (credit s c.moduleAddr v) ≤ empties A s := empties_mono fun x hx e => by
      rw [balance_credit, if_neg (fun e : x = c.moduleAddr => hA (e ▸ hx))] at e
      exact (Int.add_zero _).symm.trans e
    have h1 : behind c (credit s c.moduleAddr v) = behind c s := by
      unfold behind; rw [hn]; rfl
    have := hs.few
    rw [h1]; omega

theorem accrueYield (hA : c.moduleAddr ∉ A) (d : Int) : Keeps (Few c r A B) (accrueYield c d) := by
  unfold Dollar.accrueYield
  refine Keeps.bind (Keeps.newCoin _) fun _ => HLe.ite (fun h => ?_) fun _ => Keeps.pure _
  exact Keeps.bind (mintCoins hA _ h.le) fun _ => Keeps.bind (sendCoins h.le (.inr hA)
    (fun h => absurd h hc.yield_ne_module.symm) fun _ => .inr rfl) fun _ => modify

end Few

/-- The accounts to which an index update pays yield: the two vaults, the warp account and the escrow account of
every channel with a recipient. -/
def paidByUpdate (c : Cfg) (r : KV (Int × String) String) : List Addr :=
  [c.flexibleAddr, c.warpAddr] ++ (r.filter fun e => e.1.1 = IBC).map fun e => c.escrowAddr e.1.2

theorem paidByUpdate_ne {c : Cfg} (hc : c.WF) (r : KV (Int × String) String) :
    c.yieldAddr ∉ paidByUpdate c r ∧ c.moduleAddr ∉ paidByUpdate c r ∧ c.stakedAddr ∉ paidByUpdate c r := by
  have key : ∀ x, x ≠ c.flexibleAddr → x ≠ c.warpAddr → (∀ ch, x ≠ c.escrowAddr ch) → x ∉ paidByUpdate c r := by
    intro x h1 h2 h3 h
    unfold paidByUpdate at h
    rcases List.mem_append.1 h with h | h
    · rcases List.mem_cons.1 h with h | h
      · exact h1 h
      · exact h2 (List.mem_singleton.1 h)
    · obtain ⟨e, _, he⟩ := List.mem_map.1 h
      exact h3 _ he.symm
  exact ⟨key _ hc.flexible_ne_yield.symm hc.warp_ne_yield.symm fun _ => hc.mod_ne_escrow _ _ _,
    key _ hc.flexible_ne_module.symm hc.warp_ne_module.symm fun _ => hc.mod_ne_escrow _ _ _,
    key _ hc.staked_ne_flexible (hc.mod_ne (by decide)) fun _ => hc.mod_ne_escrow _ _ _⟩

theorem Few.tail {c : Cfg} {r : KV (Int × String) String} {A : List Addr} {B : Int} {x : Addr} {s : State}
    (h : Few c r (x :: A) B s) : Few c r A B s := by
  refine ⟨h.held, h.recips, ?_⟩
  have h1 := h.few
  have : empties A s ≤ empties (x :: A) s := by
    unfold empties
    rw [List.filter_cons]
    split
    · rw [List.length_cons]; omega
    · exact le_refl _
  omega

theorem Keeps.ends {P : State → Prop} {α : Type} {x : M α} (hx : Keeps P x) {s : State} (hs : P s) : (x s).Ends P := by
  have := hx.steps s
  unfold Res.Ends at this ⊢
  generalize x s = q at *
  cases q with
  | ok _ _ => exact this hs
  | err _ _ => exact this hs
  | panic => trivial

/-- Season two pays the staked vault and sends the yield on: if the vault was empty this is missed once. -/
theorem handleSeasonTwo_few {c : Cfg} (hc : c.WF) {r : KV (Int × String) String} {B : Int} {s : State}
    (hs : Few c r (c.stakedAddr :: paidByUpdate c r) B s) :
    (handleSeasonTwo c s).Ends (Few c r (paidByUpdate c r) B) := by
  have hA : c.yieldAddr ∉ c.stakedAddr :: paidByUpdate c r := by
    intro h
    rcases List.mem_cons.1 h with h | h
    · exact hc.staked_ne_yield h.symm
    · exact (paidByUpdate_ne hc r).1 h
  have h1 := (Few.claimModuleYield (r := r) (B := B) hA (a := c.stakedAddr) List.mem_cons_self).steps s
  unfold handleSeasonTwo
  unfold Res.Ends at h1 ⊢
  rw [bind_apply]
  generalize claimModuleYield c c.stakedAddr s = q at *
  cases q with
  | panic => trivial
  | err e m => exact (h1 hs).tail
  | ok y m =>
    have hm := (h1 hs).tail
    show Res.Ends ((if 0 < y then do
      let s ← get
      sendCoins c c.stakedAddr s.collector y else pure () : M Unit) m) _
    by_cases hy : 0 < y
    · rw [if_pos hy]
      have e : (get >>= fun s => sendCoins c c.stakedAddr s.collector y : M Unit) m =
        sendCoins c c.stakedAddr m.collector y m := rfl
      rw [e]
      have := (Few.sendCoins (r := r) (A := paidByUpdate c r) (B := B) (a := c.stakedAddr) (b := m.collector) hy.le
        (.inr (paidByUpdate_ne hc r).2.2) (fun h => absurd h hc.staked_ne_yield)
        fun h => absurd h hm.held.coll).steps m
      unfold Res.Ends at this ⊢
      generalize sendCoins c c.stakedAddr m.collector y m = q at *
      cases q with
      | ok _ _ => exact this hm
      | err _ _ => exact this hm
      | panic => trivial
    · rw [if_neg hy]; exact hm

/-- An index update misses at most the accounts it pays that had nothing. -/
theorem updateIndex_few {c : Cfg} (hc : c.WF) (env : Env) (i : Int) {B : Int} {s : State}
    (hs : Few c s.recipients (c.stakedAddr :: paidByUpdate c s.recipients) B s) :
    (updateIndex c env i s).Ends (Few c s.recipients (paidByUpdate c s.recipients) B) := by
  obtain ⟨n1, n2, n3⟩ := paidByUpdate_ne hc s.recipients
  generalize hr : s.recipients = r at *
  have m2 : c.moduleAddr ∉ c.stakedAddr :: paidByUpdate c r := by
    intro h
    rcases List.mem_cons.1 h with h | h
    · exact hc.staked_ne_module h.symm
    · exact n2 h
  have rest : Keeps (Few c r (paidByUpdate c r) B) (do
      claimExternalIBC c env
      claimExternalHyperlane c env
      emit (.indexUpdated s.index i s.totalPrincipal (present s.totalPrincipal i - s.supply)) : M Unit) := by
    have hf : c.flexibleAddr ∈ paidByUpdate c r := by unfold paidByUpdate; simp
    have hw : c.warpAddr ∈ paidByUpdate c r := by unfold paidByUpdate; simp
    refine Keeps.bind ?_ fun _ => Keeps.bind ?_ fun _ => Few.emit _
    · refine ⟨fun m => ?_⟩
      unfold claimExternalIBC
      have e : (get >>= fun s => ibcLoop c env (recipientsBy s IBC) (sortedIds env s IBC) : M Unit) m =
        ibcLoop c env (recipientsBy m IBC) (sortedIds env m IBC) m := rfl
      rw [e]
      by_cases hm : m.recipients = r
      · refine (Few.ibcLoop hc env n1 _ _ fun id hid => ?_).steps m
        have : id ∈ (recipientsBy m IBC).map Prod.fst := ((sortStrings_perm _).trans (env.mapOrder_perm _)).mem_iff.1 hid
        obtain ⟨p, hp, rfl⟩ := List.mem_map.1 this
        unfold recipientsBy at hp
        obtain ⟨x, hx, he⟩ := List.mem_filterMap.1 hp
        split at he
        · next hx1 =>
          cases he
          unfold paidByUpdate
          refine List.mem_append_right _ (List.mem_map.2 ⟨x, List.mem_filter.2 ⟨hm ▸ hx, ?_⟩, rfl⟩)
          simpa using hx1
        · cases he
      · unfold Res.Ends
        cases ibcLoop c env (recipientsBy m IBC) (sortedIds env m IBC) m with
        | ok _ _ => exact fun h => absurd h.recips hm
        | err _ _ => exact fun h => absurd h.recips hm
        | panic => trivial
    · unfold claimExternalHyperlane
      have h2 := Few.claimModuleYield (r := r) (B := B) n1 hw
      keeps <;> first | exact Few.hypRoutes _ | exact Few.hypLoop hc _ _ _ _ _
  have mid : ∀ m, Few c r (c.stakedAddr :: paidByUpdate c r) B m →
      (handleVaults c i m).Ends (Few c r (paidByUpdate c r) B) := by
    intro m hm
    have e : handleVaults c i m = (if m.seasonOneEnded then handleSeasonTwo c else handleSeasonOne c i) m := rfl
    rw [e]
    split
    · exact handleSeasonTwo_few hc hm
    · have hf : c.flexibleAddr ∈ paidByUpdate c r := by unfold paidByUpdate; simp
      have h1 := Few.claimModuleYield (r := r) (B := B) n1 hf
      have h2 := Few.claimStakedVaultYield (r := r) (B := B) n1 hf
      have : Keeps (Few c r (paidByUpdate c r) B) (handleSeasonOne c i) := by
        unfold handleSeasonOne
        keeps <;> exact Few.modify
      have := this.steps m
      unfold Res.Ends at this ⊢
      generalize handleSeasonOne c i m = q at *
      cases q with
      | ok _ _ => exact this hm.tail
      | err _ _ => exact this hm.tail
      | panic => trivial
  unfold updateIndex
  rw [bind_apply, get_apply]
  by_cases hi : i ≤ s.index
  · simp only [if_pos hi]; exact hs.tail
  simp only [if_neg hi]
  have hs1 : Few c r (c.stakedAddr :: paidByUpdate c r) B { s with index := i } := hs.congr
  have h1 := (Few.accrueYield (r := r) (B := B) hc m2 (present s.totalPrincipal i - s.supply)).steps { s with index := i }
  rw [bind_apply]
  show Res.Ends (Bind.bind (accrueYield c (present s.totalPrincipal i - s.supply)) _ { s with index := i }) _
  rw [bind_apply]
  generalize accrueYield c (present s.totalPrincipal i - s.supply) { s with index := i } = q at *
  cases q with
  | panic => trivial
  | err e m => exact (h1 hs1).tail
  | ok u m =>
    have h2 := mid m (h1 hs1)
    show Res.Ends (Bind.bind (handleVaults c i) _ m) _
    rw [bind_apply]
    generalize handleVaults c i m = q at *
    cases q with
    | panic => trivial
    | err e m' => exact h2
    | ok u m' => exact rest.ends h2

end Dollar
