import Verif.Lemmas.Debt
import Verif.Lemmas.Yield
import Verif.Props.C50
import Mathlib.Data.List.Count

/-
How far all principals together may fall behind the balances.
-/
set_option linter.unnecessarySeqFocus false
namespace Dollar
open MM

/-- A transfer never changes the principal of the minting account. -/
theorem Moved.prin_module {c : Cfg} {s s' : State} {x y : Addr} {v : Int} (h : Moved c s x y v s') :
    s'.principalOf c.moduleAddr = s.principalOf c.moduleAddr := by
  by_cases hv : v = 0
  · rw [h.zero hv]
  by_cases hx : x = c.yieldAddr
  · unfold State.principalOf; rw [(h.skip (.inl hx)).1]
  by_cases hy : y = c.yieldAddr
  · unfold State.principalOf; rw [(h.skip (.inr hy)).1]
  rw [h.prin hv hx hy, if_neg (fun e => e.2 e.1.symm), if_neg (fun e => e.2 e.1.symm)]
  omega

/-- With one more unit of principal for each entry of `R`, every account's principal is worth its balance.
The yield account and the minting account have no principal by design. -/
structure CoveredBy (c : Cfg) (R : List Addr) (s : State) : Prop where
  index : 0 < s.index
  bal : ∀ a, 0 ≤ s.balance a
  prin : s.principalOf c.moduleAddr = 0
  debt : ∀ a, a ≠ c.yieldAddr → a ≠ c.moduleAddr → SCALE * s.balance a ≤ s.index * (s.principalOf a + R.count a)

namespace CoveredBy
variable {c : Cfg} {R : List Addr} {s s' : State} {x y : Addr} {v : Int}

theorem congr (h : CoveredBy c R s) (e : owedF s' = owedF s := by rfl) : CoveredBy c R s' := by
  simp only [owedF, Prod.mk.injEq] at e
  obtain ⟨e1, e2, e3⟩ := e
  have b : ∀ a, s'.balance a = s.balance a := fun a => by unfold State.balance; rw [e2]
  have p : ∀ a, s'.principalOf a = s.principalOf a := fun a => by unfold State.principalOf; rw [e3]
  exact ⟨e1 ▸ h.index, fun a => b a ▸ h.bal a, p _ ▸ h.prin, fun a h1 h2 => by rw [b, p, e1]; exact h.debt a h1 h2⟩

theorem mono {R' : List Addr} (h : CoveredBy c R s) (hR : ∀ a, R.count a ≤ R'.count a) : CoveredBy c R' s := by
  refine ⟨h.index, h.bal, h.prin, fun a h1 h2 => (h.debt a h1 h2).trans (mul_le_mul_of_nonneg_left ?_ h.index.le)⟩
  have := hR a; omega

theorem more (h : CoveredBy c R s) (L : List Addr) : CoveredBy c (L ++ R) s :=
  h.mono fun a => by rw [List.count_append]; omega

theorem raise (h : CoveredBy c R s) {i : Int} (hi : s.index ≤ i) : CoveredBy c R { s with index := i } := by
  refine ⟨show 0 < i from h.index.trans_le hi, h.bal, h.prin, fun a h1 h2 => (h.debt a h1 h2).trans ?_⟩
  refine mul_le_mul_of_nonneg_right hi ?_
  by_contra hn
  have k1 : s.index * (s.principalOf a + R.count a) < 0 := mul_neg_of_pos_of_neg h.index (by omega)
  have k2 : 0 ≤ SCALE * s.balance a := mul_nonneg (by decide) (h.bal a)
  have := h.debt a h1 h2
  omega

/-- Balances after a transfer stay non-negative. -/
theorem moved_bal (h : CoveredBy c R s) (hm : Moved c s x y v s') (h0 : 0 ≤ v) (a : Addr) : 0 ≤ s'.balance a := by
  rw [hm.bal]
  have := h.bal a
  rcases hm.enough with e | e
  · subst e; simp [this]
  · split
    · next e' => subst e'; split <;> omega
    · split <;> omega

/-- A transfer costs at most one unit of principal, of the payer. -/
theorem moved (h : CoveredBy c R s) (hm : Moved c s x y v s') (h0 : 0 ≤ v) (hx : x ≠ c.yieldAddr)
    (hx' : x ≠ c.moduleAddr) : CoveredBy c (x :: R) s' := by
  by_cases hv : v = 0
  · rw [hm.zero hv]; exact h.more [x]
  have hy : y ≠ c.yieldAddr := fun e => by rcases hm.not_yield hv e with h | h <;> contradiction
  have hi : s'.index = s.index := hm.index
  refine ⟨hi ▸ h.index, h.moved_bal hm h0, hm.prin_module.trans h.prin, fun a h1 h2 => ?_⟩
  have hp := hm.prin hv hx hy a
  have hb := hm.bal a
  rw [if_neg hx'] at hp
  have hd := h.debt a h1 h2
  have hu := up_bounds h0 h.index
  have hpos := h.index
  rw [hi]
  generalize roundedUp v s.index = r at *
  by_cases e1 : a = x
  · subst e1
    have hn : (((a :: R).count a : Nat) : Int) = R.count a + 1 := by simp
    by_cases e2 : a = y
    · have q1 : s'.balance a = s.balance a := by rw [hb]; simp [e2]
      have q2 : s'.principalOf a = s.principalOf a := by rw [hp]; simp [← e2, h2]
      rw [q1, q2, hn]
      have q3 : s.index * (s.principalOf a + (R.count a + 1)) = s.index * (s.principalOf a + R.count a) + s.index := by
        ring
      omega
    · have q1 : SCALE * s'.balance a = SCALE * s.balance a - v * SCALE := by rw [hb]; simp [e2]; ring
      have q2 : s'.principalOf a = s.principalOf a - r := by rw [hp]; simp [e2, h2]
      rw [q1, q2, hn]
      have q3 : s.index * (s.principalOf a - r + (R.count a + 1)) =
        s.index * (s.principalOf a + R.count a) - (r - 1) * s.index := by ring
      omega
  · have hn : (((x :: R).count a : Nat) : Int) = R.count a := by
      rw [List.count_cons_of_ne fun e => e1 e.symm]
    by_cases e2 : a = y
    · have q1 : SCALE * s'.balance a = SCALE * s.balance a + v * SCALE := by rw [hb]; simp [e1, ← e2]; ring
      have q2 : s'.principalOf a = s.principalOf a + r := by rw [hp]; simp [e1, ← e2, h2]
      rw [q1, q2, hn]
      have q3 : s.index * (s.principalOf a + r + R.count a) =
        s.index * (s.principalOf a + R.count a) + r * s.index := by ring
      omega
    · have q1 : s'.balance a = s.balance a := by rw [hb]; simp [e1, e2]
      have q2 : s'.principalOf a = s.principalOf a := by rw [hp]; simp [e1, e2]
      rw [q1, q2, hn]
      exact hd

/-- A transfer of an account to itself costs nothing. -/
theorem self (h : CoveredBy c R s) (hm : Moved c s x x v s') (h0 : 0 ≤ v) (hx : x ≠ c.yieldAddr)
    (hx' : x ≠ c.moduleAddr) : CoveredBy c R s' := by
  by_cases hv : v = 0
  · rw [hm.zero hv]; exact h
  have hi : s'.index = s.index := hm.index
  refine ⟨hi ▸ h.index, h.moved_bal hm h0, hm.prin_module.trans h.prin, fun a h1 h2 => ?_⟩
  have hp := hm.prin hv hx hx a
  have hb := hm.bal a
  rw [if_neg hx'] at hp
  have e1 : s'.balance a = s.balance a := by rw [hb]; split <;> omega
  have e2 : s'.principalOf a = s.principalOf a := by rw [hp]; split <;> omega
  rw [e1, e2, hi]
  exact h.debt a h1 h2

/-- Issuing coins costs the recipient at most one unit. -/
theorem issued (h : CoveredBy c R s) (hc : c.WF) (hm : Moved c s c.moduleAddr y v s') (h0 : 0 ≤ v) :
    CoveredBy c (y :: R) s' := by
  by_cases hv : v = 0
  · rw [hm.zero hv]; exact h.more [y]
  have hi : s'.index = s.index := hm.index
  refine ⟨hi ▸ h.index, h.moved_bal hm h0, hm.prin_module.trans h.prin, fun a h1 h2 => ?_⟩
  have hb := hm.bal a
  have hd := h.debt a h1 h2
  rw [if_neg h2] at hb
  by_cases hy : y = c.yieldAddr
  · have e : s'.principalOf a = s.principalOf a := by unfold State.principalOf; rw [(hm.skip (.inr hy)).1]
    rw [if_neg fun e => h1 (e.trans hy)] at hb
    have := ((h.more [y]).debt a h1 h2)
    rw [hb, e, hi]
    simpa using this
  have hp := hm.prin hv hc.yield_ne_module.symm hy a
  rw [if_neg fun e => h2 e.1, if_pos rfl] at hp
  have hu := down_bounds h0 h.index
  have hpos := h.index
  rw [hi]
  generalize roundedDown v s.index = r at *
  by_cases e2 : a = y
  · have hn : (((y :: R).count a : Nat) : Int) = R.count a + 1 := by simp [e2]
    have q1 : SCALE * s'.balance a = SCALE * s.balance a + v * SCALE := by rw [hb]; simp [e2]; ring
    have q2 : s'.principalOf a = s.principalOf a + r := by rw [hp]; simp [← e2, h2]
    rw [q1, q2, hn]
    have q3 : s.index * (s.principalOf a + r + (R.count a + 1)) =
      s.index * (s.principalOf a + R.count a) + (r + 1) * s.index := by ring
    omega
  · have hn : (((y :: R).count a : Nat) : Int) = R.count a := by
      rw [List.count_cons_of_ne fun e => e2 e.symm]
    have q1 : s'.balance a = s.balance a := by rw [hb]; simp [e2]
    have q2 : s'.principalOf a = s.principalOf a := by rw [hp]; simp [e2]
    rw [q1, q2, hn]
    exact hd

/-- A payout of the claimable yield costs nothing. -/
theorem claimed (h : CoveredBy c R s) (hm : Moved c s c.yieldAddr y v s') (hv : v ≤ claimable s y) (h0 : 0 ≤ v) :
    CoveredBy c R s' := by
  have hi : s'.index = s.index := hm.index
  refine ⟨hi ▸ h.index, h.moved_bal hm h0, hm.prin_module.trans h.prin, fun a h1 h2 => ?_⟩
  have hb := hm.bal a
  have hd := h.debt a h1 h2
  have e : s'.principalOf a = s.principalOf a := by unfold State.principalOf; rw [(hm.skip (.inl rfl)).1]
  rw [if_neg h1] at hb
  rw [hb, e, hi]
  by_cases hay : a = y
  · subst hay
    rw [if_pos rfl]
    by_cases hz : v = 0
    · subst hz
      have : SCALE * (s.balance a - 0 + 0) = SCALE * s.balance a := by ring
      omega
    have hcl := claimable_eq_yieldAt (s := s) (a := a) (h.bal a) h.index
    rw [hcl] at hv
    have hn : s.index * s.principalOf a ≤ s.index * (s.principalOf a + R.count a) :=
      mul_le_mul_of_nonneg_left (by omega) h.index.le
    have e1 : s.index * s.principalOf a = s.principalOf a * s.index := mul_comm _ _
    have hSC : SCALE = 10 ^ 12 := rfl
    rw [hSC] at hd ⊢
    unfold Spec.yieldAt at hv
    generalize s.principalOf a * s.index = z at *
    generalize s.index * (s.principalOf a + R.count a) = w at *
    split at hv <;> omega
  · rw [if_neg hay]
    have : SCALE * (s.balance a - 0 + 0) = SCALE * s.balance a := by ring
    omega

/-- Fewer coins need less cover. -/
theorem debited (h2 : CoveredBy c R s) (ha : v ≤ s.balance x) (h0 : 0 ≤ v) : CoveredBy c R (debit s x v) := by
  refine ⟨h2.index, fun a => ?_, h2.prin, fun a k1 k2 => ?_⟩
  · rw [balance_debit]; have := h2.bal a; split
    · next e => subst e; omega
    · omega
  · rw [balance_debit]
    refine le_trans ?_ (h2.debt a k1 k2)
    refine mul_le_mul_of_nonneg_left ?_ (by decide)
    split <;> omega

/-- Coins of the minting account need no cover. -/
theorem credited (h2 : CoveredBy c R s) (h0 : 0 ≤ v) : CoveredBy c R (credit s c.moduleAddr v) := by
  refine ⟨h2.index, fun a => ?_, h2.prin, fun a k1 k2 => ?_⟩
  · rw [balance_credit]; have := h2.bal a; split <;> omega
  · rw [balance_credit, if_neg k2]
    have := h2.debt a k1 k2
    rw [add_zero]; exact this

end CoveredBy

/-! ### Index updates -/

/-- Every non-panicking run costs at most the units listed. -/
structure Costs (c : Cfg) (L : List Addr) {α : Type} (x : M α) : Prop where
  steps : ∀ R, Steps (fun s s' => CoveredBy c R s → CoveredBy c (L ++ R) s') x

namespace Costs
variable {c : Cfg} {L K : List Addr} {α β : Type}

theorem of_keeps {x : M α} (h : ∀ R, Keeps (CoveredBy c R) x) : Costs c [] x := ⟨fun R => (h R).steps⟩
theorem mono {x : M α} (h : Costs c L x) (hk : ∀ a, L.count a ≤ K.count a) : Costs c K x := by
  refine ⟨fun R s => ?_⟩
  have := h.steps R s
  have hk' : ∀ a, (L ++ R).count a ≤ (K ++ R).count a := fun a => by
    rw [List.count_append, List.count_append]; have := hk a; omega
  unfold Res.Ends at this ⊢
  generalize x s = r at *
  cases r with
  | ok a s' => exact fun hs => (this hs).mono hk'
  | err e s' => exact fun hs => (this hs).mono hk'
  | panic => trivial
theorem bind {x : M α} {f : α → M β} (hx : Costs c L x) (hf : ∀ a, Costs c K (f a)) : Costs c (K ++ L) (x >>= f) := by
  refine ⟨fun R s => ?_⟩
  have h1 := hx.steps R s
  rw [bind_apply]
  have hm : ∀ {t}, CoveredBy c (L ++ R) t → CoveredBy c (K ++ L ++ R) t := fun h => h.mono fun a => by
    simp only [List.count_append]; omega
  cases hxs : x s with
  | ok a s' =>
    rw [hxs] at h1
    have h2 := (hf a).steps (L ++ R) s'
    simp only
    rw [← List.append_assoc] at h2
    cases hfs : f a s' with
    | ok b s'' => rw [hfs] at h2; exact fun hs => h2 (h1 hs)
    | err e s'' => rw [hfs] at h2; exact fun hs => h2 (h1 hs)
    | panic => trivial
  | err e s' => rw [hxs] at h1; exact fun hs => hm (h1 hs)
  | panic => trivial
theorem ok {x : M α} (hx : Costs c L x) {s s' : State} {a : α} {R : List Addr} (h : x s = .ok a s')
    (hs : CoveredBy c R s) : CoveredBy c (L ++ R) s' := by
  have := hx.steps R s
  rw [h] at this
  exact this hs
theorem ignore {x : M Unit} (hx : Costs c L x) : Costs c L (MM.ignore x) := by
  exact ⟨fun R => Steps.ignore (hx.steps R)⟩
theorem get_bind {f : State → M β} (h : ∀ s R, (f s s).Ends fun s' => CoveredBy c R s → CoveredBy c (L ++ R) s') :
    Costs c L (MM.get >>= f) := ⟨fun R s => by rw [bind_apply]; exact h s R⟩

theorem get_bind' {f : State → M β} (h : ∀ s, Costs c L (f s)) : Costs c L (MM.get >>= f) :=
  get_bind fun s R => (h s).steps R s
theorem ite {p : Prop} [Decidable p] {x y : M α} (hx : p → Costs c L x) (hy : ¬ p → Costs c L y) :
    Costs c L (if p then x else y) := by
  split
  · exact hx ‹_›
  · exact hy ‹_›
theorem pure (a : α) : Costs c L (Pure.pure a : M α) :=
  (of_keeps fun _ => Keeps.pure a).mono fun _ => by simp
theorem fail (e : Err) : Costs c L (MM.fail e : M α) :=
  (of_keeps fun _ => Keeps.fail e).mono fun _ => by simp

end Costs

namespace CoveredBy
variable {c : Cfg} {R : List Addr} {x y : Addr} {v : Int}

/-- A transfer that fails leaves at most a debit behind. -/
theorem failed {s s' : State} {e : Err} (h : CoveredBy c R s) (hf : sendCoins c x y v s = .err e s') (h0 : 0 ≤ v) :
    CoveredBy c R s' := by
  have hw := sendCoins_wp c x y v s
  unfold wp at hw
  rw [hf] at hw
  rcases hw with ⟨rfl, _⟩ | ⟨hv, _, _, _, hd⟩
  · exact h
  by_cases hlt : s.balance x < v
  · unfold sendCoins at hf
    rw [if_neg hv, bind_apply, subCoins_eq, if_pos hlt] at hf
    cases hf
    exact h
  · rw [hd]; exact h.debited (by omega) h0

theorem sendCost (h0 : 0 ≤ v) (hx : x ≠ c.yieldAddr) (hx' : x ≠ c.moduleAddr) : Costs c [x] (sendCoins c x y v) :=
  ⟨fun R s => by
  have h := sendCoins_wp c x y v s
  unfold wp at h
  unfold Res.Ends
  cases hr : sendCoins c x y v s with
  | ok _ s' => rw [hr] at h; exact fun hs => hs.moved h h0 hx hx'
  | err e s' => exact fun hs => (hs.failed hr h0).more [x]
  | panic => trivial⟩

theorem sendSelf (h0 : 0 ≤ v) (hx : x ≠ c.yieldAddr) (hx' : x ≠ c.moduleAddr) :
    Keeps (CoveredBy c R) (sendCoins c x x v) :=
  ⟨fun s => by
  have h := sendCoins_wp c x x v s
  unfold wp at h
  unfold Res.Ends
  cases hr : sendCoins c x x v s with
  | ok _ s' => rw [hr] at h; exact fun hs => hs.self h h0 hx hx'
  | err e s' => exact fun hs => hs.failed hr h0
  | panic => trivial⟩

theorem modify {f : State → State} (h : ∀ s, owedF (f s) = owedF s := by intro _; rfl) :
    Keeps (CoveredBy c R) (MM.modify f) := Keeps.modify fun s hs => hs.congr (h s)

theorem emit (e : Event) : Keeps (CoveredBy c R) (emit e) := Keeps.emit (fun _ _ h => h.congr) e

theorem takeRetry (p : Int) (i : String) : Keeps (CoveredBy c R) (takeRetry p i) := by
  unfold Dollar.takeRetry
  keeps <;> exact modify

theorem hypRoutes (l : List String) : Keeps (CoveredBy c R) (hypRoutes c l) := by
  induction l with
  | nil => exact Keeps.pure _
  | cons e t ih => unfold Dollar.hypRoutes; keeps

/-- Paying an account its own yield. -/
theorem claimModuleYield : Keeps (CoveredBy c R) (claimModuleYield c y) := by
  refine ⟨fun s => ?_⟩
  unfold Dollar.claimModuleYield sendModuleToAccount
  simp only [bind_apply, get_apply]
  split
  · next hy =>
    rw [bind_apply]
    by_cases hb : c.blocked y
    · simp only [hb, if_true]; exact fun h => h
    · simp only [hb]
      have h := sendCoins_wp c c.yieldAddr y (claimable s y) s
      unfold wp at h
      cases hr : sendCoins c c.yieldAddr y (claimable s y) s with
      | ok _ s' => rw [hr] at h; simpa [hr, Res.Ends] using fun hs : CoveredBy c R s => hs.claimed h (le_refl _) hy.le
      | err e s' => simpa [hr, Res.Ends] using fun hs : CoveredBy c R s => hs.failed hr hy.le
      | panic => simp [hr, Res.Ends]
  · exact fun h => h

variable (hc : c.WF)
include hc

theorem ibcTransfer (env : Env) (ch : String) (r : String) (h0 : 0 ≤ v) :
    Keeps (CoveredBy c R) (ibcTransfer c env ch (c.escrowAddr ch) r v) := by
  have := sendSelf (R := R) h0 (hc.escrow_ne_yield ch) (hc.escrow_ne_module ch)
  unfold Dollar.ibcTransfer ics4Check bookPacket
  keeps <;> exact modify

theorem ibcOne (env : Env) (r : KV String String) (ch : String) : Keeps (CoveredBy c R) (ibcOne c env r ch) := by
  unfold Dollar.ibcOne retryOnError
  refine Keeps.bind claimModuleYield fun y => Keeps.bind (takeRetry _ _) fun q =>
    HLe.ite (fun h => ?_) fun _ => Keeps.pure _
  have := ibcTransfer (R := R) hc env ch ((r.get? ch).getD "") h.le
  keeps <;> exact modify

theorem ibcLoop (env : Env) (r : KV String String) (l : List String) : Keeps (CoveredBy c R) (ibcLoop c env r l) := by
  induction l with
  | nil => exact Keeps.pure _
  | cons e t ih =>
    unfold Dollar.ibcLoop
    exact Keeps.bind (ibcOne hc env _ _) fun _ => ih

theorem warpTransfer (env : Env) (r : Route) (d : Nat) (b : Bytes) (h0 : 0 ≤ v) :
    Keeps (CoveredBy c R) (warpTransfer c env r d b v) := by
  have := sendSelf (R := R) h0 hc.warp_ne_yield hc.warp_ne_module
  unfold Dollar.warpTransfer
  keeps <;> exact modify

theorem hypOne (env : Env) (rs : KV String String) (t y : Int) (r : Route) :
    Keeps (CoveredBy c R) (hypOne c env rs t y r) := by
  unfold Dollar.hypOne retryOnError
  refine Keeps.bind (takeRetry _ _) fun q => HLe.ite (fun h => ?_) fun _ => Keeps.pure _
  have := fun d b => warpTransfer (R := R) hc env r d b h.le
  keeps <;> first | exact this _ _ | exact modify

theorem hypLoop (env : Env) (rs : KV String String) (t y : Int) (l : List Route) :
    Keeps (CoveredBy c R) (hypLoop c env rs t y l) := by
  induction l with
  | nil => exact Keeps.pure _
  | cons e t ih =>
    unfold Dollar.hypLoop
    exact Keeps.bind (hypOne hc env _ _ _ _) fun _ => ih

omit hc in
theorem accrueYield (d : Int) : Keeps (CoveredBy c R) (accrueYield c d) := by
  unfold Dollar.accrueYield
  refine Keeps.bind (Keeps.newCoin _) fun _ => HLe.ite (fun h => ?_) fun _ => Keeps.pure _
  refine Keeps.bind ?_ fun _ => Keeps.bind ?_ fun _ => modify
  · unfold mintCoins
    refine Keeps.bind ?_ fun _ => modify
    refine ⟨fun s => ?_⟩
    rw [addCoins_eq]
    exact fun hs => hs.credited h.le
  · refine ⟨fun s => ?_⟩
    have hw := sendCoins_wp c c.moduleAddr c.yieldAddr d s
    unfold wp at hw
    cases hr : sendCoins c c.moduleAddr c.yieldAddr d s with
    | ok _ s' =>
      rw [hr] at hw
      intro h2
      have hi : s'.index = s.index := hw.index
      refine ⟨hi ▸ h2.index, h2.moved_bal hw h.le, hw.prin_module.trans h2.prin, fun a k1 k2 => ?_⟩
      have e : s'.principalOf a = s.principalOf a := by unfold State.principalOf; rw [(hw.skip (.inr rfl)).1]
      have e2 : s'.balance a = s.balance a := by rw [hw.bal, if_neg k2, if_neg k1]; omega
      rw [e, e2, hi]
      exact h2.debt a k1 k2
    | err e s' => exact fun hs => hs.failed hr h.le
    | panic => trivial

theorem handleSeasonTwo : Costs c [c.stakedAddr] (handleSeasonTwo c) := by
  unfold Dollar.handleSeasonTwo
  refine Costs.bind (L := []) (K := [c.stakedAddr]) (.of_keeps fun _ => claimModuleYield) fun y => ?_
  refine Costs.ite (fun h => ?_) fun _ => Costs.pure _
  exact Costs.get_bind' fun s => sendCost h.le hc.staked_ne_yield hc.staked_ne_module

/-- The staked vault's yield goes to the flexible vault, and the principal it is worth with it: both roundings
together cost at most one unit of each. -/
theorem claimStakedVaultYield : Costs c [c.stakedAddr, c.flexibleAddr] (claimStakedVaultYield c) := by
  refine ⟨fun R s => ?_⟩
  unfold Dollar.claimStakedVaultYield sendModuleToAccount
  simp only [bind_apply, get_apply]
  split
  · next hy =>
    rw [bind_apply]
    by_cases hb : c.blocked c.flexibleAddr
    · simp only [hb, if_true]; exact fun h => h.more _
    · simp only [hb]
      have h := sendCoins_wp c c.yieldAddr c.flexibleAddr (claimable s c.stakedAddr) s
      unfold wp at h
      cases hr : sendCoins c c.yieldAddr c.flexibleAddr (claimable s c.stakedAddr) s with
      | ok _ s1 =>
        rw [hr] at h
        simp only [Bool.false_eq_true, if_false, hr, bind_apply, get_apply]
        split
        · trivial
        intro h2
        show CoveredBy c ([c.stakedAddr, c.flexibleAddr] ++ R) (prinAdded (prinAdded s1 c.stakedAddr (-(yieldPrincipal (claimable s c.stakedAddr) s1.index)))
          c.flexibleAddr (yieldPrincipal (claimable s c.stakedAddr) s1.index))
        have hi : s1.index = s.index := h.index
        rw [hi]
        have hcl := claimable_eq_yieldAt (s := s) (a := c.stakedAddr) (h2.bal _) h2.index
        have hpos := h2.index
        obtain ⟨b1, b2⟩ := yieldPrincipal_bounds hy.le hpos
        have hD : DEC = 1000000000000000000 := rfl
        have hSC : SCALE = 1000000000000 := rfl
        rw [List.cons_append, List.cons_append, List.nil_append]
        refine ⟨hi ▸ hpos, ?_, ?_, fun a k1 k2 => ?_⟩
        · intro a
          exact h2.moved_bal h hy.le a
        · rw [prinAdded_principalOf, prinAdded_principalOf, if_neg hc.flexible_ne_module.symm,
            if_neg hc.staked_ne_module.symm, h.prin_module, h2.prin]; rfl
        · have hb := h.bal a
          have hd := h2.debt a k1 k2
          have e : s1.principalOf a = s.principalOf a := by unfold State.principalOf; rw [(h.skip (.inl rfl)).1]
          rw [if_neg k1] at hb
          rw [prinAdded_principalOf, prinAdded_principalOf, e]
          show SCALE * s1.balance a ≤ s1.index * _
          rw [hi, hb]
          generalize claimable s c.stakedAddr = y at *
          generalize yieldPrincipal y s.index = z at *
          by_cases e1 : a = c.stakedAddr
          · subst e1
            rw [if_neg hc.staked_ne_flexible, if_neg hc.staked_ne_flexible, if_pos rfl]
            have hn : ((c.stakedAddr :: c.flexibleAddr :: R).count c.stakedAddr : Int) = R.count c.stakedAddr + 1 := by
              simp [hc.staked_ne_flexible.symm]
            rw [hn]
            have q1 : s.index * (s.principalOf c.stakedAddr + -z + 0 + (R.count c.stakedAddr + 1)) =
              s.principalOf c.stakedAddr * s.index + s.index * R.count c.stakedAddr - (z * s.index - y * SCALE)
                - y * SCALE + s.index := by ring
            have q2 : 0 ≤ s.index * (R.count c.stakedAddr : Int) := mul_nonneg hpos.le (by omega)
            rw [q1]
            rw [hSC, hD] at *
            unfold Spec.yieldAt at hcl
            generalize s.principalOf c.stakedAddr * s.index = P at *
            split at hcl <;> omega
          · by_cases e2 : a = c.flexibleAddr
            · subst e2
              rw [if_pos rfl, if_pos rfl, if_neg e1]
              have hn : ((c.stakedAddr :: c.flexibleAddr :: R).count c.flexibleAddr : Int) = R.count c.flexibleAddr + 1 := by
                simp [hc.staked_ne_flexible]
              rw [hn]
              have q1 : s.index * (s.principalOf c.flexibleAddr + 0 + z + (R.count c.flexibleAddr + 1)) =
                s.index * (s.principalOf c.flexibleAddr + R.count c.flexibleAddr) + (z + 1) * s.index := by ring
              have q2 : SCALE * (s.balance c.flexibleAddr - 0 + y) = SCALE * s.balance c.flexibleAddr + y * SCALE := by ring
              omega
            · rw [if_neg e2, if_neg e2, if_neg e1]
              have hn : ((c.stakedAddr :: c.flexibleAddr :: R).count a : Int) = R.count a := by
                rw [List.count_cons_of_ne (Ne.symm e1), List.count_cons_of_ne (Ne.symm e2)]
              rw [hn]
              simpa using hd
      | err e s' => simpa [hr, Res.Ends] using fun hs : CoveredBy c R s => (hs.failed hr hy.le).more [c.stakedAddr, c.flexibleAddr]
      | panic => simp [hr, Res.Ends]
  · exact fun h => h.more _

theorem handleVaults (i : Int) : Costs c [c.stakedAddr, c.flexibleAddr] (handleVaults c i) := by
  unfold Dollar.handleVaults
  refine Costs.get_bind' fun s => Costs.ite (fun _ => (handleSeasonTwo hc).mono fun a => by
    rw [show [c.stakedAddr, c.flexibleAddr] = [c.stakedAddr] ++ [c.flexibleAddr] from rfl, List.count_append]; omega) fun _ => ?_
  unfold handleSeasonOne
  refine Costs.bind (L := []) (K := [c.stakedAddr, c.flexibleAddr]) (.of_keeps fun _ => claimModuleYield) fun y => ?_
  refine Costs.bind (L := [c.stakedAddr, c.flexibleAddr]) (K := []) (claimStakedVaultYield hc) fun y => ?_
  exact .of_keeps fun _ => modify

/-- An index update costs at most one unit of each vault. -/
theorem updateIndex (env : Env) (i : Int) : Costs c [c.stakedAddr, c.flexibleAddr] (updateIndex c env i) := by
  refine ⟨fun R s => ?_⟩
  by_cases hi : i ≤ s.index
  · have : Dollar.updateIndex c env i s = .err .decreasingIndex s := by
      unfold Dollar.updateIndex
      simp only [bind_apply, get_apply, if_pos hi]; rfl
    rw [this]
    exact fun h => h.more _
  · let rest : M Unit := do
      Dollar.accrueYield c (present s.totalPrincipal i - s.supply)
      Dollar.handleVaults c i
      claimExternalIBC c env
      claimExternalHyperlane c env
      Dollar.emit (.indexUpdated s.index i s.totalPrincipal (present s.totalPrincipal i - s.supply))
    have key : Costs c [c.stakedAddr, c.flexibleAddr] rest := by
      refine Costs.bind (L := []) (K := [c.stakedAddr, c.flexibleAddr]) (.of_keeps fun _ => accrueYield _) fun _ => ?_
      refine Costs.bind (L := [c.stakedAddr, c.flexibleAddr]) (K := []) (handleVaults hc _) fun _ => .of_keeps fun R => ?_
      unfold claimExternalIBC claimExternalHyperlane
      keeps <;> first
        | exact emit _ | exact claimModuleYield | exact ibcLoop hc _ _ _
        | exact hypRoutes _ | exact hypLoop hc _ _ _ _ _ | exact modify
    have e : Dollar.updateIndex c env i s = rest { s with index := i } := by
      unfold Dollar.updateIndex
      simp only [bind_apply, get_apply, if_neg hi]
      rfl
    rw [e]
    have := key.steps R { s with index := i }
    unfold Res.Ends at this ⊢
    generalize rest { s with index := i } = r at *
    cases r with
    | ok _ s' => exact fun h => this (h.raise (by omega))
    | err _ s' => exact fun h => this (h.raise (by omega))
    | panic => trivial

end CoveredBy
end Dollar
