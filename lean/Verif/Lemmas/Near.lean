import Verif.Lemmas.Debt

/-
How much the principal of an account can change in an index update: at most by what the yield
account pays out.
-/
set_option linter.unnecessarySeqFocus false
namespace Dollar
open MM

theorem roundedUp_nonneg {a i : Int} (ha : 0 ≤ a) (hi : 0 < i) : 0 ≤ roundedUp a i :=
  Int.tdiv_nonneg (by have := mul_SCALE_nonneg ha; omega) hi.le

theorem roundedDown_nonneg {a i : Int} (ha : 0 ≤ a) (hi : 0 < i) : 0 ≤ roundedDown a i :=
  Int.tdiv_nonneg (mul_SCALE_nonneg ha) hi.le

/-- At an index of at least one, an amount is at most as many units of principal. -/
theorem up_le_self {a i : Int} (ha : 0 ≤ a) (hi : SCALE ≤ i) : roundedUp a i ≤ a := by
  have h0 : 0 < i := lt_of_lt_of_le (by decide) hi
  have h1 := (up_bounds ha h0).1
  have h2 : a * SCALE ≤ a * i := mul_le_mul_of_nonneg_left hi ha
  have h3 : (roundedUp a i - 1) * i < a * i := by omega
  have := lt_of_mul_lt_mul_right h3 h0.le
  omega

theorem down_le_self {a i : Int} (ha : 0 ≤ a) (hi : SCALE ≤ i) : roundedDown a i ≤ a :=
  (down_le_up ha (lt_of_lt_of_le (by decide) hi)).trans (up_le_self ha hi)

/-- A transfer changes no principal by more than its amount. -/
theorem Moved.near {c : Cfg} {s s' : State} {a b : Addr} {v : Int} (h : Moved c s a b v s') (h0 : 0 ≤ v)
    (hi : SCALE ≤ s.index) (x : Addr) :
    s.principalOf x - v ≤ s'.principalOf x ∧ s'.principalOf x ≤ s.principalOf x + v := by
  by_cases hz : v = 0
  · rw [h.zero hz]; omega
  by_cases hy : a = c.yieldAddr ∨ b = c.yieldAddr
  · have : s'.principalOf x = s.principalOf x := by unfold State.principalOf; rw [(h.skip hy).1]
    omega
  have hp := h.prin hz (fun e => hy (.inl e)) (fun e => hy (.inr e)) x
  have hi0 : 0 < s.index := lt_of_lt_of_le (by decide) hi
  have h1 := roundedUp_nonneg h0 hi0
  have h2 := up_le_self h0 hi
  have h3 := roundedDown_nonneg h0 hi0
  have h4 := down_le_self h0 hi
  rw [hp]
  split <;> split <;> (try split) <;> omega

/-- The principal that goes with staked yield is at most the yield. -/
theorem yieldPrincipal_le {y i : Int} (hy : 0 ≤ y) (hi : SCALE ≤ i) :
    0 ≤ yieldPrincipal y i ∧ yieldPrincipal y i ≤ y := by
  have hD : (0 : Int) < DEC := by decide
  have hden : DEC ≤ decQuoInt (decOfInt i) SCALE := by
    unfold decQuoInt decOfInt
    have h0 : 0 ≤ i * DEC := mul_nonneg (le_trans (by decide) hi) hD.le
    rw [Int.tdiv_eq_ediv_of_nonneg h0, Int.le_ediv_iff_mul_le (by decide)]
    rw [mul_comm]
    exact mul_le_mul_of_nonneg_right hi hD.le
  unfold yieldPrincipal
  generalize decQuoInt (decOfInt i) SCALE = den at hden
  have hden0 : 0 < den := hD.trans_le hden
  unfold decQuo decOfInt
  have ha0 : 0 ≤ y * DEC * (DEC * DEC) := mul_nonneg (mul_nonneg hy hD.le) (mul_nonneg hD.le hD.le)
  rw [Int.tdiv_eq_ediv_of_nonneg ha0]
  have hq0 : 0 ≤ y * DEC * (DEC * DEC) / den := Int.ediv_nonneg ha0 hden0.le
  have hq : y * DEC * (DEC * DEC) / den ≤ y * DEC * DEC := by
    have : y * DEC * (DEC * DEC) < (y * DEC * DEC + 1) * den := by
      have e : y * DEC * (DEC * DEC) = y * DEC * DEC * DEC := by ring
      have h1 : y * DEC * DEC * DEC ≤ y * DEC * DEC * den :=
        mul_le_mul_of_nonneg_left hden (mul_nonneg (mul_nonneg hy hD.le) hD.le)
      have e2 : (y * DEC * DEC + 1) * den = y * DEC * DEC * den + den := by ring
      omega
    have := Int.ediv_lt_of_lt_mul hden0 this
    omega
  generalize y * DEC * (DEC * DEC) / den = d at *
  have hc : 0 ≤ chopRound d ∧ chopRound d ≤ y * DEC := by
    unfold chopRound chopRoundPos
    rw [if_neg (by omega)]
    have hdm := Int.mul_ediv_add_emod d DEC
    have hr0 := Int.emod_nonneg d hD.ne'
    have hqq0 : 0 ≤ d / DEC := Int.ediv_nonneg hq0 hD.le
    generalize d / DEC = q at *
    generalize d % DEC = r at *
    change 1000000000000000000 * q + r = d at hdm
    change d ≤ y * 1000000000000000000 * 1000000000000000000 at hq
    have hDv : DEC = 1000000000000000000 := rfl
    rw [hDv]
    dsimp only
    split
    · omega
    · split
      · omega
      · split <;> omega
  unfold decTrunc
  rw [Int.tdiv_eq_ediv_of_nonneg hc.1]
  refine ⟨Int.ediv_nonneg hc.1 hD.le, ?_⟩
  have : chopRound d < (y + 1) * DEC := by
    have : (y + 1) * DEC = y * DEC + DEC := by ring
    omega
  have := Int.ediv_lt_of_lt_mul hD this
  omega

/-- What `Paid` reads. -/
def paidF (s : State) := (owedF s, s.supply)

/-- Seen from a state with principals `q` in which the yield account holds `B`: no principal has
changed by more than the yield account has paid. -/
structure Paid (c : Cfg) (B : Int) (q : Addr → Int) (s : State) : Prop where
  index : SCALE ≤ s.index
  bal : 0 ≤ s.balance c.yieldAddr
  supply : B ≤ s.supply
  near : ∀ x, q x - (B - s.balance c.yieldAddr) ≤ s.principalOf x ∧
    s.principalOf x ≤ q x + (B - s.balance c.yieldAddr)

namespace Paid
variable {c : Cfg} {B : Int} {q : Addr → Int} {s s' : State} {x y : Addr} {v : Int}

theorem of_eq (h : Paid c B q s) (hi : s'.index = s.index) (hu : s'.supply = s.supply)
    (hb : s'.balance c.yieldAddr = s.balance c.yieldAddr)
    (hp : ∀ x, s'.principalOf x = s.principalOf x) : Paid c B q s' :=
  ⟨hi ▸ h.index, hb ▸ h.bal, hu ▸ h.supply, fun x => by rw [hb, hp]; exact h.near x⟩

theorem congr (h : Paid c B q s) (e : paidF s' = paidF s := by rfl) : Paid c B q s' := by
  simp only [paidF, owedF, Prod.mk.injEq] at e
  obtain ⟨⟨e1, e2, e3⟩, e4⟩ := e
  exact h.of_eq e1 e4 (by unfold State.balance; rw [e2]) (fun x => by unfold State.principalOf; rw [e3])

/-- A payment by the yield account. -/
theorem fromYield_moved (h : Paid c B q s) (h0 : 0 ≤ v) (hm : Moved c s c.yieldAddr y v s') : Paid c B q s' := by
  have hb := hm.bal c.yieldAddr
  rw [if_pos rfl] at hb
  have hp : ∀ x, s'.principalOf x = s.principalOf x := fun x => by
    unfold State.principalOf; rw [(hm.skip (.inl rfl)).1]
  have he := hm.enough
  have hi : s'.index = s.index := hm.index
  have := h.bal
  refine ⟨hi ▸ h.index, ?_, hm.supply ▸ h.supply, fun x => ?_⟩
  · rw [hb]; split <;> rcases he with rfl | he <;> omega
  · rw [hp, hb]
    have := h.near x
    split <;> omega

/-- A transfer from an account to itself. -/
theorem self_moved (h : Paid c B q s) (hm : Moved c s x x v s') : Paid c B q s' := by
  by_cases hz : v = 0
  · rw [hm.zero hz]; exact h
  refine h.of_eq hm.index hm.supply ?_ fun z => ?_
  · rw [hm.bal]; split <;> omega
  by_cases hx : x = c.yieldAddr
  · unfold State.principalOf; rw [(hm.skip (.inl hx)).1]
  rw [hm.prin hz hx hx z]
  by_cases hxm : x = c.moduleAddr
  · rw [if_neg (fun e => e.2 hxm), if_neg (fun e => e.2 hxm)]; omega
  · rw [if_neg hxm]; split <;> omega

theorem sendSelf (hx : x ≠ c.yieldAddr) : Keeps (Paid c B q) (sendCoins c x x v) := ⟨fun s => by
  have := sendCoins_wp c x x v s
  unfold wp at this
  unfold Res.Ends
  generalize sendCoins c x x v s = r at *
  cases r with
  | ok _ s' => exact fun hs => hs.self_moved this
  | err e s' =>
    intro hs
    rcases this with ⟨e, _⟩ | ⟨_, e, _⟩
    · rw [e]; exact hs
    · exact absurd e hx
  | panic => trivial⟩

theorem sendYield (h0 : 0 ≤ v) : Keeps (Paid c B q) (sendModuleToAccount c c.yieldAddr y v) := by
  unfold sendModuleToAccount
  refine Keeps.ite (Keeps.fail _) ⟨fun s => ?_⟩
  have := sendCoins_wp c c.yieldAddr y v s
  unfold wp at this
  unfold Res.Ends
  generalize sendCoins c c.yieldAddr y v s = r at *
  cases r with
  | ok _ s' => exact fun hs => hs.fromYield_moved h0 this
  | err e s' =>
    intro hs
    rcases this with ⟨e, _⟩ | ⟨_, _, e, _⟩
    · rw [e]; exact hs
    · exact absurd rfl e
  | panic => trivial

theorem modify {f : State → State} (h : ∀ s, paidF (f s) = paidF s := by intro _; rfl) :
    Keeps (Paid c B q) (MM.modify f) := Keeps.modify fun s hs => hs.congr (h s)

theorem emit (e : Event) : Keeps (Paid c B q) (emit e) := Keeps.emit (fun _ _ h => h.congr) e

theorem takeRetry (p : Int) (i : String) : Keeps (Paid c B q) (takeRetry p i) := by
  unfold Dollar.takeRetry
  keeps <;> exact modify

theorem hypRoutes (l : List String) : Keeps (Paid c B q) (hypRoutes c l) := by
  induction l with
  | nil => exact Keeps.pure _
  | cons e t ih => unfold Dollar.hypRoutes; keeps

theorem claimModuleYield (y : Addr) : Keeps (Paid c B q) (claimModuleYield c y) := by
  unfold Dollar.claimModuleYield
  refine Keeps.bind Keeps.get fun s => HLe.ite (fun h => ?_) fun _ => Keeps.pure _
  exact Keeps.bind (sendYield h.le) fun _ => Keeps.pure _

variable (hc : c.WF) (env : Env)
include hc

theorem ibcTransfer (ch : String) (r : String) :
    Keeps (Paid c B q) (ibcTransfer c env ch (c.escrowAddr ch) r v) := by
  have := sendSelf (B := B) (q := q) (v := v) (hc.escrow_ne_yield ch)
  unfold Dollar.ibcTransfer ics4Check bookPacket
  keeps <;> exact modify

theorem ibcOne (r : KV String String) (ch : String) : Keeps (Paid c B q) (ibcOne c env r ch) := by
  unfold Dollar.ibcOne retryOnError
  refine Keeps.bind (claimModuleYield _) fun y => Keeps.bind (takeRetry _ _) fun p => ?_
  have := ibcTransfer (B := B) (q := q) (v := y + p) hc env ch ((r.get? ch).getD "")
  keeps <;> exact modify

theorem ibcLoop (r : KV String String) (l : List String) : Keeps (Paid c B q) (ibcLoop c env r l) := by
  induction l with
  | nil => exact Keeps.pure _
  | cons e t ih =>
    unfold Dollar.ibcLoop
    exact Keeps.bind (ibcOne hc env _ _) fun _ => ih

theorem warpTransfer (r : Route) (d : Nat) (b : Bytes) :
    Keeps (Paid c B q) (warpTransfer c env r d b v) := by
  have := sendSelf (B := B) (q := q) (v := v) hc.warp_ne_yield
  unfold Dollar.warpTransfer
  keeps <;> exact modify

theorem hypOne (rs : KV String String) (t y : Int) (r : Route) :
    Keeps (Paid c B q) (hypOne c env rs t y r) := by
  unfold Dollar.hypOne retryOnError
  refine Keeps.bind (takeRetry _ _) fun p => ?_
  have := fun d b => warpTransfer (B := B) (q := q) (v := yieldPortion r.collateral t y + p) hc env r d b
  keeps <;> first | exact this _ _ | exact modify

theorem hypLoop (rs : KV String String) (t y : Int) (l : List Route) :
    Keeps (Paid c B q) (hypLoop c env rs t y l) := by
  induction l with
  | nil => exact Keeps.pure _
  | cons e t ih =>
    unfold Dollar.hypLoop
    exact Keeps.bind (hypOne hc env _ _ _ _) fun _ => ih

omit hc env in
theorem of_wp {x : M α} (h : ∀ s, Paid c B q s → wp x s (fun _ s' => Paid c B q s') fun _ s' => Paid c B q s') :
    Keeps (Paid c B q) x := ⟨fun s => by
  have := h s
  unfold wp at this
  unfold Res.Ends
  generalize x s = r at *
  cases r with
  | ok => exact this
  | err => exact this
  | panic => trivial⟩

omit env in
/-- Season one: the yield of the staked vault goes to the flexible vault, and the corresponding
principal with it. -/
theorem claimStakedVaultYield : Keeps (Paid c B q) (claimStakedVaultYield c) := of_wp fun s hs => by
  unfold Dollar.claimStakedVaultYield
  simp only [wp.bind_iff, wp.get_iff]
  refine wp.ite (fun h => ?_) fun _ => by simpa only [wp.pure_iff] using hs
  refine wp.seq (sendModuleToAccount_wp c _ _ _ s) ?_ ?_
  · rintro _ s1 ⟨_, hm⟩
    simp only [wp.bind_iff, wp.get_iff]
    refine wp.ite (fun _ => trivial) fun _ => ?_
    have h1 := hs.fromYield_moved h.le hm
    have hb := hm.bal c.yieldAddr
    rw [if_pos rfl, if_neg hc.flexible_ne_yield.symm] at hb
    have hp : ∀ x, s1.principalOf x = s.principalOf x := fun x => by
      unfold State.principalOf; rw [(hm.skip (.inl rfl)).1]
    have hy := yieldPrincipal_le h.le h1.index
    simp only [addPrincipal]
    generalize claimable s c.stakedAddr = y at *
    generalize yieldPrincipal y s1.index = n at *
    show Paid c B q (prinAdded (prinAdded s1 c.stakedAddr (-n)) c.flexibleAddr n)
    refine ⟨h1.index, h1.bal, h1.supply, fun x => ?_⟩
    show q x - (B - s1.balance c.yieldAddr) ≤ _ ∧ _ ≤ q x + (B - s1.balance c.yieldAddr)
    rw [prinAdded_principalOf, prinAdded_principalOf, hp, hb]
    have := hs.near x
    split <;> split <;> omega
  · rintro _ s1 (e | e)
    · rw [e]; exact hs
    · rw [e.of_yield]; exact hs

omit env in
/-- Season two: the yield of the staked vault goes to the collector. -/
theorem handleSeasonTwo : Keeps (Paid c B q) (handleSeasonTwo c) := of_wp fun s hs => by
  unfold Dollar.handleSeasonTwo
  simp only [wp.bind_iff]
  refine (claimModuleYield_wp c _ s).mono ?_ fun _ s' e => by rw [e]; exact hs
  rintro y s1 ⟨hy, hm⟩
  have h0 : 0 ≤ y := hy ▸ claimable_nonneg s _
  have h1 := hs.fromYield_moved h0 hm
  refine wp.ite (fun h => ?_) fun _ => by simpa only [wp.pure_iff] using h1
  have hb := hm.bal c.yieldAddr
  rw [if_pos rfl, if_neg hc.staked_ne_yield.symm] at hb
  have hp : ∀ x, s1.principalOf x = s.principalOf x := fun x => by
    unfold State.principalOf; rw [(hm.skip (.inl rfl)).1]
  refine (sendCoins_wp c c.stakedAddr s1.collector y s1).mono ?_ ?_
  · intro _ s2 hm2
    have hcol : s1.collector ≠ c.yieldAddr := fun e =>
      (hm2.not_yield (by omega) e).elim hc.staked_ne_yield hc.staked_ne_module
    have hb2 := hm2.bal c.yieldAddr
    rw [if_neg hc.staked_ne_yield.symm, if_neg hcol.symm] at hb2
    refine ⟨hm2.index ▸ h1.index, by rw [hb2]; have := h1.bal; omega, hm2.supply ▸ h1.supply, fun x => ?_⟩
    have := hm2.near h0 h1.index x
    have := hs.near x
    rw [hb2, hb]
    rw [hp] at *
    omega
  · rintro _ s2 (⟨e, _⟩ | ⟨_, _, _, _, rfl⟩)
    · rw [e]; exact h1
    · exact h1.of_eq rfl rfl (by rw [balance_debit, if_neg hc.staked_ne_yield.symm]; omega) fun _ => rfl

omit env in
theorem handleVaults (i : Int) : Keeps (Paid c B q) (handleVaults c i) := by
  have h3 := handleSeasonTwo (B := B) (q := q) hc
  have h4 := claimStakedVaultYield (B := B) (q := q) hc
  unfold Dollar.handleVaults handleSeasonOne
  keeps <;> first | exact claimModuleYield _ | exact modify

theorem claimExternalIBC : Keeps (Paid c B q) (claimExternalIBC c env) := by
  unfold Dollar.claimExternalIBC
  keeps <;> exact ibcLoop hc _ _ _

theorem claimExternalHyperlane : Keeps (Paid c B q) (claimExternalHyperlane c env) := by
  unfold Dollar.claimExternalHyperlane
  keeps <;> first | exact claimModuleYield _ | exact hypRoutes _ | exact hypLoop hc _ _ _ _ _

/-- An index update changes no principal by more than the supply it leaves. -/
theorem updateIndex {i : Int} {s : State} (hg : Good c s) (hs : s.balance c.yieldAddr ≤ s.supply)
    (hi : SCALE ≤ s.index) :
    wp (updateIndex c env i) s
      (fun _ s' => ∀ x, s.principalOf x - s'.supply ≤ s'.principalOf x ∧ s'.principalOf x ≤ s.principalOf x + s'.supply)
      (fun _ s' => ∀ x, s.principalOf x - s'.supply ≤ s'.principalOf x ∧ s'.principalOf x ≤ s.principalOf x + s'.supply) := by
  have hb0 := hg.bal c.yieldAddr
  unfold Dollar.updateIndex
  refine wp.seq (Q := fun a s' => a = s ∧ s' = s) (E := fun _ _ => False) ⟨rfl, rfl⟩ ?_
    (fun _ _ h => h.elim)
  rintro s0 s1 ⟨rfl, rfl⟩
  refine wp.ite (fun _ x => ⟨by omega, by omega⟩) (fun hlt => ?_)
  have hgi := hg.indexSet (i := i) (hg.index.trans (by omega))
  refine wp.seq (Q := fun _ s' => s' = indexSet s1 i) (E := fun _ _ => False) rfl ?_
    (fun _ _ h => h.elim)
  rintro _ _ rfl
  refine wp.seq (accrueYield_wp hc _ hgi) ?_ (fun _ _ h => h.elim)
  intro _ s2 ha
  have hb := ha.bal c.yieldAddr
  rw [if_pos rfl] at hb
  change s2.balance c.yieldAddr = s1.balance c.yieldAddr + _ at hb
  have hsup := ha.supply
  change s2.supply = s1.supply + _ at hsup
  have hnn := ha.nonneg
  have hi2 : s2.index = i := (congrArg State.index ha.frame :)
  have hp2 : ∀ x, s2.principalOf x = s1.principalOf x := fun x => by
    unfold State.principalOf
    rw [show s2.principal = s1.principal from (congrArg State.principal ha.frame :)]
  have h0 : Paid c (s2.balance c.yieldAddr) s2.principalOf s2 :=
    ⟨by omega, by omega, by omega, fun x => by omega⟩
  have key := Keeps.bind (handleVaults (B := s2.balance c.yieldAddr) (q := s2.principalOf) hc i) fun _ =>
    Keeps.bind (claimExternalIBC hc env) fun _ => Keeps.bind (claimExternalHyperlane hc env) fun _ =>
      emit (.indexUpdated s1.index i s1.totalPrincipal (present s1.totalPrincipal i - s1.supply))
  have key := key.steps s2
  unfold Res.Ends at key
  unfold wp
  revert key
  generalize Dollar.handleVaults c i >>= _ = m
  cases m s2 with
  | ok _ s' =>
    intro key x
    have := (key h0).near x
    have := (key h0).supply
    have := (key h0).bal
    rw [hp2] at *
    omega
  | err _ s' =>
    intro key x
    have := (key h0).near x
    have := (key h0).supply
    have := (key h0).bal
    rw [hp2] at *
    omega
  | panic => exact fun _ => trivial

end Paid
end Dollar
