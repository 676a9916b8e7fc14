import Verif.Props.C41
import Verif.Props.C54
import Verif.Lemmas.Near

/-
C70: the supply is bounded by what was delivered, grown by the index.
-/
set_option maxRecDepth 100000
namespace Dollar
open MM Spec

/-- The tokens a request mints, none if there is no request. -/
def Spec.mintedBy : Option Content → Int
  | some q => q.minted
  | none => 0

/-- The tokens a message delivers. -/
def Spec.deliveredBy (env : Env) : Msg → Int
  | .deliver vaa => mintedBy (content env vaa)
  | _ => 0

/-- All deliveries of a history, each counted in units of principal at the index it left behind. -/
def Spec.deliveredUnits (c : Cfg) : History → State → Int
  | [], _ => 0
  | (env, m) :: t, s =>
    (if (exec c env m s).isOk then units (deliveredBy env m) (step c env m s).index else 0) +
      deliveredUnits c t (step c env m s)

/-- All amounts delivered in a history. -/
def Spec.deliveredTotal (c : Cfg) : History → State → Int
  | [], _ => 0
  | (env, m) :: t, s =>
    (if (exec c env m s).isOk then deliveredBy env m else 0) + deliveredTotal c t (step c env m s)

/-- The number of successful deliveries of tokens in a history. -/
def Spec.deliveries (c : Cfg) : History → State → Nat
  | [], _ => 0
  | (env, m) :: t, s =>
    (if (exec c env m s).isOk ∧ deliveredBy env m ≠ 0 then 1 else 0) + deliveries c t (step c env m s)

/-- The bound that is carried along: `k` units of principal are at least the total principal and
are worth at least the supply. -/
structure Bnd (k : Int) (s : State) : Prop where
  index : 0 < s.index
  k0 : 0 ≤ k
  supply : 0 ≤ s.supply
  total : s.totalPrincipal ≤ k
  worth : SCALE * s.supply ≤ s.index * k

namespace Bnd
variable {c : Cfg} {k : Int} {s s' : State}

theorem of_le (h : Bnd k s) (h1 : s'.index = s.index) (h0 : 0 ≤ s'.supply) (h2 : s'.supply ≤ s.supply)
    (h3 : s'.totalPrincipal ≤ s.totalPrincipal) : Bnd k s' := by
  refine ⟨h1 ▸ h.index, h.k0, h0, h3.trans h.total, ?_⟩
  rw [h1]
  exact (mul_le_mul_of_nonneg_left h2 (by decide)).trans h.worth

theorem of_UI (h : Bnd k s) {i : Int} (hu : UI c s i s') : Bnd k s' := by
  rcases hu.issued with ⟨h1, h2⟩ | ⟨h1, h2, h3⟩
  · exact h.of_le h2 (h1 ▸ h.supply) h1.le hu.totalPrincipal.le
  · have hi : 0 < i := h.index.trans h2
    have hs : 0 ≤ s'.supply := h.supply.trans hu.supply_mono
    refine ⟨h1 ▸ hi, h.k0, hs, hu.totalPrincipal ▸ h.total, ?_⟩
    rw [h1]
    have hS : (0 : Int) < SCALE := by decide
    rcases Int.lt_or_le s.totalPrincipal 0 with hp | hp
    · have hz : s.totalPrincipal * i ≤ 0 := (mul_neg_of_neg_of_pos hp hi).le
      have : present s.totalPrincipal i ≤ 0 := by
        unfold present
        have h6 : 0 ≤ (-(s.totalPrincipal * i)).tdiv SCALE := Int.tdiv_nonneg (by omega) hS.le
        rw [Int.neg_tdiv] at h6
        omega
      have e : s'.supply = 0 := by omega
      rw [e, mul_zero]
      exact mul_nonneg hi.le h.k0
    · have h6 := (tdiv_bounds (mul_nonneg hp hi.le) hS).1
      have h7 := mul_le_mul_of_nonneg_right h.total hi.le
      rw [h3]
      unfold present
      nlinarith

end Bnd

theorem exec_bnd {c : Cfg} (hc : c.WF) {env : Env} {m : Msg} {s s' : State} {k : Int} (hl : Led c s)
    (hm : m.SignedByUser c) (h : exec c env m s = .ok () s') (hge : 0 ≤ s'.supply) (hs : Bnd k s) :
    Bnd (k + units (deliveredBy env m) s'.index) s' ∧ 0 ≤ deliveredBy env m := by
  have hz0 : units 0 s'.index = 0 := by simp [units]
  cases hq : m.isPortal with
  | false =>
    obtain ⟨_, q⟩ := exec_quiet hc hl hm hq h
    have e : deliveredBy env m = 0 := by cases m <;> first | rfl | cases hq
    rw [e, hz0, add_zero]
    exact ⟨hs.of_le q.index hge q.supply.le q.totalPrincipal.le, le_refl _⟩
  | true =>
    cases m with
    | transfer signer amt? ch t r =>
      obtain ⟨amt, _, hk⟩ := transfer_ok h
      obtain ⟨peer, sender, m, _, hd, _, _, hb, e⟩ := hk.run
      have hu : c.IsUser sender := hm sender hd
      obtain ⟨m1, hm1, hle, rfl⟩ := hb.mid
      have h0 := hb.nonneg
      have e1 : s'.index = s.index := by rw [e]; exact hm1.index
      have e2 : s'.supply = s.supply - amt := by
        rw [e]
        show m1.supply - amt = _
        rw [show m1.supply = s.supply from hm1.supply]
      have e3 : s'.totalPrincipal = m1.totalPrincipal := by rw [e]; rfl
      refine ⟨?_, le_refl _⟩
      show Bnd (k + units 0 s'.index) s'
      rw [hz0, add_zero]
      refine hs.of_le e1 hge (by omega) ?_
      rw [e3]
      by_cases hz : amt = 0
      · subst hz
        rw [hm1.zero rfl]
      have ht := hm1.total hz hu.ne_yield hc.yield_ne_module.symm
      rw [if_neg hu.ne_module, if_pos rfl] at ht
      change m1.totalPrincipal = s.totalPrincipal + 0 - roundedUp amt s.index at ht
      have : 0 ≤ roundedUp amt s.index := roundedUp_nonneg h0 hs.index
      omega
    | deliver vaa =>
      obtain ⟨v, sA, _, _, rfl, hA, hR, hd⟩ := deliver_did hc hl h
      have hsA : Bnd k { s with archive := s.archive ++ [v.digest] } := hs.of_le rfl hs.supply le_rfl le_rfl
      show Bnd (k + units (mintedBy (content env vaa)) s'.index) s' ∧ 0 ≤ mintedBy (content env vaa)
      generalize content env vaa = q at hd
      cases hd with
      | ignored _ hn h1 h2 h3 h4 _ _ e =>
        subst hn
        show Bnd (k + units 0 s'.index) s' ∧ (0 : Int) ≤ 0
        rw [hz0, add_zero]
        exact ⟨hs.of_le h1 hge h2.le h4.le, le_refl _⟩
      | token amount i rcp s1 hup hui hmk =>
        have h1 : Bnd k s1 := hsA.of_UI hui
        have hmv := hmk.moved
        have h0 := hmk.nonneg
        have e1 : s'.index = s1.index := hmv.index
        have e2 : s'.supply = s1.supply + amount := hmv.supply
        refine ⟨?_, h0⟩
        show Bnd (k + units amount s'.index) s'
        rw [units_eq h0 (e1 ▸ h1.index), e1]
        have hup0 : 0 ≤ roundedUp amount s1.index := roundedUp_nonneg h0 h1.index
        have htot : s'.totalPrincipal ≤ s1.totalPrincipal + roundedUp amount s1.index := by
          by_cases hz : (amount : Int) = 0
          · have e4 : s'.totalPrincipal = s1.totalPrincipal := (congrArg State.totalPrincipal (hmv.zero hz) :)
            omega
          by_cases hry : rcp = c.yieldAddr
          · have e4 : s'.totalPrincipal = s1.totalPrincipal := by
              exact (hmv.skip (Or.inr hry)).2.1
            omega
          have ht := hmv.total hz hc.yield_ne_module.symm hry
          rw [if_pos rfl, if_neg (hmk.ne_module hc)] at ht
          change s'.totalPrincipal = s1.totalPrincipal + roundedUp amount s1.index - 0 at ht
          omega
        have hub := (up_bounds h0 h1.index).2
        have := h1.k0
        have := h1.total
        refine ⟨e1 ▸ h1.index, by omega, by have := h1.supply; omega, by omega, ?_⟩
        rw [e1, e2]
        have e5 : SCALE * (s1.supply + amount) = SCALE * s1.supply + amount * SCALE := by ring
        have e6 : s1.index * (k + roundedUp amount s1.index) =
          s1.index * k + roundedUp amount s1.index * s1.index := by ring
        have := h1.worth
        omega
      | index i m hup e hui _ =>
        have h1 : Bnd k m := hsA.of_UI hui
        show Bnd (k + units 0 s'.index) s' ∧ (0 : Int) ≤ 0
        rw [hz0, add_zero, e]
        exact ⟨h1.of_le rfl h1.supply le_rfl le_rfl, le_refl _⟩
    | _ => cases hq

theorem run_bnd {c : Cfg} (hc : c.WF) (h : History) {s : State} {k : Int} (hr : Reachable c s)
    (hsig : History.Signed c h) (hs : Bnd k s) : Bnd (k + deliveredUnits c h s) (run c h s) := by
  induction h generalizing s k with
  | nil => show Bnd (k + 0) s; rw [add_zero]; exact hs
  | cons e t ih =>
    obtain ⟨env, m⟩ := e
    have hm : m.SignedByUser c := hsig (env, m) List.mem_cons_self
    have ht : History.Signed c t := fun e he => hsig e (List.mem_cons_of_mem _ he)
    have hr' : Reachable c (step c env m s) := hr.step hm
    generalize hk : (if (exec c env m s).isOk then units (deliveredBy env m) (step c env m s).index else 0) = d
    have e1 : deliveredUnits c ((env, m) :: t) s = d + deliveredUnits c t (step c env m s) := by
      rw [← hk]; rfl
    have h1 : Bnd (k + d) (step c env m s) := by
      have hge := hr'.supply_nonneg hc
      rw [← hk]
      unfold step runTx at hge ⊢
      cases hx : exec c env m s with
      | ok u s' =>
        rw [hx] at hge
        exact (exec_bnd hc (hr.led hc) hm hx hge hs).1
      | err => show Bnd (k + 0) s; rw [add_zero]; exact hs
      | panic => show Bnd (k + 0) s; rw [add_zero]; exact hs
    rw [e1, ← add_assoc]
    exact ih hr' ht h1

/-- After any history on a fresh chain, the supply is worth at most everything ever delivered, each
delivery grown with the index since it arrived (and rounded up to a unit of principal); the total
principal is at most the units delivered, and no account holds more than the supply. -/
theorem C70_supply_bounded {c : Cfg} (hc : c.WF) {s0 : State} (h0 : Initial c s0) {h : History}
    (hsig : History.Signed c h) :
    let s := run c h s0
    10 ^ 12 * s.supply ≤ s.index * deliveredUnits c h s0 ∧ s.totalPrincipal ≤ deliveredUnits c h s0 ∧
      ∀ x, 0 ≤ s.balance x ∧ s.balance x ≤ s.supply := by
  intro s
  have hr0 : Reachable c s0 := .fresh h0
  have hb : Bnd 0 s0 := ⟨h0.index, le_refl _, h0.supply.ge, h0.totalPrincipal.le, by rw [h0.supply]; simp⟩
  have := run_bnd hc h hr0 hsig hb
  rw [zero_add] at this
  have hr : Reachable c s := .of_run h0 hsig
  exact ⟨this.worth, this.total, fun x => ⟨(hr.led hc).good.bal x, C04_balance_le_supply hc hr x⟩⟩

/-! ## Absolute bounds -/

theorem run_index_le {c : Cfg} (hc : c.WF) {s : State} (hr : Reachable c s) {env : Env} {m : Msg}
    (hm : m.SignedByUser c) : s.index ≤ (step c env m s).index := by
  rcases C02_index_step hc hr env m hm with h | ⟨_, _, _, _, _, h, h'⟩ <;> omega

theorem units_le_total {c : Cfg} (hc : c.WF) (h : History) {s : State} (hr : Reachable c s)
    (hsig : History.Signed c h) (hi : 10 ^ 12 ≤ s.index) :
    deliveredUnits c h s ≤ deliveredTotal c h s := by
  induction h generalizing s with
  | nil => exact le_refl _
  | cons e t ih =>
    obtain ⟨env, m⟩ := e
    have hm : m.SignedByUser c := hsig (env, m) List.mem_cons_self
    have ht : History.Signed c t := fun e he => hsig e (List.mem_cons_of_mem _ he)
    have hr' : Reachable c (step c env m s) := hr.step hm
    have hi' : 10 ^ 12 ≤ (step c env m s).index := hi.trans (run_index_le hc hr hm)
    have h1 := ih hr' ht hi'
    refine add_le_add ?_ h1
    split
    · next hok =>
      cases hx : exec c env m s with
      | ok u s' =>
        have e1 : step c env m s = s' := by unfold step runTx; rw [hx]
        rw [e1] at hi' hr' ⊢
        have hi0 : 0 < s.index := lt_of_lt_of_le (by decide) hi
        have hb : Bnd (max 0 (max s.totalPrincipal (SCALE * s.supply))) s := by
          refine ⟨hi0, le_max_left _ _, hr.supply_nonneg hc,
            (le_max_left _ _).trans (le_max_right _ _), ?_⟩
          have h3 : SCALE * s.supply ≤ max 0 (max s.totalPrincipal (SCALE * s.supply)) :=
            (le_max_right _ _).trans (le_max_right _ _)
          have h4 : (1 : Int) * max 0 (max s.totalPrincipal (SCALE * s.supply)) ≤
              s.index * max 0 (max s.totalPrincipal (SCALE * s.supply)) :=
            mul_le_mul_of_nonneg_right (by omega) (le_max_left _ _)
          omega
        have h2 := (exec_bnd hc (hr.led hc) hm hx (hr'.supply_nonneg hc) hb).2
        have hi1 : 0 < s'.index := lt_of_lt_of_le (by decide) hi'
        rw [units_eq h2 hi1]
        exact up_le_self h2 hi'
      | err => rw [hx] at hok; cases hok
      | panic => rw [hx] at hok; cases hok
    · exact le_refl _

theorem slice_nat_lt {s r : Sl} {a b : Nat} (h : s.slice a b = some r) (hab : b - a = 8) :
    beNat r.bytes < 2 ^ 64 := by
  have h1 := beNat_lt r.bytes
  have h2 : r.bytes.length ≤ 8 := by
    obtain ⟨_, _, rfl⟩ := Sl.slice_some h
    show ((s.arr.drop a).take (b - a)).length ≤ 8
    rw [hab]
    exact List.length_take_le _ _
  have h3 : 256 ^ r.bytes.length ≤ 256 ^ 8 := Nat.pow_le_pow_right (by decide) h2
  have h4 : 256 ^ 8 = 2 ^ 64 := by decide
  omega

theorem toInt64_lt {n : Nat} (h : n < 2 ^ 64) : toInt64 n < 2 ^ 63 := by
  unfold toInt64; split <;> omega

theorem parseNtt_amount {bz : Sl} {t : NativeTokenTransfer Sl} (h : parseNtt bz = .ok t) : t.amount < 2 ^ 64 := by
  unfold parseNtt at h
  split at h
  · cases h
  simp only [PRes.bind_ok, PRes.ofSlice_ok] at h
  obtain ⟨p, _, h⟩ := h
  split at h
  · cases h
  simp only [PRes.bind_ok, PRes.ofSlice_ok] at h
  obtain ⟨a, ha, _, _, _, _, _, _, _, _, h⟩ := h
  cases h
  exact slice_nat_lt ha rfl

theorem decodeAdditional_index {bz : Sl} {r : Int × Bytes} (h : decodeAdditional bz = .ok r) : r.1 < 2 ^ 63 := by
  unfold decodeAdditional at h
  split at h
  · cases h
  simp only [PRes.bind_ok, PRes.ofSlice_ok] at h
  obtain ⟨a, ha, _, _, h⟩ := h
  cases h
  exact toInt64_lt (slice_nat_lt ha rfl)

theorem decodeToken_bounds {bz : Sl} {p : TokenPayload} (h : decodeToken bz = .ok p) :
    p.amount < 2 ^ 64 ∧ p.index < 2 ^ 63 := by
  unfold decodeToken at h
  simp only [PRes.bind_ok, PRes.ofSlice_ok] at h
  obtain ⟨t, ht, a, ha, _, _, h⟩ := h
  cases h
  constructor
  · unfold nttOrZero at ht
    split at ht
    · next h1 => cases ht; exact parseNtt_amount h1
    · cases ht; exact Nat.two_pow_pos 64
    · cases ht
  · unfold additionalOrZero at ha
    split at ha
    · next h1 => cases ha; exact decodeAdditional_index h1
    · cases ha; show (0 : Int) < 2 ^ 63; decide
    · cases ha

theorem decodeIndex_bound {bz : Sl} {p : Int × Nat} (h : decodeIndex bz = .ok p) : p.1 < 2 ^ 63 := by
  unfold decodeIndex at h
  simp only [PRes.bind_ok, PRes.ofSlice_ok] at h
  obtain ⟨a, ha, _, _, h⟩ := h
  cases h
  exact toInt64_lt (slice_nat_lt ha rfl)

/-- The amount in a request fits in 64 bits and its index in a signed 64-bit integer. -/
theorem content_bounds {env : Env} {vaa : Bytes} {q : Content} (h : content env vaa = some q) :
    q.minted < 2 ^ 64 ∧ q.announced < 2 ^ 63 := by
  unfold content at h
  split at h
  · split at h
    · unfold contentOf at h
      split at h
      · split at h
        · next h1 =>
          cases h
          have := decodeToken_bounds h1
          exact ⟨by show ((_ : Nat) : Int) < 2 ^ 64; omega, this.2⟩
        · cases h
      · split at h
        · next h1 =>
          cases h
          exact ⟨show (0 : Int) < 2 ^ 64 by decide, decodeIndex_bound h1⟩
        · cases h
      · cases h
    · cases h
  · cases h

theorem deliveredBy_le (env : Env) (m : Msg) :
    deliveredBy env m ≤ 2 ^ 64 * ((if deliveredBy env m ≠ 0 then 1 else 0 : Nat) : Int) := by
  split
  · have : deliveredBy env m < 2 ^ 64 := by
      cases m with
      | deliver vaa =>
        show mintedBy (content env vaa) < 2 ^ 64
        cases h : content env vaa with
        | none => exact (show (0 : Int) < 2 ^ 64 by decide)
        | some q => exact (content_bounds h).1
      | _ => exact (show (0 : Int) < 2 ^ 64 by decide)
    omega
  · omega

theorem total_le_count (c : Cfg) (h : History) (s : State) :
    deliveredTotal c h s ≤ 2 ^ 64 * (deliveries c h s : Int) := by
  induction h generalizing s with
  | nil => exact le_refl _
  | cons e t ih =>
    obtain ⟨env, m⟩ := e
    have h1 := ih (step c env m s)
    have h2 := deliveredBy_le env m
    show (if (exec c env m s).isOk then deliveredBy env m else 0) + deliveredTotal c t (step c env m s) ≤
      2 ^ 64 * (((if (exec c env m s).isOk ∧ deliveredBy env m ≠ 0 then 1 else 0) +
        deliveries c t (step c env m s) : Nat) : Int)
    cases (exec c env m s).isOk with
    | false =>
      rw [if_neg (by decide), if_neg (fun h => absurd h.1 (by decide))]
      push_cast; omega
    | true =>
      rw [if_pos rfl]
      simp only [true_and]
      push_cast at h2 ⊢
      omega

theorem index_lt {c : Cfg} (hc : c.WF) {s0 : State} (h0 : Initial c s0) (hi : s0.index < 2 ^ 63) {h : History}
    (hsig : History.Signed c h) : (run c h s0).index < 2 ^ 63 := by
  induction h using List.reverseRecOn with
  | nil => exact hi
  | append_singleton t e ih =>
    obtain ⟨env, m⟩ := e
    have ht : History.Signed c t := fun e he => hsig e (List.mem_append_left _ he)
    have hm : m.SignedByUser c := hsig (env, m) (List.mem_append_right _ List.mem_cons_self)
    have hr : Reachable c (run c t s0) := .of_run h0 ht
    rw [run_append]
    show (step c env m (run c t s0)).index < 2 ^ 63
    rcases C02_index_step hc hr env m hm with h | ⟨_, q, _, _, hq, h, _⟩
    · rw [h]; exact ih ht
    · rw [h]; exact (content_bounds hq).2

/-- In numbers: on a chain that starts, as the default genesis does, with an index of 10^12 (or any
larger 64-bit index), after `n` deliveries of tokens the supply and every balance are below
`n * 2^88`, and the total principal is at most what was delivered, which is below `n * 2^64`.  So
the index fits in 64 bits and the supply in 128 bits for the first 2^40 deliveries. -/
theorem C70_absolute {c : Cfg} (hc : c.WF) {s0 : State} (h0 : Initial c s0) (hlo : 10 ^ 12 ≤ s0.index)
    (hhi : s0.index < 2 ^ 63) {h : History} (hsig : History.Signed c h) :
    let s := run c h s0
    s.index < 2 ^ 63 ∧ s.totalPrincipal ≤ deliveredTotal c h s0 ∧
      deliveredTotal c h s0 ≤ 2 ^ 64 * deliveries c h s0 ∧
      s.supply ≤ 2 ^ 88 * deliveries c h s0 ∧ ∀ x, s.balance x ≤ 2 ^ 88 * deliveries c h s0 := by
  intro s
  obtain ⟨h1, h2, h3⟩ := C70_supply_bounded hc h0 hsig
  have hr0 : Reachable c s0 := .fresh h0
  have h4 := units_le_total hc h hr0 hsig hlo
  have h5 := total_le_count c h s0
  have h6 := index_lt hc h0 hhi hsig
  have hs : s.supply ≤ 2 ^ 88 * deliveries c h s0 := by
    generalize (deliveries c h s0 : Int) = n at *
    generalize deliveredUnits c h s0 = k at *
    change 10 ^ 12 * s.supply ≤ s.index * k at h1
    have h7 : s.index * k ≤ s.index * (2 ^ 64 * n) :=
      mul_le_mul_of_nonneg_left (by omega) (hr0.run hsig |>.index_pos hc).le
    have hn : 0 ≤ n := by
      by_contra hneg
      have hsup := (hr0.run hsig).supply_nonneg hc
      have hi0 : 0 < s.index := (hr0.run hsig).index_pos hc
      have : s.index * (2 ^ 64 * n) < 0 := mul_neg_of_pos_of_neg hi0 (by omega)
      change 0 ≤ s.supply at hsup
      omega
    have h8 : s.index * (2 ^ 64 * n) ≤ 2 ^ 63 * (2 ^ 64 * n) :=
      mul_le_mul_of_nonneg_right h6.le (by omega)
    omega
  exact ⟨h6, h2.trans h4, h5, hs, fun x => ((h3 x).2).trans hs⟩

/-- Non-vacuity: the demo chain starts at index 10^12, receives three deliveries, and ends at index
1.2 with a supply of 18000000, just below 1.2 times the 15833334 units delivered. -/
example : Demo.start.index = 10 ^ 12 ∧ deliveries Demo.cfg Demo.hist2 Demo.start = 3 ∧
    deliveredTotal Demo.cfg Demo.hist2 Demo.start = 16000000 ∧
    deliveredUnits Demo.cfg Demo.hist2 Demo.start = 15833334 ∧
    (run Demo.cfg Demo.hist2 Demo.start).supply = 18000000 := by decide +kernel

end Dollar
