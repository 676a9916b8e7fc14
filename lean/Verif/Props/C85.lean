import Verif.Props.C82
import Verif.Props.C71
import Verif.Props.C65
import Verif.Lemmas.NoPanic2

/-
C85: the decimal computations of the module do not overflow.
-/
set_option maxRecDepth 100000
namespace Dollar
open Spec

namespace Checked

theorem decFit_some {n : Int} (h0 : 0 ≤ n) (h : n < 2 ^ 315) : decFit n = some n := by
  unfold decFit
  rw [if_pos (by omega)]

theorem fit_pos {n : Int} (h0 : 0 ≤ n) (h : n < 2 ^ 256) : fit n = some n := by
  unfold fit
  rw [if_pos (by omega)]

theorem decTrunc_some {n : Int} (h0 : 0 ≤ n) (h : n < 2 ^ 315) : decTrunc n = some (Dollar.decTrunc n) := by
  unfold decTrunc Dollar.decTrunc
  have h1 := tdiv_bounds h0 DEC_pos
  have hD : DEC = 1000000000000000000 := rfl
  rw [hD] at h1 ⊢
  refine fit_pos (Int.tdiv_nonneg h0 (by omega)) ?_
  generalize n.tdiv 1000000000000000000 = q at *
  omega

theorem userReward_some {cur p : Int} {r : Reward} (hr : r.rewards ≤ 2 ^ 127) (hp0 : 0 ≤ p) (hp : p ≤ 2 ^ 127) :
    Checked.userReward cur p r = some (Dollar.userReward cur p r) := by
  unfold Checked.userReward Dollar.userReward
  split
  next h =>
    split
    · obtain ⟨h1, _, h3⟩ := decQuo_bounds (R := r.rewards) (T := r.total) h.2.le h.1
      generalize hq : Dollar.decQuo (decOfInt r.rewards) (decOfInt r.total) = q at *
      have hD : DEC = 1000000000000000000 := rfl
      have hT : 1 ≤ r.total := h.1
      have hqT : q * 1 ≤ q * r.total := mul_le_mul_of_nonneg_left hT h3
      -- `q` is at most the scaled rewards, plus one
      have hq2 : q ≤ r.rewards * DEC + 1 := by
        by_contra hgt
        have h4 : (r.rewards * DEC + 2) * r.total ≤ q * r.total :=
          mul_le_mul_of_nonneg_right (by omega) (by omega)
        have h5 : 0 ≤ r.rewards * DEC := by rw [hD]; omega
        have h6 : r.rewards * DEC * 1 ≤ r.rewards * DEC * r.total := mul_le_mul_of_nonneg_left hT h5
        have h7 : (r.rewards * DEC + 2) * r.total = r.rewards * DEC * r.total + 2 * r.total := by ring
        omega
      have hb : q ≤ 2 ^ 127 * 1000000000000000000 + 1 := by rw [hD] at hq2; omega
      have e1 : decQuo (decOfInt r.rewards) (decOfInt r.total) = some q := by
        unfold decQuo
        rw [if_neg (by unfold decOfInt; rw [hD]; omega), hq]
        exact decFit_some h3 (by omega)
      have hm0 : 0 ≤ q * p := mul_nonneg h3 hp0
      have hm : q * p < 2 ^ 315 := by
        have h8 : q * p ≤ (2 ^ 127 * 1000000000000000000 + 1) * 2 ^ 127 := mul_le_mul hb hp hp0 (by omega)
        omega
      have e2 : decMulInt q p = some (Dollar.decMulInt q p) := decFit_some hm0 hm
      rw [e1, Option.bind_eq_bind, Option.bind_some, e2, Option.bind_some]
      exact decTrunc_some hm0 hm
    · rfl
  · rfl

theorem yieldPortion_some {col total y : Int} (hc : 0 ≤ col) (ht : 0 < total) (hct : col ≤ total) (hy : 0 ≤ y)
    (hy' : y ≤ 2 ^ 192) : Checked.yieldPortion col total y = some (Dollar.yieldPortion col total y) := by
  have hD : DEC = 1000000000000000000 := rfl
  have h0 : 0 ≤ col * DEC := by rw [hD]; omega
  obtain ⟨h1, _⟩ := tdiv_bounds h0 ht
  have h2 : 0 ≤ (col * DEC).tdiv total := Int.tdiv_nonneg h0 ht.le
  have h3 : (col * DEC).tdiv total ≤ DEC := by
    by_contra hgt
    have h4 : (DEC + 1) * total ≤ (col * DEC).tdiv total * total := mul_le_mul_of_nonneg_right (by omega) ht.le
    rw [hD] at h1 h4
    omega
  unfold Checked.yieldPortion Dollar.yieldPortion decQuoInt decOfInt
  rw [if_neg (by omega), Option.bind_eq_bind, Option.bind_some]
  unfold Dollar.decQuoInt
  have hm0 : 0 ≤ (col * DEC).tdiv total * y := mul_nonneg h2 hy
  have hm : (col * DEC).tdiv total * y < 2 ^ 315 := by
    have h8 : (col * DEC).tdiv total * y ≤ DEC * 2 ^ 192 := mul_le_mul h3 hy' hy (by rw [hD]; omega)
    refine lt_of_le_of_lt h8 ?_
    rw [hD]; omega
  have e2 : decMulInt ((col * DEC).tdiv total) y = some (Dollar.decMulInt ((col * DEC).tdiv total) y) :=
    decFit_some hm0 hm
  rw [e2, Option.bind_some]
  exact decTrunc_some hm0 hm

theorem decQuo_le {a b : Int} (ha : 0 ≤ a) (hb : DEC ≤ b) : Dollar.decQuo a b ≤ a := by
  have hD : DEC = 1000000000000000000 := rfl
  have hb0 : 0 < b := by omega
  have h0 : 0 ≤ a * (DEC * DEC) := mul_nonneg ha (by decide)
  obtain ⟨h1, _⟩ := tdiv_bounds h0 hb0
  have h2 : 0 ≤ (a * (DEC * DEC)).tdiv b := Int.tdiv_nonneg h0 hb0.le
  have h3 : (a * (DEC * DEC)).tdiv b ≤ a * DEC := by
    have h4 : (a * (DEC * DEC)).tdiv b * DEC ≤ (a * (DEC * DEC)).tdiv b * b := mul_le_mul_of_nonneg_left hb h2
    rw [hD] at h1 h4 ⊢
    omega
  unfold Dollar.decQuo chopRound
  rw [if_neg (by omega)]
  obtain ⟨h5, _, _⟩ := chopRoundPos_bounds h2
  generalize (a * (DEC * DEC)).tdiv b = x at *
  rw [hD] at h5 h3
  omega

theorem yieldPrincipal_some {y index : Int} (hy : 0 ≤ y) (hy' : y ≤ 2 ^ 192) (hi : 10 ^ 12 ≤ index) :
    Checked.yieldPrincipal y index = some (Dollar.yieldPrincipal y index) := by
  have hD : DEC = 1000000000000000000 := rfl
  have hS : SCALE = 1000000000000 := rfl
  have hix : (index * DEC).tdiv SCALE = index * 1000000 := by
    have : index * DEC = index * 1000000 * SCALE := by rw [hD, hS]; ring
    rw [this, Int.mul_tdiv_cancel _ (by decide)]
  have hDi : DEC ≤ index * 1000000 := by rw [hD]; omega
  have h0 : 0 ≤ y * DEC := by rw [hD]; omega
  have h1 := decQuo_le h0 hDi
  have h2 := decQuo_nonneg h0 (show 0 < index * 1000000 by omega)
  have h3 : Dollar.decQuo (y * DEC) (index * 1000000) < 2 ^ 315 := by
    refine lt_of_le_of_lt h1 ?_
    rw [hD]; omega
  unfold Checked.yieldPrincipal Dollar.yieldPrincipal decQuoInt Dollar.decQuoInt decOfInt
  rw [if_neg (by decide), Option.bind_eq_bind, Option.bind_some, hix]
  have e : decQuo (y * DEC) (index * 1000000) = some (Dollar.decQuo (y * DEC) (index * 1000000)) := by
    unfold decQuo
    rw [if_neg (by omega)]
    exact decFit_some h2 h3
  rw [e, Option.bind_some]
  exact decTrunc_some h2 h3

end Checked

/-! ## The claim -/

/-- In the first 2^39 messages of a chain that starts at a 64-bit index of at least 10^12, none of the decimal
computations overflows: the reward that any record pays for any part of any position, as unlocking and the query
compute it; and for every amount up to 2^127, which no balance exceeds: the share of any Hyperlane route in it, and the
principal moved for it when it is the yield of the staked vault. -/
theorem C85_no_overflow {c : Cfg} (hc : c.WF) {s0 : State} (h0 : Initial c s0) (hlo : 10 ^ 12 ≤ s0.index)
    (hhi : s0.index < 2 ^ 63) {h : History} (hsig : History.Signed c h) (hlen : h.length ≤ 2 ^ 39) :
    let s := run c h s0
    (s.supply ≤ 2 ^ 127 ∧ ∀ x, s.balance x ≤ 2 ^ 127) ∧
    (∀ r ∈ s.rewards, ∀ e ∈ s.positions, ∀ amount, 0 ≤ amount → amount ≤ e.2.amount →
      Checked.principalDown amount e.2.index = some (roundedDown amount e.2.index) ∧
      Checked.userReward s.index (roundedDown amount e.2.index) r.2 =
        some (userReward s.index (roundedDown amount e.2.index) r.2)) ∧
    (∀ ids routes s', hypRoutes c ids s = .ok routes s' → 0 < totalCollateral routes → ∀ r ∈ routes,
      ∀ y, 0 ≤ y → y ≤ 2 ^ 127 → Checked.yieldPortion r.collateral (totalCollateral routes) y =
        some (yieldPortion r.collateral (totalCollateral routes) y)) ∧
    (∀ y, 0 ≤ y → y ≤ 2 ^ 127 → Checked.yieldPrincipal y s.index = some (yieldPrincipal y s.index)) := by
  intro s
  have hr : Reachable c s := .of_run h0 hsig
  have hn := nrange_run hc h0 hlo hhi hsig
  obtain ⟨hidx, _, _, hsup, _⟩ := C70_absolute hc h0 hlo hhi hsig
  have hdl : deliveries c h s0 ≤ 2 ^ 39 := (deliveries_le c h s0).trans hlen
  have hS : (2 ^ 88 * (deliveries c h s0 : Nat) : Int) ≤ 2 ^ 127 := by
    generalize deliveries c h s0 = n at *
    omega
  have hsup : s.supply ≤ 2 ^ 127 := hsup.trans hS
  refine ⟨⟨hsup, fun x => (C04_balance_le_supply hc hr x).trans hsup⟩, ?_, ?_, ?_⟩
  · intro r hrm e hem amount ha hle
    have hv := (hr.vinv hc).toV0
    have he := hv.entry e hem
    have hpos : 10 ^ 12 ≤ e.2.index := (hn.vault.pos e hem).1
    have hbal : ∀ x, s.balance x ≤ s.supply := fun x => C04_balance_le_supply hc hr x
    have hamt : e.2.amount ≤ s.supply := by
      rcases he.vault with hk | hk
      · refine le_trans ?_ (hv.staked.trans (hbal _))
        have h1 : amtIn STAKED e.1 e.2 = e.2.amount := by unfold amtIn; rw [if_pos hk]
        rw [← h1]
        refine KV.le_sum_of_mem (f := amtIn STAKED) (fun e' he' => ?_) hem
        unfold amtIn
        split
        · exact (hv.entry e' he').amount
        · exact le_refl _
      · exact (hv.flex e hem hk).trans (hbal _)
    have hd := down_le_self (a := amount) ha hpos
    exact ⟨Checked.principalDown_some ha (by omega) he.idx,
      Checked.userReward_some (((hn.vault.rew r hrm).2.2).trans hS) (roundedDown_nonneg ha he.idx) (by omega)⟩
  · intro ids routes s' hx ht r hrm y hy hle
    have h1 := hypRoutes_wp c ids s
    unfold wp at h1
    rw [hx] at h1
    have hcol : ∀ r ∈ routes, 0 ≤ r.collateral := fun r hr' =>
      (hr.hypInv hc).col _ (KV.mem_of_get? ((h1.2.2 r hr').1))
    exact Checked.yieldPortion_some (hcol r hrm) ht (le_totalCollateral hcol hrm) hy (by omega)
  · intro y hy hle
    exact Checked.yieldPrincipal_some hy (by omega) (hlo.trans (C02_index_monotone hc (.fresh h0) h hsig))

/-- Non-vacuity: the demo chain has a reward record and a flexible position that earns from it, and a Hyperlane route
with collateral. The checked computations do overflow on larger numbers. -/
example : Demo.start.index = 10 ^ 12 ∧
    ((run Demo.cfg (Demo.hist2.take 10) Demo.start).rewards.map fun r =>
      (run Demo.cfg (Demo.hist2.take 10) Demo.start).positions.map fun e =>
        Checked.userReward (run Demo.cfg (Demo.hist2.take 10) Demo.start).index (roundedDown e.2.amount e.2.index) r.2) =
      [[some 750000, some 500000], [some 0, some 0]] ∧
    Checked.yieldPortion 300 1000 (10 ^ 9) = some 300000000 ∧ Checked.yieldPortion 1 1 (2 ^ 256) = none ∧
    Checked.userReward 5 (2 ^ 200) ⟨4, 1, 2 ^ 100⟩ = none ∧ Checked.yieldPrincipal (2 ^ 250) 1 = none := by decide +kernel

/-- The limits: a decimal of 315 bits is accepted, one of 316 bits is a panic. -/
example : Checked.decFit (2 ^ 315 - 1) = some (2 ^ 315 - 1) ∧ Checked.decFit (2 ^ 315) = none ∧
    Checked.decFit (-2 ^ 315) = none := by decide +kernel

end Dollar
