import Verif.Lemmas.NoPanic
import Verif.Lemmas.Settings
import Verif.Props.C17
import Verif.Props.C02
import Verif.Props.C04
import Verif.Props.C33
import Verif.Spec.Demo

/-
C41: an index update with a larger index does not panic - false, and exactly when it panics.
-/
set_option maxRecDepth 100000
namespace Dollar
open Spec MM

namespace Demo

/-- A fresh chain with index 1.1. -/
def start11 : State := { start with index := 1100000000000 }

theorem start11_initial : Initial cfg start11 := by
  constructor <;> first | rfl | decide | (unfold KV.Sorted; decide)

/-- Wormhole: a delivery of 11 to alice and an index update. -/
def verify11 (bz : Bytes) : Option VAA :=
  if bz = [1] then some (vaaToken 1 alice 11 1000000000000)
  else if bz = [2] then some (vaaIndex 2 1100000000001)
  else none

def env11 (time : Int) : Env := { env time with verify := verify11 }

/-- 11 units arrive (principal 10), one unit leaves (principal 1, rounded up). -/
def hist11 : History :=
  [(env11 1, .deliver [1]),
   (env11 2, .transfer aliceS (some 1) 2 (List.replicate 32 8) (List.replicate 32 1))]

theorem hist11_signed : History.Signed cfg hist11 := by
  intro e he
  simp only [hist11, List.mem_cons, List.not_mem_nil, or_false] at he
  rcases he with rfl | rfl
  · trivial
  · exact aliceS_user

theorem reach11 : Reachable cfg (run cfg hist11 start11) :=
  .of_run start11_initial hist11_signed

end Demo

/-- The property fails: after one user bridged one unit out of eleven, at index 1.1, the delivery
of an authenticated, correctly addressed index update with a larger index panics. -/
theorem C41_larger_index_can_panic :
    ∃ (c : Cfg) (s : State) (env : Env) (vaa : Bytes) (i : Int), c.WF ∧ Reachable c s ∧
      content env vaa = some (.index i c.chain) ∧ s.index < i ∧ 0 < s.totalPrincipal ∧
      exec c env (.deliver vaa) s = .panic := by
  refine ⟨Demo.cfg, run Demo.cfg Demo.hist11 Demo.start11, Demo.env11 3, [2], 1100000000001,
    Demo.cfg_wf, Demo.reach11, by decide +kernel, by decide +kernel, by decide +kernel, ?_⟩
  have h : (match exec Demo.cfg (Demo.env11 3) (.deliver [2]) (run Demo.cfg Demo.hist11 Demo.start11) with
    | .panic => true | _ => false) = true := by decide +kernel
  revert h
  cases exec Demo.cfg (Demo.env11 3) (.deliver [2]) (run Demo.cfg Demo.hist11 Demo.start11) <;> simp

/-- In every reachable state an index update panics exactly when the index is larger and the
total principal is worth less than the supply at it. (`tdiv` is division toward zero.) -/
theorem C41_panic_iff_partial {c : Cfg} (hc : c.WF) {s : State} (hr : Reachable c s) (env : Env) (i : Int) :
    updateIndex c env i s = .panic ↔
      s.index < i ∧ (s.totalPrincipal * i).tdiv (10 ^ 12) < s.supply :=
  updateIndex_panic_iff (hr.led hc).good.index

/-- What the property becomes: if the total principal is worth at least the supply at the new index,
no index update panics. -/
theorem C41_covered_no_panic_partial {c : Cfg} (hc : c.WF) {s : State} (hr : Reachable c s) (env : Env)
    (i : Int) (h : s.supply * 10 ^ 12 ≤ s.totalPrincipal * i) (h0 : 0 ≤ s.totalPrincipal * i) :
    updateIndex c env i s ≠ .panic := by
  intro hp
  obtain ⟨_, h2⟩ := (C41_panic_iff_partial hc hr env i).1 hp
  have h3 := (tdiv_bounds h0 (show (0 : Int) < 10 ^ 12 by decide)).2
  have h4 := Int.mul_le_mul_of_nonneg_right (show (s.totalPrincipal * i).tdiv (10 ^ 12) + 1 ≤ s.supply from h2)
    (show (0 : Int) ≤ 10 ^ 12 by decide)
  omega

-- In the demo chain the condition holds at the next index.
example : (run Demo.cfg Demo.hist2 Demo.start).supply * 10 ^ 12 ≤
    (run Demo.cfg Demo.hist2 Demo.start).totalPrincipal * 1300000000000 := by decide +kernel

/-! ## How far the supply can run ahead of the total principal -/

/-- The total principal is worth the supply at the current index. -/
def Spec.Covered (s : State) : Prop := 10 ^ 12 * s.supply ≤ s.index * s.totalPrincipal

/-- Is this message a bridge transfer out of the chain? -/
def Spec.isTransferOut : Msg → Bool
  | .transfer .. => true
  | _ => false

/-- The number of successful bridge transfers out of the chain along a history. -/
def Spec.transfersOut (c : Cfg) : History → State → Nat
  | [], _ => 0
  | (env, m) :: t, s =>
    (if isTransferOut m ∧ (exec c env m s).isOk then 1 else 0) + transfersOut c t (step c env m s)

/-- Units of principal that are worth at least `amount` at `index`: `amount * 10^12 / index`, rounded up. -/
def Spec.units (amount index : Int) : Int := -(-(amount * 10 ^ 12) / index)

/-- The tokens a request mints to the yield account. -/
def Spec.toYield (c : Cfg) : Option Content → Int
  | some (.token amount _ rcp _ _) => if rcp = c.yieldAddr then amount else 0
  | _ => 0

/-- The tokens a message delivers to the yield account. -/
def Spec.yieldDelivery (c : Cfg) (env : Env) : Msg → Int
  | .deliver vaa => toYield c (content env vaa)
  | _ => 0

/-- All tokens delivered to the yield account along a history, each delivery counted in units of
principal at the index it left behind (they raise the supply but come with no principal). -/
def Spec.yieldUnits (c : Cfg) : History → State → Int
  | [], _ => 0
  | (env, m) :: t, s =>
    (if (exec c env m s).isOk then units (yieldDelivery c env m) (step c env m s).index else 0) +
      yieldUnits c t (step c env m s)

theorem units_eq {a i : Int} (ha : 0 ≤ a) (hi : 0 < i) : units a i = roundedUp a i := by
  unfold units roundedUp
  show -(-(a * SCALE) / i) = _
  have h0 : 0 ≤ a * SCALE := mul_nonneg ha (by decide)
  rw [Int.tdiv_eq_ediv_of_nonneg (by omega)]
  generalize a * SCALE = y
  have h1 : i * (-y / i) + -y % i = -y := Int.mul_ediv_add_emod (-y) i
  have h2 := Int.emod_nonneg (-y) hi.ne'
  have h3 := Int.emod_lt_of_pos (-y) hi
  symm
  rw [Int.ediv_eq_iff_of_pos hi]
  constructor <;> nlinarith

/-- The supply exceeds the value of the total principal by at most `n` units of principal. -/
structure Cov (n : Int) (s : State) : Prop where
  index : 0 < s.index
  supply : 0 ≤ s.supply
  debt : SCALE * s.supply ≤ s.index * (s.totalPrincipal + n)

namespace Cov
variable {c : Cfg} {n : Int} {s s' : State}

theorem of_eq (h : Cov n s) (h1 : s'.index = s.index) (h2 : s'.supply = s.supply)
    (h3 : s'.totalPrincipal = s.totalPrincipal) : Cov n s' :=
  ⟨h1 ▸ h.index, h2 ▸ h.supply, by rw [h1, h2, h3]; exact h.debt⟩

theorem mono (h : Cov n s) {k : Int} (hk : n ≤ k) : Cov k s :=
  ⟨h.index, h.supply, h.debt.trans (mul_le_mul_of_nonneg_left (by omega) h.index.le)⟩

theorem of_UI (h : Cov n s) (hn : 0 ≤ n) {i : Int} (hu : UI c s i s') : Cov n s' := by
  rcases hu.issued with ⟨h1, h2⟩ | ⟨h1, h2, h3⟩
  · exact h.of_eq h2 h1 hu.totalPrincipal
  · have hi : 0 < i := h.index.trans h2
    have hs : 0 ≤ s'.supply := h.supply.trans hu.supply_mono
    refine ⟨h1 ▸ hi, hs, ?_⟩
    rw [h1, hu.totalPrincipal]
    have hpn : 0 ≤ s.totalPrincipal + n := by
      by_contra hneg
      have : s.index * (s.totalPrincipal + n) < 0 := mul_neg_of_pos_of_neg h.index (by omega)
      have h4 := h.debt
      have h5 : 0 ≤ SCALE * s.supply := mul_nonneg (by decide) h.supply
      omega
    have hS : (0 : Int) < SCALE := by decide
    rcases Int.lt_or_le s.totalPrincipal 0 with hp | hp
    · have hz : s.totalPrincipal * i ≤ 0 := (mul_neg_of_neg_of_pos hp hi).le
      have : present s.totalPrincipal i ≤ 0 := by
        unfold present
        have h6 : 0 ≤ (-(s.totalPrincipal * i)).tdiv SCALE := Int.tdiv_nonneg (by omega) hS.le
        rw [Int.neg_tdiv] at h6
        omega
      have e : s'.supply = 0 := by omega
      rw [e, mul_zero]
      exact mul_nonneg hi.le hpn
    · have h6 := (tdiv_bounds (mul_nonneg hp hi.le) hS).1
      have e : i * (s.totalPrincipal + n) = s.totalPrincipal * i + i * n := by ring
      have h7 : 0 ≤ i * n := mul_nonneg hi.le hn
      rw [h3, e]
      have h8 : SCALE * present s.totalPrincipal i = present s.totalPrincipal i * SCALE := mul_comm _ _
      unfold present at h8 ⊢
      omega

end Cov

theorem exec_cov {c : Cfg} (hc : c.WF) {env : Env} {m : Msg} {s s' : State} {n : Int}
    (hn : 0 ≤ n) (hl : Led c s) (hm : m.SignedByUser c) (h : exec c env m s = .ok () s')
    (hge : 0 ≤ s'.supply)
    (hs : Cov n s) :
    Cov (n + ((if isTransferOut m then 1 else 0 : Nat) : Int) + units (yieldDelivery c env m) s'.index) s' ∧
      0 ≤ yieldDelivery c env m := by
  have hz0 : units 0 s'.index = 0 := by simp [units]
  cases hq : m.isPortal with
  | false =>
    obtain ⟨_, q⟩ := exec_quiet hc hl hm hq h
    have e : yieldDelivery c env m = 0 := by cases m <;> first | rfl | cases hq
    rw [e, hz0]
    exact ⟨(hs.of_eq q.index q.supply q.totalPrincipal).mono (by split <;> omega), le_refl _⟩
  | true =>
    cases m with
    | transfer signer amt? ch t r =>
      obtain ⟨amt, _, hk⟩ := transfer_ok h
      obtain ⟨peer, sender, m, _, hd, _, _, hb, e⟩ := hk.run
      have hu : c.IsUser sender := hm sender hd
      obtain ⟨m1, hm1, hle, rfl⟩ := hb.mid
      have h0 := hb.nonneg
      have e1 : s'.index = s.index := by rw [e]; exact hm1.index
      have e2 : s'.supply = s.supply - amt := by
        rw [e]
        show m1.supply - amt = _
        rw [show m1.supply = s.supply from hm1.supply]
      have e3 : s'.totalPrincipal = m1.totalPrincipal := by rw [e]; rfl
      refine ⟨?_, le_refl _⟩
      show Cov (n + ((1 : Nat) : Int) + units 0 s'.index) s'
      rw [hz0, add_zero]
      by_cases hz : amt = 0
      · subst hz
        have e4 : m1.totalPrincipal = s.totalPrincipal := by rw [hm1.zero rfl]
        exact (hs.of_eq e1 (by omega) (e3.trans e4)).mono (by omega)
      have ht := hm1.total hz hu.ne_yield hc.yield_ne_module.symm
      rw [if_neg hu.ne_module, if_pos rfl] at ht
      have hub := (up_bounds h0 hs.index).1
      have hde := hs.debt
      refine ⟨e1 ▸ hs.index, hge, ?_⟩
      rw [e1, e2, e3, ht]
      show SCALE * (s.supply - amt) ≤ s.index * (s.totalPrincipal + 0 - roundedUp amt s.index + (n + ((1 : Nat) : Int)))
      have e5 : SCALE * (s.supply - amt) = SCALE * s.supply - amt * SCALE := by ring
      have e6 : s.index * (s.totalPrincipal + 0 - roundedUp amt s.index + (n + ((1 : Nat) : Int))) =
        s.index * (s.totalPrincipal + n) - (roundedUp amt s.index - 1) * s.index := by push_cast; ring
      omega
    | deliver vaa =>
      obtain ⟨v, sA, _, _, rfl, hA, hR, hd⟩ := deliver_did hc hl h
      show Cov (n + ((0 : Nat) : Int) + units (toYield c (content env vaa)) s'.index) s' ∧
        0 ≤ toYield c (content env vaa)
      have z : ((0 : Nat) : Int) = 0 := rfl
      rw [z, add_zero]
      have hsA : Cov n { s with archive := s.archive ++ [v.digest] } := hs.of_eq rfl rfl rfl
      generalize content env vaa = q at hd
      cases hd with
      | ignored _ hn h1 h2 h3 h4 _ _ e =>
        subst hn
        show Cov (n + units 0 s'.index) s' ∧ (0 : Int) ≤ 0
        rw [hz0, add_zero]
        exact ⟨hs.of_eq h1 h2 h4, le_refl _⟩
      | token amount i rcp s1 hup hui hmk =>
        have h1 : Cov n s1 := hsA.of_UI hn hui
        have hmv := hmk.moved
        have h0 := hmk.nonneg
        have e1 : s'.index = s1.index := hmv.index
        have e2 : s'.supply = s1.supply + amount := hmv.supply
        have hub := (up_bounds h0 h1.index).2
        have hde := h1.debt
        have := h1.supply
        have e5 : SCALE * (s1.supply + amount) = SCALE * s1.supply + amount * SCALE := by ring
        show Cov (n + units (if rcp = c.yieldAddr then (amount : Int) else 0) s'.index) s' ∧
          0 ≤ (if rcp = c.yieldAddr then (amount : Int) else 0)
        by_cases hry : rcp = c.yieldAddr
        · rw [if_pos hry]
          refine ⟨?_, h0⟩
          rw [units_eq h0 (e1 ▸ h1.index), e1]
          have e4 : s'.totalPrincipal = s1.totalPrincipal := (hmv.skip (Or.inr hry)).2.1
          refine ⟨e1 ▸ h1.index, by omega, ?_⟩
          rw [e1, e2, e4]
          have e6 : s1.index * (s1.totalPrincipal + (n + roundedUp amount s1.index)) =
            s1.index * (s1.totalPrincipal + n) + roundedUp amount s1.index * s1.index := by ring
          omega
        rw [if_neg hry, hz0, add_zero]
        refine ⟨?_, le_refl _⟩
        by_cases hz : (amount : Int) = 0
        · have e4 : s'.totalPrincipal = s1.totalPrincipal := (congrArg State.totalPrincipal (hmv.zero hz) :)
          exact h1.of_eq e1 (by omega) e4
        have ht := hmv.total hz hc.yield_ne_module.symm hry
        rw [if_pos rfl, if_neg (hmk.ne_module hc)] at ht
        change s'.totalPrincipal = s1.totalPrincipal + roundedUp amount s1.index - 0 at ht
        refine ⟨e1 ▸ h1.index, by omega, ?_⟩
        rw [e1, e2, ht]
        have e6 : s1.index * (s1.totalPrincipal + roundedUp amount s1.index - 0 + n) =
          s1.index * (s1.totalPrincipal + n) + roundedUp amount s1.index * s1.index := by ring
        omega
      | index i m hup e hui _ =>
        have h1 : Cov n m := hsA.of_UI hn hui
        show Cov (n + units 0 s'.index) s' ∧ (0 : Int) ≤ 0
        rw [hz0, add_zero, e]
        exact ⟨h1.of_eq rfl rfl rfl, le_refl _⟩
    | _ => cases hq

theorem Reachable.supply_nonneg {c : Cfg} (hc : c.WF) {s : State} (hr : Reachable c s) : 0 ≤ s.supply :=
  ((hr.led hc).good.bal c.yieldAddr).trans (C04_balance_le_supply hc hr c.yieldAddr)

theorem run_cov {c : Cfg} (hc : c.WF) (h : History) {s : State} {n : Int} (hn : 0 ≤ n)
    (hr : Reachable c s) (hsig : History.Signed c h) (hs : Cov n s) :
    Cov (n + transfersOut c h s + yieldUnits c h s) (run c h s) := by
  induction h generalizing s n with
  | nil => exact hs.mono (by show n ≤ n + ((0 : Nat) : Int) + 0; omega)
  | cons e t ih =>
    obtain ⟨env, m⟩ := e
    have hm : m.SignedByUser c := hsig (env, m) List.mem_cons_self
    have ht : History.Signed c t := fun e he => hsig e (List.mem_cons_of_mem _ he)
    have hr' : Reachable c (step c env m s) := hr.step hm
    generalize hk : (if isTransferOut m ∧ (exec c env m s).isOk then 1 else 0 : Nat) = k
    generalize hd : (if (exec c env m s).isOk then units (yieldDelivery c env m) (step c env m s).index else 0) = d
    have e1 : transfersOut c ((env, m) :: t) s = k + transfersOut c t (step c env m s) := by
      rw [← hk]; rfl
    have e2 : yieldUnits c ((env, m) :: t) s = d + yieldUnits c t (step c env m s) := by
      rw [← hd]; rfl
    have h1 : Cov (n + k + d) (step c env m s) ∧ 0 ≤ d := by
      have hge := hr'.supply_nonneg hc
      have hip := hr'.index_pos hc
      rw [← hd]
      unfold step runTx at hge hip ⊢
      cases hx : exec c env m s with
      | ok u s' =>
        rw [hx] at hge hip
        obtain ⟨q1, q2⟩ := exec_cov hc hn (hr.led hc) hm hx hge hs
        refine ⟨q1.mono ?_, ?_⟩
        · rw [← hk, hx]
          simp [Res.isOk]
        · show 0 ≤ units _ s'.index
          rw [units_eq q2 hip]
          exact Int.tdiv_nonneg (by have := mul_SCALE_nonneg q2; have : 0 < s'.index := hip; omega) hip.le
      | err => exact ⟨hs.mono (by show n ≤ n + k + 0; omega), le_refl _⟩
      | panic => exact ⟨hs.mono (by show n ≤ n + k + 0; omega), le_refl _⟩
    have := ih (n := n + k + d) (by omega) hr' ht h1.1
    rw [e1, e2]
    exact this.mono (by push_cast; omega)

/-- From a covered state, after any history, the supply is worth at most the total principal plus one
unit of principal per bridge transfer out, plus the units that were delivered to the yield account
itself. -/
theorem C41_shortfall {c : Cfg} (hc : c.WF) {s0 : State} (hr : Reachable c s0) (h0 : Covered s0)
    {h : History} (hsig : History.Signed c h) :
    let s := run c h s0
    10 ^ 12 * s.supply ≤ s.index * (s.totalPrincipal + transfersOut c h s0 + yieldUnits c h s0) := by
  intro s
  have hz : Cov 0 s0 := ⟨(hr.led hc).good.index, hr.supply_nonneg hc, by rw [add_zero]; exact h0⟩
  have := (run_cov hc h (le_refl 0) hr hsig hz).debt
  rwa [zero_add, ← add_assoc] at this

/-- A fresh chain is covered. -/
theorem C41_initial_covered {c : Cfg} {s : State} (h : Initial c s) : Covered s := by
  unfold Covered; rw [h.supply, h.totalPrincipal]; simp

/-- Every successful index update leaves the chain covered, as long as the total principal is not
negative. -/
theorem C41_updated_covered {c : Cfg} (hc : c.WF) {s s' : State} (hr : Reachable c s) {env : Env} {i : Int}
    (hp : 0 ≤ s.totalPrincipal) (h : updateIndex c env i s = .ok () s') : Covered s' := by
  obtain ⟨hu, hd⟩ := (updateIndex_wp hc env i (hr.led hc).good).of_ok h
  unfold Covered
  have hi : 0 < i := (hr.led hc).good.index.trans hd.greater
  have h6 := (tdiv_bounds (mul_nonneg hp hi.le) (show (0 : Int) < SCALE by decide)).1
  rw [hd.supply, hd.index, hu.totalPrincipal]
  have hS : SCALE = 10 ^ 12 := rfl
  rw [hS] at h6
  unfold present
  rw [hS, mul_comm i]
  omega

/-- Hence an index update can only panic when the index grows by less than the fraction of the total
principal that the bridge transfers since a covered state rounded away (and that deliveries to the yield
account outweigh): with `n` such units, an increase from `index` to `i` with
`index * n ≤ totalPrincipal * (i - index)` does not panic. -/
theorem C41_bounded_no_panic_partial {c : Cfg} (hc : c.WF) {s0 : State} (hr : Reachable c s0)
    (h0 : Covered s0) {h : History} (hsig : History.Signed c h) (env : Env)
    (i : Int)
    (hi : (run c h s0).index * (transfersOut c h s0 + yieldUnits c h s0) ≤
      (run c h s0).totalPrincipal * (i - (run c h s0).index)) :
    updateIndex c env i (run c h s0) ≠ .panic := by
  have hr' : Reachable c (run c h s0) := Reachable.run hr hsig
  have h1 := C41_shortfall hc hr h0 hsig
  have hx := Reachable.index_pos hc hr'
  generalize run c h s0 = s at *
  change 10 ^ 12 * s.supply ≤ s.index * (s.totalPrincipal + transfersOut c h s0 + yieldUnits c h s0) at h1
  rw [add_assoc] at h1
  generalize (transfersOut c h s0 : Int) + yieldUnits c h s0 = n at *
  have h2 : s.supply * 10 ^ 12 ≤ s.totalPrincipal * i := by
    have e1 : s.index * (s.totalPrincipal + n) = s.index * s.totalPrincipal + s.index * n := by ring
    have e2 : s.totalPrincipal * (i - s.index) = s.totalPrincipal * i - s.index * s.totalPrincipal := by ring
    omega
  have h3 := hr'.supply_nonneg hc
  exact C41_covered_no_panic_partial hc hr' env i h2 (by omega)

-- The bound is met in the panicking history above as well: one transfer out, supply 10, index 1.1,
-- total principal 9 (worth 9.9); an increase to 1.3 satisfies the condition, the one to
-- 1.100000000001 does not.
example : let s := run Demo.cfg Demo.hist11 Demo.start11
    Initial Demo.cfg Demo.start11 ∧ History.Signed Demo.cfg Demo.hist11 ∧
    transfersOut Demo.cfg Demo.hist11 Demo.start11 = 1 ∧ yieldUnits Demo.cfg Demo.hist11 Demo.start11 = 0 ∧ s.supply = 10 ∧ s.totalPrincipal = 9 ∧
    s.index * (1 + 0) ≤ s.totalPrincipal * (1300000000000 - s.index) ∧
    ¬ s.index * (1 + 0) ≤ s.totalPrincipal * (1100000000001 - s.index) :=
  ⟨Demo.start11_initial, Demo.hist11_signed, by decide +kernel⟩

end Dollar
