import Verif.Props.C03
import Verif.Props.C08
import Verif.Props.C36
import Verif.Lemmas.Yield
import Verif.Props.C93
import Verif.Spec.Yield
import Mathlib.Data.List.Dedup

/-
C42: the yield account covers all claimable yield after an index update - false, with the exact
amount by which it can fall short.
-/
set_option maxRecDepth 100000
namespace Dollar
open Spec MM

/-- All accounts with a balance or a principal record, each once. -/
def Spec.accounts (s : State) : List Addr := (s.bal.map Prod.fst ++ s.principal.map Prod.fst).dedup

/-- What all accounts together could claim. -/
def Spec.totalClaimable (s : State) : Int := ((accounts s).map fun a => yieldAt s a s.index).sum

/-- The part of a balance that the account's principal is not worth (rounding losses). -/
def Spec.uncovered (s : State) (a : Addr) : Int :=
  if s.principalOf a * s.index / 10 ^ 12 < s.balance a then
    s.balance a - s.principalOf a * s.index / 10 ^ 12
  else 0

/-- All rounding losses, except the yield account (which has no principal by design). -/
def Spec.totalUncovered (c : Cfg) (s : State) : Int :=
  (((accounts s).filter fun a => a ≠ c.yieldAddr).map (uncovered s)).sum

/-- The full claim. -/
def Spec.YieldCovered : Prop :=
  ∀ (c : Cfg), c.WF → ∀ (env : Env) (vaa : Bytes) (i : Int) (ch : Nat) (s s' : State), Reachable c s →
    content env vaa = some (.index i ch) → exec c env (.deliver vaa) s = .ok () s' →
    totalClaimable s' ≤ s'.balance c.yieldAddr

/-! ### Sums over accounts -/

theorem sum_over {m : KV Addr Int} (hm : m.Sorted) {l : List Addr} (hl : l.Nodup)
    (hs : ∀ e ∈ m, e.1 ∈ l) :
    (l.map fun a => (m.get? a).getD 0).sum = (m.map fun e => e.2).sum := by
  induction l generalizing m with
  | nil =>
    cases m with
    | nil => rfl
    | cons e t => exact absurd (hs e List.mem_cons_self) (List.not_mem_nil)
  | cons a t ih =>
    rw [List.nodup_cons] at hl
    rw [List.map_cons, List.sum_cons]
    have h1 := ih (m := m.erase a) (KV.sorted_erase a hm) hl.2 (by
      intro e he
      obtain ⟨he, hne⟩ := KV.mem_erase.1 he
      exact (List.mem_cons.1 (hs e he)).resolve_left hne)
    have h2 : (t.map fun x => (KV.get? (m.erase a) x).getD 0) = t.map fun x => (m.get? x).getD 0 := by
      refine List.map_congr_left fun x hx => ?_
      rw [KV.get?_erase, if_neg]
      rintro rfl
      exact hl.1 hx
    have h3 := KV.sum_erase hm a (fun _ v => v)
    have h4 : m.at' a (fun _ v => v) = (m.get? a).getD 0 := by
      unfold KV.at'
      cases m.get? a <;> rfl
    rw [h2] at h1
    rw [h1]
    have h5 : ((m.erase a).map fun e => e.2).sum = (m.erase a).sum (fun _ v => v) := rfl
    have h6 : (m.map fun e => e.2).sum = m.sum (fun _ v => v) := rfl
    rw [h5, h6, h3, h4]
    omega

theorem accounts_nodup' (s : State) : (accounts s).Nodup := List.nodup_dedup _

theorem sum_balances {s : State} (h : s.bal.Sorted) :
    ((accounts s).map s.balance).sum = totalBalances s := by
  refine sum_over h (accounts_nodup' s) fun e he => ?_
  exact List.mem_dedup.2 (List.mem_append_left _ (List.mem_map_of_mem he))

theorem sum_principals {s : State} (h : s.principal.Sorted) :
    ((accounts s).map s.principalOf).sum = totalPrincipals s := by
  refine sum_over h (accounts_nodup' s) fun e he => ?_
  exact List.mem_dedup.2 (List.mem_append_right _ (List.mem_map_of_mem he))

/-- Sums of floors. -/
theorem sum_floor_le (f : Addr → Int) (i : Int) (l : List Addr) :
    (l.map fun a => f a * i / 10 ^ 12).sum * 10 ^ 12 ≤ (l.map f).sum * i := by
  induction l with
  | nil => simp
  | cons a t ih =>
    simp only [List.map_cons, List.sum_cons, Int.add_mul]
    have := Int.ediv_mul_le (f a * i) (show (10 ^ 12 : Int) ≠ 0 by decide)
    omega

theorem sum_filter_zero {f : Addr → Int} {p : Addr → Bool} (l : List Addr)
    (h : ∀ a ∈ l, p a = false → f a = 0) : ((l.filter p).map f).sum = (l.map f).sum := by
  induction l with
  | nil => rfl
  | cons a t ih =>
    have := ih fun x hx => h x (List.mem_cons_of_mem _ hx)
    rw [List.filter_cons]
    split
    · rw [List.map_cons, List.sum_cons, this]; rfl
    · next hp =>
      rw [this, List.map_cons, List.sum_cons, h a List.mem_cons_self (by simpa using hp)]
      exact (Int.zero_add _).symm

theorem sum_filter_split {f : Addr → Int} {y : Addr} {l : List Addr} (hl : l.Nodup)
    (h : y ∉ l → f y = 0) :
    ((l.filter fun a => a ≠ y).map f).sum + f y = (l.map f).sum := by
  induction l with
  | nil => simpa using h List.not_mem_nil
  | cons a t ih =>
    rw [List.nodup_cons] at hl
    rw [List.filter_cons]
    by_cases ha : a = y
    · subst ha
      rw [if_neg (by simp)]
      have e : t.filter (fun x => x ≠ a) = t := by
        rw [List.filter_eq_self]
        intro x hx
        have : x ≠ a := by rintro rfl; exact hl.1 hx
        simpa using this
      rw [e, List.map_cons, List.sum_cons]
      omega
    · rw [if_pos (by simpa using ha)]
      simp only [List.map_cons, List.sum_cons]
      have := ih hl.2 fun hy => h fun hy' => (List.mem_cons.1 hy').elim (fun e => ha e.symm) hy
      omega

/-- Pointwise: claimable yield plus balance is at most the value of the principal plus the loss. -/
theorem yieldAt_le {s : State} (a : Addr) :
    yieldAt s a s.index + s.balance a ≤ s.principalOf a * s.index / 10 ^ 12 + uncovered s a := by
  unfold yieldAt uncovered
  split <;> split <;> omega

theorem sum_pointwise {f g h k : Addr → Int} (l : List Addr) (hp : ∀ a ∈ l, f a + g a ≤ h a + k a) :
    (l.map f).sum + (l.map g).sum ≤ (l.map h).sum + (l.map k).sum := by
  induction l with
  | nil => simp
  | cons a t ih =>
    have h1 := hp a List.mem_cons_self
    have h2 := ih fun x hx => hp x (List.mem_cons_of_mem _ hx)
    simp only [List.map_cons, List.sum_cons]
    omega

/-- In any consistent state whose supply is the value of the total principal. -/
theorem claimable_le_of_supply {c : Cfg} {s : State} (hs : Shape s) (hl : Led c s)
    (hy : s.principalOf c.yieldAddr = 0) (hv : s.supply = (s.totalPrincipal * s.index).tdiv (10 ^ 12)) :
    totalClaimable s ≤ s.balance c.yieldAddr + totalUncovered c s := by
  have hb0 := hl.good.bal
  have hi := hl.good.index
  have hA := accounts_nodup' s
  generalize hF : (accounts s).filter (fun a => decide (a ≠ c.yieldAddr)) = F
  -- yield account: nothing to claim
  have e1 : (F.map fun a => yieldAt s a s.index).sum = totalClaimable s := by
    rw [← hF]
    refine sum_filter_zero _ fun a _ ha => ?_
    have ha : a = c.yieldAddr := by simpa using ha
    subst ha
    unfold yieldAt
    rw [hy]
    have := hb0 c.yieldAddr
    rw [if_neg]
    simp only [Int.zero_mul, Int.zero_ediv]
    omega
  have e2 : (F.map s.balance).sum + s.balance c.yieldAddr = s.supply := by
    have h1 := sum_filter_split (f := s.balance) (y := c.yieldAddr) hA (by
      intro hn
      unfold State.balance
      cases hx : s.bal.get? c.yieldAddr with
      | none => rfl
      | some v =>
        exact absurd (List.mem_dedup.2 (List.mem_append_left _
          (List.mem_map_of_mem (f := Prod.fst) (KV.mem_of_get? hx)))) hn)
    rw [hF, sum_balances hs.bal] at h1
    exact h1.trans hl.sum
  have e3 : (F.map s.principalOf).sum ≤ s.totalPrincipal := by
    have h1 : (F.map s.principalOf).sum = ((accounts s).map s.principalOf).sum := by
      rw [← hF]
      refine sum_filter_zero _ fun a _ ha => ?_
      have ha : a = c.yieldAddr := by simpa using ha
      rw [ha]; exact hy
    rw [h1, sum_principals hs.principal]
    exact hl.gap
  have e4 := sum_floor_le s.principalOf s.index F
  have e5 := sum_pointwise (f := fun a => yieldAt s a s.index) (g := s.balance)
    (h := fun a => s.principalOf a * s.index / 10 ^ 12) (k := uncovered s) F fun a _ => yieldAt_le a
  have e6 : totalUncovered c s = (F.map (uncovered s)).sum := by rw [← hF]; rfl
  have e7 : (F.map s.principalOf).sum * s.index ≤ s.totalPrincipal * s.index :=
    Int.mul_le_mul_of_nonneg_right e3 hi.le
  have e8 : (F.map fun a => s.principalOf a * s.index / 10 ^ 12).sum ≤ s.supply := by
    have h1 : (F.map fun a => s.principalOf a * s.index / 10 ^ 12).sum ≤
        s.totalPrincipal * s.index / 10 ^ 12 :=
      Int.le_ediv_of_mul_le (by decide) (e4.trans e7)
    rw [hv]
    refine h1.trans ?_
    by_cases h0 : 0 ≤ s.totalPrincipal * s.index
    · rw [Int.tdiv_eq_ediv_of_nonneg h0]
    · rw [Int.tdiv_eq_ediv]
      have : (0 : Int) ≤ if 0 ≤ s.totalPrincipal * s.index ∨ (10 ^ 12 : Int) ∣ s.totalPrincipal * s.index
          then 0 else (10 ^ 12 : Int).sign := by split <;> decide
      omega
  rw [e6]
  omega

/-! ### The claim -/

namespace Demo

/-- A fresh chain with index 3. -/
def start3 : State := { start with index := 3000000000000 }

theorem start3_initial : Initial cfg start3 := by
  constructor <;> first | rfl | decide | (unfold KV.Sorted; decide)

/-- Wormhole: a delivery of 300 to alice and an index update. -/
def verify3 (bz : Bytes) : Option VAA :=
  if bz = [1] then some (vaaToken 1 alice 300 1000000000000)
  else if bz = [2] then some (vaaIndex 2 3000000000001)
  else none

def env3 (time : Int) : Env := { env time with verify := verify3 }

/-- 300 units arrive (principal 100), alice sends one unit to bob, which moves a whole unit of
principal, worth 3. -/
def histRound : History := [(env3 1, .deliver [1]), (env3 2, .bankSend alice bob 1)]

theorem histRound_signed : History.Signed cfg histRound := by
  intro e he
  simp only [histRound, List.mem_cons, List.not_mem_nil, or_false] at he
  rcases he with rfl | rfl
  · trivial
  · exact alice_user

theorem reachRound : Reachable cfg (run cfg histRound start3) :=
  .of_run start3_initial histRound_signed

end Demo

/-- The claim is false: after one bank send of one unit and an index update, bob could claim 2
units and the yield account is empty. -/
theorem C42_not_covered : ¬ YieldCovered := by
  intro h
  have hk := h Demo.cfg Demo.cfg_wf (Demo.env3 3) [2] 3000000000001 4009
    (run Demo.cfg Demo.histRound Demo.start3)
    (step Demo.cfg (Demo.env3 3) (.deliver [2]) (run Demo.cfg Demo.histRound Demo.start3))
    Demo.reachRound (by decide +kernel) (exec_of_isOk (by decide +kernel))
  have e1 : totalClaimable (step Demo.cfg (Demo.env3 3) (.deliver [2])
      (run Demo.cfg Demo.histRound Demo.start3)) = 2 := by decide +kernel
  have e2 : (step Demo.cfg (Demo.env3 3) (.deliver [2])
      (run Demo.cfg Demo.histRound Demo.start3)).balance Demo.cfg.yieldAddr = 0 := by decide +kernel
  rw [e1, e2] at hk
  exact absurd hk (by decide)

/-- After every delivered index update, what all accounts could claim exceeds the yield account
by at most the rounding losses: the parts of balances their principal is not worth. (What is missing
from the full claim is that these losses are zero.) -/
theorem C42_shortfall_partial {c : Cfg} (hc : c.WF) {s s' : State} (hr : Reachable c s) (env : Env)
    (vaa : Bytes) (i : Int) (ch : Nat) (hv : content env vaa = some (.index i ch))
    (h : exec c env (.deliver vaa) s = .ok () s') :
    totalClaimable s' ≤ s'.balance c.yieldAddr + totalUncovered c s' := by
  have hr' : Reachable c s' := by
    have e : s' = step c env (.deliver vaa) s := by unfold step runTx; rw [h]
    rw [e]; exact hr.step trivial
  obtain ⟨_, h2, h3, h4, _⟩ := C03_delivered_index hc hr env vaa i ch hv h
  refine claimable_le_of_supply hr'.shape (hr'.led hc) (C08_principal_constant hc hr') ?_
  rw [h4, h3, h2]

/-- If no account's balance exceeds the value of its principal, the yield account covers every
claim after an index update. -/
theorem C42_covered_partial {c : Cfg} (hc : c.WF) {s s' : State} (hr : Reachable c s) (env : Env)
    (vaa : Bytes) (i : Int) (ch : Nat) (hv : content env vaa = some (.index i ch))
    (h : exec c env (.deliver vaa) s = .ok () s')
    (hd : ∀ a, a ≠ c.yieldAddr → s'.balance a ≤ s'.principalOf a * s'.index / 10 ^ 12) :
    totalClaimable s' ≤ s'.balance c.yieldAddr := by
  have h1 := C42_shortfall_partial hc hr env vaa i ch hv h
  have h2 : totalUncovered c s' = 0 := by
    unfold totalUncovered
    refine List.sum_eq_zero fun x hx => ?_
    obtain ⟨a, ha, rfl⟩ := List.mem_map.1 hx
    have ha : a ≠ c.yieldAddr := by simpa using (List.mem_filter.1 ha).2
    unfold uncovered
    rw [if_neg (Int.not_lt.2 (hd a ha))]
  omega

/-! ### How large the losses can be -/

theorem sum_count_le {l : List Addr} (hl : l.Nodup) (R : List Addr) : (l.map fun a => R.count a).sum ≤ R.length := by
  induction R with
  | nil => simp
  | cons x t ih =>
    have h1 : (l.map fun a => (x :: t).count a).sum = (l.map fun a => t.count a).sum + l.count x := by
      clear ih hl
      induction l with
      | nil => rfl
      | cons a l ih =>
        rw [List.map_cons, List.map_cons, List.sum_cons, List.sum_cons, ih, List.count_cons, List.count_cons]
        by_cases h : x = a
        · rw [if_pos (by simp [h]), if_pos (by simp [h])]; omega
        · rw [if_neg (by simp [h]), if_neg (by simp [Ne.symm h])]; omega
    have h2 : l.count x ≤ 1 := List.nodup_iff_count_le_one.1 hl x
    rw [h1, List.length_cons]
    omega

/-- The loss of one account. -/
theorem uncovered_le {s : State} {a : Addr} {d : Int} (hi : 0 < s.index) (hd0 : 0 ≤ d)
    (hd : 10 ^ 12 * s.balance a ≤ s.index * (s.principalOf a + d)) :
    uncovered s a ≤ d * ((s.index + (10 ^ 12 - 1)) / 10 ^ 12) := by
  have hk : s.index ≤ 10 ^ 12 * ((s.index + (10 ^ 12 - 1)) / 10 ^ 12) := by omega
  have hk0 : 0 ≤ (s.index + (10 ^ 12 - 1)) / 10 ^ 12 := by omega
  generalize (s.index + (10 ^ 12 - 1)) / 10 ^ 12 = k at *
  have h0 : 0 ≤ d * k := mul_nonneg hd0 hk0
  unfold uncovered
  split
  · have h1 : d * s.index ≤ d * (10 ^ 12 * k) := mul_le_mul_of_nonneg_left hk hd0
    have e1 : d * (10 ^ 12 * k) = 10 ^ 12 * (d * k) := by ring
    have e2 : s.index * (s.principalOf a + d) = s.principalOf a * s.index + d * s.index := by ring
    generalize d * k = w at *
    generalize s.principalOf a * s.index = z at *
    generalize d * s.index = y at *
    omega
  · exact h0

/-- Whatever users do: after any history, all rounding losses together are at most the value of one unit of
principal (rounded up) for each rounding, so at most one unit of dollars each while the index is at most one. -/
theorem C42_losses_partial {c : Cfg} (hc : c.WF) {s0 : State} (h0 : Initial c s0) {h : History}
    (hsig : History.Signed c h) :
    let s := run c h s0
    totalUncovered c s ≤ rounds c h s0 * ((s.index + (10 ^ 12 - 1)) / 10 ^ 12) := by
  intro s
  have hr : Reachable c s := .of_run h0 hsig
  have h2 : CoveredBy c (rounded c h s0 ++ []) s := run_covered hc h (Led.initial h0) hsig (CoveredBy.initial h0)
  rw [List.append_nil] at h2
  have h1 : (rounded c h s0).length ≤ rounds c h s0 := le_refl _
  generalize rounded c h s0 = R at h1 h2
  obtain ⟨m1, m2⟩ := C93_minting_account_empty hc hr
  have hk0 : 0 ≤ (s.index + (10 ^ 12 - 1)) / 10 ^ 12 := by have := h2.index; omega
  have hp : ∀ a, a ≠ c.yieldAddr → uncovered s a ≤ R.count a * ((s.index + (10 ^ 12 - 1)) / 10 ^ 12) := by
    intro a ha
    by_cases hm : a = c.moduleAddr
    · subst hm
      have e : uncovered s c.moduleAddr = 0 := by unfold uncovered; rw [m1, m2]; simp
      rw [e]; exact mul_nonneg (by omega) hk0
    · exact uncovered_le h2.index (by omega) (h2.debt a ha hm)
  have hn : ((accounts s).filter fun a => a ≠ c.yieldAddr).Nodup := (accounts_nodup' s).filter _
  have hm : ∀ a ∈ (accounts s).filter fun a => a ≠ c.yieldAddr, a ≠ c.yieldAddr := by
    intro a ha; simpa using (List.mem_filter.1 ha).2
  unfold totalUncovered
  generalize (accounts s).filter (fun a => decide (a ≠ c.yieldAddr)) = l at *
  generalize (s.index + (10 ^ 12 - 1)) / 10 ^ 12 = k at *
  have h3 : (l.map (uncovered s)).sum ≤ ((l.map fun a => R.count a).sum : Nat) * k := by
    clear hn
    induction l with
    | nil => simp
    | cons a t ih =>
      have j1 := hp a (hm a List.mem_cons_self)
      have j2 := ih fun x hx => hm x (List.mem_cons_of_mem _ hx)
      simp only [List.map_cons, List.sum_cons, Nat.cast_add, add_mul]
      omega
  refine h3.trans (mul_le_mul_of_nonneg_right ?_ hk0)
  have := sum_count_le hn R
  exact_mod_cast this.trans h1

/-- So the yield account covers all claimable yield up to that amount: after any history and a delivered index
update, what everybody together could claim exceeds the yield account by at most the value of one unit of
principal for each rounding so far. -/
theorem C42_bound_partial {c : Cfg} (hc : c.WF) {s0 : State} (h0 : Initial c s0) {h : History}
    (hsig : History.Signed c h) (env : Env) (vaa : Bytes) (i : Int) (ch : Nat) {s' : State}
    (hv : content env vaa = some (.index i ch)) (he : exec c env (.deliver vaa) (run c h s0) = .ok () s') :
    totalClaimable s' ≤ s'.balance c.yieldAddr + (rounds c h s0 + 2) * ((i + (10 ^ 12 - 1)) / 10 ^ 12) := by
  have hr : Reachable c (run c h s0) := .of_run h0 hsig
  have h1 := C42_shortfall_partial hc hr env vaa i ch hv he
  have e : run c (h ++ [(env, .deliver vaa)]) s0 = s' := by
    rw [run_append]
    show step c env (.deliver vaa) (run c h s0) = s'
    unfold step runTx; rw [he]
  have hsig' : History.Signed c (h ++ [(env, .deliver vaa)]) := by
    intro x hx
    rcases List.mem_append.1 hx with hx | hx
    · exact hsig x hx
    · rw [List.mem_singleton.1 hx]; trivial
  have h2 := C42_losses_partial hc h0 hsig'
  have er : rounds c (h ++ [(env, .deliver vaa)]) s0 = rounds c h s0 + 2 := by
    have ha : ∀ (h : History) (s : State), rounds c (h ++ [(env, .deliver vaa)]) s =
        rounds c h s + rounds c [(env, .deliver vaa)] (run c h s) := by
      intro h
      induction h with
      | nil => intro s; exact (Nat.zero_add _).symm
      | cons x t ih =>
        intro s
        show (_ ++ rounded c (t ++ _) _).length = (_ ++ rounded c t _).length + _
        rw [List.length_append, List.length_append]
        have := ih (step c x.1 x.2 s)
        unfold rounds at this
        rw [this, Nat.add_assoc]; rfl
    rw [ha]
    have : rounds c [(env, .deliver vaa)] (run c h s0) = 2 := by
      show ((if (exec c env (.deliver vaa) (run c h s0)).isOk = true then roundedIn c env _ _ else []) ++ []).length = 2
      rw [he]
      show ((match content env vaa with
        | some (.token _ i r _ _) => r :: if (run c h s0).index < i then [c.stakedAddr, c.flexibleAddr] else []
        | some (.index ..) => [c.stakedAddr, c.flexibleAddr]
        | none => []) ++ []).length = 2
      rw [hv]; rfl
    rw [this]
  have hi : s'.index = i := (C03_delivered_index hc hr env vaa i ch hv he).2.1
  simp only [e, er, hi] at h2
  rw [Nat.cast_add] at h2
  exact h1.trans (by have : ((2 : Nat) : Int) = 2 := rfl
                     rw [this] at h2; omega)

-- In the demo chain one unit is lost to rounding, and 0.9 USDN can be claimed.
example : Reachable Demo.cfg (run Demo.cfg (Demo.hist1.take 6) Demo.start) ∧
    content (Demo.env 7) [3] = some (.index 1100000000000 4009) ∧
    (exec Demo.cfg (Demo.env 7) (.deliver [3]) (run Demo.cfg (Demo.hist1.take 6) Demo.start)).isOk ∧
    totalUncovered Demo.cfg (run Demo.cfg Demo.hist1 Demo.start) = 1 ∧
    totalClaimable (run Demo.cfg Demo.hist1 Demo.start) = 900000 :=
  ⟨Demo.reach_take 6, by decide +kernel, by decide +kernel, by decide +kernel, by decide +kernel⟩

-- The hypotheses of the bound are met by the history of the counterexample: two roundings before the update.
-- The shortfall there is 2 dollar units, the bound 16.
example : Initial Demo.cfg Demo.start3 ∧ History.Signed Demo.cfg Demo.histRound ∧
    content (Demo.env3 3) [2] = some (.index 3000000000001 4009) ∧
    (exec Demo.cfg (Demo.env3 3) (.deliver [2]) (run Demo.cfg Demo.histRound Demo.start3)).isOk = true ∧
    rounds Demo.cfg Demo.histRound Demo.start3 = 2 ∧ totalUncovered Demo.cfg (run Demo.cfg Demo.histRound Demo.start3) = 2 :=
  ⟨Demo.start3_initial, Demo.histRound_signed, by decide +kernel, by decide +kernel, by decide +kernel, by decide +kernel⟩

-- After two deliveries and an index update no balance exceeds the value of its principal.
example : (exec Demo.cfg (Demo.env 7) (.deliver [3]) (run Demo.cfg (Demo.hist1.take 2) Demo.start)).isOk ∧
    totalUncovered Demo.cfg (step Demo.cfg (Demo.env 7) (.deliver [3])
      (run Demo.cfg (Demo.hist1.take 2) Demo.start)) = 0 ∧
    totalClaimable (step Demo.cfg (Demo.env 7) (.deliver [3])
      (run Demo.cfg (Demo.hist1.take 2) Demo.start)) = 1500000 :=
  ⟨by decide +kernel, by decide +kernel, by decide +kernel⟩

end Dollar
