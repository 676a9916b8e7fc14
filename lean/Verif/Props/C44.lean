import Verif.Lemmas.Names
import Verif.Lemmas.Handlers2
import Verif.Model.Queries
import Verif.Spec.Arith
import Verif.Spec.Demo

/-
C44: a transfer between holders moves exactly the amount and the rounded-up principal.
C45: the v1 to v2 migration keeps every statistic.
-/
set_option maxRecDepth 100000
namespace Dollar
open MM Spec

/-- Every transfer between two holders, in any state with a positive index: exactly the amount of
balance and exactly the rounded-up principal move; every other field of the state except the holder
count is unchanged. -/
theorem C44_transfer {c : Cfg} (s s' : State) (u v : Addr) (amount : Int)
    (hi : 0 < s.index) (hu : u ≠ c.moduleAddr ∧ u ≠ c.yieldAddr) (hv : v ≠ c.moduleAddr ∧ v ≠ c.yieldAddr)
    (huv : u ≠ v) (h0 : 0 < amount) (h : sendCoins c u v amount s = .ok () s') :
    amount ≤ s.balance u ∧
    (∃ p, IsCeil (amount * 10 ^ 12) s.index p ∧
      s'.principalOf u = s.principalOf u - p ∧ s'.principalOf v = s.principalOf v + p) ∧
    s'.balance u = s.balance u - amount ∧ s'.balance v = s.balance v + amount ∧
    (∀ x, x ≠ u → x ≠ v → s'.balance x = s.balance x ∧ s'.principalOf x = s.principalOf x) ∧
    s' = { s with bal := s'.bal, principal := s'.principal, holders := s'.holders } := by
  have hm := sendCoins_ok h
  have hne : amount ≠ 0 := by omega
  have hb := hm.bal
  have hp := hm.prin hne hu.2 hv.2
  refine ⟨hm.enough.resolve_left hne, ⟨roundedUp amount s.index, ?_, ?_, ?_⟩, ?_, ?_, ?_, ?_⟩
  · have := up_bounds (a := amount) (by omega) hi
    refine ⟨this.2, fun x hx => ?_⟩
    have h2 : (roundedUp amount s.index - 1) * s.index < x * s.index := lt_of_lt_of_le this.1 hx
    have := lt_of_mul_lt_mul_right h2 (by omega : 0 ≤ s.index)
    omega
  · rw [hp u]; simp [hu.1, huv]
  · rw [hp v]; simp [hv.1, huv.symm, hu.1]
  · rw [hb u]; simp [huv]
  · rw [hb v]; simp [huv.symm]
  · intro x hx hy
    exact ⟨hm.same hx hy, hm.prin_same hx hy⟩
  · have ht := hm.total_of_ne_module hu.1 hv.1
    have hf := hm.frame
    cases s
    cases s'
    simp only [bankCore, State.mk.injEq] at hf ht ⊢
    simp_all

/-- The same for a bank send message between users. -/
theorem C44_bank_send {c : Cfg} (env : Env) (s s' : State) (u v : Addr) (amount : Int)
    (hi : 0 < s.index) (hu : c.IsUser u) (hv : c.IsUser v) (huv : u ≠ v)
    (h : exec c env (.bankSend u v amount) s = .ok () s') :
    0 < amount ∧ s'.balance u = s.balance u - amount ∧ s'.balance v = s.balance v + amount ∧
    (∃ p, IsCeil (amount * 10 ^ 12) s.index p ∧
      s'.principalOf u = s.principalOf u - p ∧ s'.principalOf v = s.principalOf v + p) ∧
    (∀ x, x ≠ u → x ≠ v → s'.balance x = s.balance x ∧ s'.principalOf x = s.principalOf x) ∧
    s'.supply = s.supply ∧ s'.index = s.index ∧ s'.totalPrincipal = s.totalPrincipal := by
  have h' : bankSend c u v amount s = .ok () s' := h
  have h0 := (bankSend_ok h').1
  have h1 : sendCoins c u v amount s = .ok () s' := by
    unfold bankSend at h'
    rw [ite_ok] at h'
    rcases h' with ⟨_, h'⟩ | ⟨_, h'⟩
    · cases h'
    rw [ite_ok] at h'
    rcases h' with ⟨_, h'⟩ | ⟨_, h'⟩
    · cases h'
    exact h'
  obtain ⟨_, hp, hb1, hb2, ho, he⟩ := C44_transfer s s' u v amount hi ⟨hu.ne_module, hu.ne_yield⟩ ⟨hv.ne_module, hv.ne_yield⟩ huv h0 h1
  exact ⟨h0, hb1, hb2, hp, ho, by rw [he], by rw [he], by rw [he]⟩

/-- Non-vacuity: alice sends bob one USDN at index 1.1, where the principal really is rounded. -/
example : let s := run Demo.cfg Demo.hist1 Demo.start
    s.index = 1100000000000 ∧
    (∃ s', exec Demo.cfg (Demo.env 9) (.bankSend Demo.alice Demo.bob 1000000) s = .ok () s') ∧
    (step Demo.cfg (Demo.env 9) (.bankSend Demo.alice Demo.bob 1000000) s).principalOf Demo.bob =
      s.principalOf Demo.bob + 909091 := by
  refine ⟨by decide +kernel, ?_, by decide +kernel⟩
  have : (exec Demo.cfg (Demo.env 9) (.bankSend Demo.alice Demo.bob 1000000)
    (run Demo.cfg Demo.hist1 Demo.start)).isOk = true := by decide +kernel
  revert this
  cases exec Demo.cfg (Demo.env 9) (.bankSend Demo.alice Demo.bob 1000000)
    (run Demo.cfg Demo.hist1 Demo.start) with
  | ok u s' => exact fun _ => ⟨s', rfl⟩
  | err => exact nofun
  | panic => exact nofun

/-! ### C45 -/

/-- The migration succeeds on every stored v1 statistic, carries it over and changes nothing else;
without stored statistics it fails and changes nothing. -/
theorem C45_migration (s : State) :
    (∀ v1 : StatsV1, ∃ s', migrate1to2 (some v1) s = .ok () s' ∧
      s'.holders = v1.holders ∧ s'.totalPrincipal = v1.totalPrincipal ∧ s'.totalYield = v1.totalYield ∧
      { s' with holders := s.holders, totalPrincipal := s.totalPrincipal, totalYield := s.totalYield } = s) ∧
    (∃ e, migrate1to2 none s = .err e s) :=
  ⟨fun _ => ⟨_, rfl, rfl, rfl, rfl, rfl⟩, _, rfl⟩

/-- Non-vacuity: a migration with non-trivial statistics on a non-trivial state. -/
example : ∃ s', migrate1to2 (some ⟨3, 15000000, 77⟩) (run Demo.cfg Demo.hist2 Demo.start) = .ok () s' ∧
    queryStats s' = (3, 15000000, 77) ∧ s'.bal ≠ [] := by
  refine ⟨_, rfl, by decide +kernel, by decide +kernel⟩

end Dollar
