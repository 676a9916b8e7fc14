import Verif.Lemmas.CheckedAll2
import Verif.Props.C119

/-
The checked handlers agree with the unchecked ones while the numbers are small (C122).
-/
set_option linter.unusedSimpArgs false
set_option linter.unusedVariables false

namespace Dollar
open MM Spec

namespace Checked

theorem wp_true {α : Type} (x : M α) (s : State) : wp x s (fun _ _ => True) (fun _ _ => True) := by
  unfold wp; cases x s <;> trivial

theorem At.any {α : Type} {x : M α} {s : State} : At s x x (fun _ _ => True) (fun _ => True) := .refl (wp_true x s)

theorem At.lift_both {α β : Type} {o : Option α} {f' f : α → M β} {s : State} {J : β → State → Prop} {E : State → Prop}
    (h : ∀ a, At s (f' a) (f a) J E) : At s (Checked.lift o >>= f') (Checked.lift o >>= f) J E := by
  cases o with
  | none => exact .crash
  | some a => exact .lift rfl ⟨(h a).eq, (h a).post⟩

theorem At.parse {α β : Type} {r : PRes α} {f' f : α → M β} {s : State} {J : β → State → Prop} {E : State → Prop}
    (he : E s) (h : ∀ a, r = .ok a → At s (f' a) (f a) J E) : At s (Dollar.parse r >>= f') (Dollar.parse r >>= f) J E := by
  cases r with
  | ok a => exact ⟨(h a rfl).eq, (h a rfl).post⟩
  | err => exact ⟨rfl, he⟩
  | panic => exact .crash

namespace Full

theorem minted_tame {a : Addr} {v Q B n : Int} {s : State} (h : Tame Q B n s) (h0 : 0 ≤ v) :
    Tame Q (B + v) n (minted s a v) := by
  refine ⟨KV.sorted_set _ _ h.srt, fun x => ?_, ?_, ?_, h.prin, h.tot, h.idx, h.retry, h.ext, h.col, h.yield, h.recs⟩
  · rw [minted_balance]; have := h.bal x; split <;> omega
  · rw [minted_sum]; have := h.sum; omega
  · show 0 ≤ s.supply + v ∧ s.supply + v ≤ B + v
    have := h.sup; omega

theorem mintCoins_at {c : Cfg} {v Q B n : Int} {s : State} {E : State → Prop} (hB : B ≤ 2 ^ 130) (h : Tame Q B n s)
    (h0 : 0 ≤ v) (h1 : v ≤ 2 ^ 130) :
    At s (mintCoins c v) (Dollar.mintCoins c v) (fun _ s' => Tame Q (B + v) n s') E := by
  have hb := h.bal_le c.moduleAddr
  have hb0 := h.bal c.moduleAddr
  have hs := h.sup
  unfold mintCoins Dollar.mintCoins addCoins Dollar.addCoins
  refine .bind (J := fun _ s' => s' = credit s c.moduleAddr v)
    (.get_left (.lift (add_small (by omega) (by omega)) ⟨rfl, rfl⟩)) fun _ s1 e => ?_
  rw [e]
  exact .get_left (.lift (add_small (a := s.supply) (by omega) (by omega)) (.modify' rfl (minted_tame h h0)))

theorem handleSeasonOne_at {c : Cfg} {i Q B n N : Int} {s : State} (hB : B ≤ 2 ^ 130) (hn : n + 4 ≤ 2 ^ 45)
    (h : Tame Q B n s) (hN : n + 4 ≤ N) :
    At s (handleSeasonOne c i) (Dollar.handleSeasonOne c i) (fun _ s' => Tame Q B (n + 4) s') (Tame Q B N) := by
  unfold handleSeasonOne Dollar.handleSeasonOne
  refine .bind (claimModuleYield_at hB (by omega) h (by omega)) fun y s1 h1 => ?_
  refine .bind (claimStaked_at hB (by omega) h1.1 (by omega)) fun z s2 h2 => ?_
  refine .lift (add_small (by omega) (by omega)) (.modify' rfl ?_)
  exact (h2.1.mono (m := n + 4) (by omega)).congr

theorem handleSeasonTwo_at {c : Cfg} {Q B n N : Int} {s : State} (hB : B ≤ 2 ^ 130) (hn : n + 2 ≤ 2 ^ 45)
    (h : Tame Q B n s) (hN : n + 2 ≤ N) :
    At s (handleSeasonTwo c) (Dollar.handleSeasonTwo c) (fun _ s' => Tame Q B (n + 2) s') (Tame Q B N) := by
  unfold handleSeasonTwo Dollar.handleSeasonTwo
  refine .bind (claimModuleYield_at hB (by omega) h (by omega)) fun y s1 h1 => ?_
  refine .ite (fun hy => ?_) fun _ => .pure (h1.1.mono (by omega))
  exact .get ((sendCoins_at hB (by omega) h1.1 hy.le (by omega)).mono (fun _ _ h => h.1.mono (by omega)) fun _ h => h)

theorem handleVaults_at {c : Cfg} {i Q B n N : Int} {s : State} (hB : B ≤ 2 ^ 130) (hn : n + 4 ≤ 2 ^ 45)
    (h : Tame Q B n s) (hN : n + 4 ≤ N) :
    At s (handleVaults c i) (Dollar.handleVaults c i) (fun _ s' => Tame Q B (n + 4) s') (Tame Q B N) := by
  unfold handleVaults Dollar.handleVaults
  exact .get (.ite (fun _ => (handleSeasonTwo_at hB (by omega) h (by omega)).mono
    (fun _ _ h => h.mono (by omega)) fun _ h => h) fun _ => handleSeasonOne_at hB hn h hN)

theorem accrueYield_at {c : Cfg} {d D Q B n N : Int} {s : State} (hB : B + D ≤ 2 ^ 130) (hn : n + 2 ≤ 2 ^ 45)
    (h : Tame Q B n s) (hN : n + 2 ≤ N) (hD0 : 0 ≤ D) (hD : d ≤ D) :
    At s (accrueYield c d) (Dollar.accrueYield c d) (fun _ s' => Tame Q (B + D) (n + 2) s') (Tame Q (B + D) N) := by
  unfold accrueYield Dollar.accrueYield
  refine .newCoin fun h0 => .ite (fun hd => ?_) fun _ => .pure ((h.widen (by omega)).mono (by omega))
  refine .bind (mintCoins_at (by omega) h h0 (by have := h.sup; omega)) fun _ s1 h1 => ?_
  have h1 := h1.widen (C := B + D) (by omega)
  refine .bind (sendCoins_at hB (by omega) h1 h0 (by omega)) fun _ s2 h2 => ?_
  have hy := h2.1.yield
  have hs := h.sup
  unfold incrementTotalYield Dollar.incrementTotalYield
  refine .get_left (.lift (add_small (by omega) (by omega)) (.modify' rfl ?_))
  have h' := h2.1.mono (m := n + 2) (by omega)
  refine ⟨h'.srt, h'.bal, h'.sum, h'.sup, h'.prin, h'.tot, h'.idx, h'.retry, h'.ext, h'.col, ?_, h'.recs⟩
  show 0 ≤ s2.totalYield + d ∧ s2.totalYield + d ≤ _
  omega

theorem updateIndex_at {c : Cfg} {env : Env} {i Q B n N : Int} {s : State} (hB : B + 2 ^ 127 ≤ 2 ^ 130) (hN' : N ≤ 2 ^ 45)
    (h : Tame Q B n s) (hN : n + 2 ^ 43 + 8 ≤ N) (hi : i < 2 ^ 63) (ht : s.totalPrincipal ≤ 2 ^ 103)
    (hQ : Q + (B + 2 ^ 127) ≤ 2 ^ 200) :
    At s (updateIndex c env i) (Dollar.updateIndex c env i) (fun _ s' => Tame (Q + (B + 2 ^ 127)) (B + 2 ^ 127) N s')
      (Tame (Q + (B + 2 ^ 127)) (B + 2 ^ 127) N) := by
  have hs := h.sup
  have hx := h.idx
  have hS : SCALE = 1000000000000 := rfl
  unfold updateIndex Dollar.updateIndex
  have up : ∀ {C m : Int} {t : State}, Tame Q C m t → C ≤ B + 2 ^ 127 → m ≤ N →
    Tame (Q + (B + 2 ^ 127)) (B + 2 ^ 127) N t := fun h h1 h2 => ((h.widen h1).mono h2).raise (by omega)
  refine .get (.ite (fun _ => .fail (up h (by omega) (by omega))) fun hlt => .modify_bind ?_)
  have h1 : Tame Q B n { s with index := i } :=
    ⟨h.srt, h.bal, h.sum, h.sup, h.prin, h.tot, ⟨by show SCALE ≤ i; omega, hi⟩, h.retry, h.ext, h.col, h.yield, h.recs⟩
  have hp : Dollar.present s.totalPrincipal i ≤ 2 ^ 127 ∧ -2 ^ 240 ≤ Dollar.present s.totalPrincipal i := by
    have ht' := h.tot
    unfold Dollar.present
    have hi0 : 0 ≤ i := by omega
    constructor
    · by_cases hneg : s.totalPrincipal ≤ 0
      · have : s.totalPrincipal * i ≤ 0 := mul_nonpos_of_nonpos_of_nonneg hneg hi0
        generalize s.totalPrincipal * i = z at *
        rw [← neg_neg z, Int.neg_tdiv, Int.tdiv_eq_ediv_of_nonneg (by omega), hS]
        omega
      · have h2 : s.totalPrincipal * i ≤ 2 ^ 103 * 2 ^ 63 := mul_le_mul ht hi.le hi0 (by decide)
        have h3 : 0 ≤ s.totalPrincipal * i := mul_nonneg (by omega) hi0
        rw [Int.tdiv_eq_ediv_of_nonneg h3, hS]
        omega
    · have h2 : -(2 ^ 179 * 2 ^ 63) ≤ s.totalPrincipal * i := by
        have h4 : (-2 ^ 179 : Int) ≤ s.totalPrincipal := by omega
        have h5 : (-2 ^ 179 : Int) * i ≤ s.totalPrincipal * i := mul_le_mul_of_nonneg_right h4 hi0
        have h6 : (2 ^ 179 : Int) * i ≤ 2 ^ 179 * 2 ^ 63 := mul_le_mul_of_nonneg_left hi.le (by decide)
        rw [neg_mul] at h5
        omega
      generalize s.totalPrincipal * i = z at *
      rcases le_total 0 z with hz | hz
      · rw [Int.tdiv_eq_ediv_of_nonneg hz, hS]; omega
      · rw [← neg_neg z, Int.neg_tdiv, Int.tdiv_eq_ediv_of_nonneg (by omega), hS]; omega
  have ht' := h.tot
  refine .lift (present_some (by rw [abs_lt]; omega) (by omega) hi) (.lift (sub_small (by omega) (by omega)) ?_)
  refine .bind ((accrueYield_at (D := 2 ^ 127) (N := N) hB (by omega) h1 (by omega) (by decide) (by omega)).mono
    (fun _ _ h => h) fun _ h => h.raise (by omega)) fun _ s2 h2 => ?_
  refine .bind ((handleVaults_at (N := N) hB (by omega) h2 (by omega)).mono
    (fun _ _ h => h) fun _ h => h.raise (by omega)) fun _ s3 h3 => ?_
  refine .bind ((claimExternalIBC_at (N := N) hB hN' h3 (by omega)).mono
    (fun _ _ h => h) fun _ h => h.raise (by omega)) fun _ s4 h4 => ?_
  refine .bind ((claimExternalHyp_at (N := N) hB hN' (by omega) hQ h4 (by omega))) fun _ s5 h5 => ?_
  exact emit_at h5 (by omega)

end Full
end Checked
end Dollar
