import Verif.Lemmas.RouteKeys
import Verif.Lemmas.Deliver
import Verif.Lemmas.VPay

/-
Which positions and reward records a message can add.
-/
set_option linter.unusedSimpArgs false
set_option linter.unusedTactic false
set_option linter.unreachableTactic false
namespace Dollar
open MM Spec

/-- The keys of positions and reward records lie in given sets. -/
structure Within (P : PKey → Prop) (R : Int → Prop) (s : State) : Prop where
  pos : ∀ e ∈ s.positions, P e.1
  rew : ∀ e ∈ s.rewards, R e.1

namespace Within
variable {P : PKey → Prop} {R : Int → Prop} (c : Cfg) (env : Env)

theorem congr {s s' : State} (h : Within P R s) (e1 : s'.positions = s.positions := by rfl)
    (e2 : s'.rewards = s.rewards := by rfl) : Within P R s' := ⟨e1 ▸ h.pos, e2 ▸ h.rew⟩

theorem of_leaves {α : Type} {x : M α} (h1 : Leaves vaultF x) : Keeps (Within P R) x := by
  refine ⟨fun s => ?_⟩
  have a := (h1 (vaultF s)).steps s
  cases hx : x s with
  | ok v s' =>
    rw [hx] at a
    have a : vaultF s' = vaultF s := a rfl
    exact fun h => h.congr (congrArg (fun x => x.1) a :) (congrArg (fun x => x.2.2.1) a :)
  | err e s' =>
    rw [hx] at a
    have a : vaultF s' = vaultF s := a rfl
    exact fun h => h.congr (congrArg (fun x => x.1) a :) (congrArg (fun x => x.2.2.1) a :)
  | panic => trivial

theorem emit (e : Event) : Keeps (Within P R) (emit e) := Keeps.modify fun _ h => h.congr
theorem sendCoins (a b : Addr) (v : Int) : Keeps (Within P R) (sendCoins c a b v) :=
  of_leaves (VaultF.sendCoins c a b v)
theorem claimModuleYield (a : Addr) : Keeps (Within P R) (claimModuleYield c a) :=
  of_leaves ((Other.claimModuleYield c a).mono fun _ _ h => congrArg Prod.fst h)

theorem claimRewards (p : PosEntry) (a : Int) : Keeps (Within P R) (claimRewards c p a) := by
  unfold Dollar.claimRewards
  keeps <;> first
    | exact emit _ | exact sendCoins _ _ _ _
    | skip
  refine Keeps.modify fun s h => ⟨h.pos, fun e he => ?_⟩
  obtain ⟨x, hx, rfl⟩ := List.mem_map.1 he
  exact h.rew x hx

theorem unlockLoop (x : String) (a : Addr) (v : Int) (l : List PosEntry)
    (hl : ∀ p ∈ l, P (p.address, p.vault, p.time)) (m n : Int) :
    Keeps (Within P R) (unlockLoop c x a v l m n) := by
  induction l generalizing m n with
  | nil => exact Keeps.pure _
  | cons e t ih =>
    have hk := hl e List.mem_cons_self
    unfold Dollar.unlockLoop
    refine Keeps.ite (Keeps.pure _) (Keeps.bind ?_ fun _ => ih (fun p h => hl p (List.mem_cons_of_mem _ h)) _ _)
    unfold Dollar.unlockOne unlockPayout unlockFlexible addTotalFlexible incrementDistributed updatePosition
    keeps <;> first
      | exact emit _ | exact sendCoins _ _ _ _ | exact claimRewards _ _ _ | exact claimModuleYield _ _
      | exact Keeps.modify fun _ h => h.congr
      | skip
    · exact Keeps.modify fun s h => ⟨fun e he => h.pos e (KV.mem_erase.1 he).1, h.rew⟩
    · exact Keeps.modify fun s h => ⟨fun e he => (KV.mem_set he).elim (fun e1 => e1 ▸ hk) (h.pos e), h.rew⟩

/-- An unlock only touches positions that were there. -/
theorem unlock {x : String} {v : Int} {amt : Option Int} {s s' : State}
    (ht : ∀ e ∈ s.positions, e.2.time = e.1.2.2) (h : Within P R s) (hx : unlock c x v amt s = .ok () s') :
    Within P R s' := by
  unfold Dollar.unlock at hx
  simp only [bind_ok, get_ok] at hx
  obtain ⟨_, _, ⟨rfl, rfl⟩, hx⟩ := hx
  rw [ite_ok] at hx
  rcases hx with ⟨_, hx⟩ | ⟨_, hx⟩
  · cases hx
  rw [ite_ok] at hx
  rcases hx with ⟨_, hx⟩ | ⟨_, hx⟩
  · cases hx
  unfold Dollar.unlockInner at hx
  cases hd : c.decode x with
  | none => simp only [hd] at hx; cases hx
  | some a =>
  simp only [hd] at hx
  cases amt with
  | none => cases hx
  | some amount =>
  simp only at hx
  rw [ite_ok] at hx
  rcases hx with ⟨_, hx⟩ | ⟨_, hx⟩
  · cases hx
  rw [ite_ok] at hx
  rcases hx with ⟨_, hx⟩ | ⟨_, hx⟩
  · cases hx
  simp only [bind_ok, get_ok] at hx
  obtain ⟨_, _, ⟨rfl, rfl⟩, hx⟩ := hx
  rw [ite_ok] at hx
  rcases hx with ⟨_, hx⟩ | ⟨_, hx⟩
  · cases hx
  rw [ite_ok] at hx
  rcases hx with ⟨_, hx⟩ | ⟨_, hx⟩
  · cases hx
  simp only [bind_ok] at hx
  obtain ⟨r, t, hloop, hx⟩ := hx
  have hl : ∀ p ∈ positionsOf s a v, P (p.address, p.vault, p.time) := by
    intro p hp
    unfold positionsOf at hp
    obtain ⟨e, he, h1⟩ := List.mem_filterMap.1 hp
    split at h1
    · cases h1
      show P (e.1.1, e.1.2.1, e.2.time)
      rw [ht e he]
      exact h.pos e he
    · cases h1
  have h1 := (unlockLoop (P := P) (R := R) c x a v (positionsOf s a v) hl amount 0).ok hloop h
  refine Keeps.ok (P := Within P R) (x := if r.1 ≠ 0 then fail .invalidAmount else do
    countGoneUser a v; addVaultPrincipal v (-r.2)) ?_ hx h1
  unfold countGoneUser addVaultPrincipal decrementVaultUsers
  keeps <;> exact Keeps.modify fun s h => h.congr

end Within

/-- What a message can add: a lock its position, a delivery that raises the index a record. -/
theorem exec_within {P : PKey → Prop} {R : Int → Prop} {c : Cfg} (hc : c.WF) {env : Env} {m : Msg} {s s' : State}
    (hr : Reachable c s) (h : Within P R s)
    (hp : ∀ signer v x a, m = .lock signer v x → c.decode signer = some a → P (a, v, env.time))
    (hw : s'.index ≠ s.index → R s'.index) (hx : exec c env m s = .ok () s') : Within P R s' := by
  cases hn : m.noOther
  · by_cases hd : ∃ vaa, m = .deliver vaa
    · obtain ⟨vaa, rfl⟩ := hd
      obtain ⟨v, sA, _, _, rfl, hA, _, hd⟩ := deliver_did hc (hr.led hc) hx
      have upd : ∀ {i : Int} {t : State}, UI c { s with archive := s.archive ++ [v.digest] } i t →
          (t.index ≠ s.index → R t.index) → Within P R t := by
        intro i t hu hw
        have hp : t.positions = s.positions := (congrArg State.positions hu.frame :)
        rcases hu.rewards with e | ⟨_, e1, e2, r, _, e3, _⟩
        · exact h.congr hp e
        · refine ⟨hp ▸ h.pos, fun e he => ?_⟩
          rw [e3] at he
          rcases KV.mem_set he with rfl | he
          · show R i
            rw [← e1]
            exact hw (by rw [e1]; exact ne_of_gt e2)
          · exact h.rew e he
      generalize content env vaa = q at hd
      cases hd with
      | ignored _ hn _ _ _ _ _ _ e => rw [e]; exact h.congr
      | token amount i rcp s1 hup hui hmk =>
        have h1 : Within P R s1 := upd hui (by
          intro hne
          have : s'.index = s1.index := hmk.moved.index
          rw [← this] at hne ⊢
          exact hw hne)
        exact h1.congr hmk.moved.positions hmk.moved.rewards
      | index i t hup e hui _ =>
        rw [e] at hw ⊢
        exact (upd hui hw).congr
    · push Not at hd
      by_cases hl : ∃ a b d, m = .lock a b d
      · obtain ⟨signer, v, x, rfl⟩ := hl
        obtain ⟨amt, a, rfl, hk⟩ := lock_ok hx
        obtain ⟨t, hm, rfl⟩ := hk.run
        refine ⟨fun e he => ?_, ?_⟩
        · have he : e ∈ t.positions.set (a, v, env.time) _ := he
          rcases KV.mem_set he with rfl | he
          · exact hp signer v _ a rfl hk.dec
          · rw [hm.positions] at he
            exact h.pos e he
        · show ∀ e ∈ t.rewards, _
          rw [hm.rewards]; exact h.rew
      · push Not at hl
        by_cases hu : ∃ a b d, m = .unlock a b d
        · obtain ⟨signer, v, x, rfl⟩ := hu
          exact Within.unlock c (fun e he => ((hr.vinv hc).entry e he).time) h hx
        · push Not at hu
          exact (Within.of_leaves (VaultF.route c env m hn (by
            cases m <;> first | rfl | exact absurd rfl (hd _) | exact Bool.noConfusion hn) hl hu)).ok hx h
  · exact (Within.of_leaves ((Other.msg c env m hn).mono fun _ _ h => congrArg Prod.fst h)).ok hx h

end Dollar
