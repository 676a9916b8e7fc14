import Verif.Lemmas.CheckedVaults

/-
The loop of `Unlock`, `Lock` and the query of pending rewards, checked and unchecked (C119).
-/
set_option linter.unusedSimpArgs false

namespace Dollar
open MM Spec

/-- Everything the vaults compute with is far below the bound. Also holds inside the loop of `Unlock`. -/
structure Small (c : Cfg) (s : State) : Prop where
  led : Led c s
  shape : Shape s
  v0 : V0 c s
  rng : LRange c (2 ^ 127) (2 ^ 166) (2 ^ 168) s
  recs : s.rewards.length ≤ 2 ^ 39
  sup : s.supply ≤ 2 ^ 127

namespace Small
variable {c : Cfg} {s : State}

theorem bal (h : Small c s) (x : Addr) : 0 ≤ s.balance x ∧ s.balance x ≤ 2 ^ 127 := by
  have h0 := h.led.good.bal
  have := balance_le_sum h.shape.bal h0 x
  have := h.led.sum
  have := h.sup
  exact ⟨h0 x, by omega⟩

theorem entry (h : Small c s) {e : PKey × Position} (he : e ∈ s.positions) :
    0 ≤ e.2.amount ∧ e.2.amount ≤ 2 ^ 127 ∧ SCALE ≤ e.2.index ∧ 0 ≤ e.2.principal ∧ e.2.principal ≤ 2 ^ 127 := by
  have ho := h.v0.entry e he
  refine ⟨ho.amount, ?_, (h.rng.pos e he).1, ho.prin_nonneg, (h.rng.pos e he).2⟩
  rcases ho.vault with hk | hk
  · refine le_trans ?_ (h.v0.staked.trans (h.bal _).2)
    have h1 : amtIn STAKED e.1 e.2 = e.2.amount := by unfold amtIn; rw [if_pos hk]
    rw [← h1]
    refine KV.le_sum_of_mem (f := amtIn STAKED) (fun e' he' => ?_) he
    unfold amtIn
    split
    · exact (h.v0.entry e' he').amount
    · exact le_refl _
  · exact (h.v0.flex e he hk).trans (h.bal _).2

theorem total (h : Small c s) : 0 ≤ s.totalFlexible ∧ s.totalFlexible ≤ 2 ^ 166 := by
  refine ⟨le_trans (KV.sum_nonneg fun e he => ?_) h.v0.ftot, h.rng.ftot⟩
  unfold prinIn
  split
  · exact (h.v0.entry e he).prin_nonneg
  · exact le_refl _

theorem dist (h : Small c s) : 0 ≤ s.vstats.flexDistributed ∧ s.vstats.flexDistributed ≤ 2 ^ 168 := by
  have h1 := h.rng.dist
  have h2 := (h.bal c.flexibleAddr).1
  exact ⟨h.rng.dist0, by omega⟩

/-- What removing one position leaves. -/
theorem one (hc : c.WF) {signer : String} {a : Addr} {v amt : Int} {p : PosEntry} {s' : State} (h : Small c s)
    (hd : c.decode signer = some a) (hu : c.IsUser a) (hpa : p.address = a) (hpv : p.vault = v)
    (hget : s.positions.get? p.key = some p.val) (h0 : 0 ≤ amt) (h1 : amt ≤ p.amount) (hsh : Shape s')
    (hk : OneOk c signer a v p amt s s') : Small c s' := by
  obtain ⟨l1, q⟩ := hk.ledger hc hd hu hpa h.led
  refine ⟨l1, hsh, (h.v0.of_one hc hd hu hpa hpv hget h0 h1 hk).1,
    h.rng.of_one hc hd hu hpa h.v0 (by decide) hget h0 hk, ?_, q.supply ▸ h.sup⟩
  have : s'.rewards.length = s.rewards.length := by
    cases hk with
    | staked m _ _ hm e => rw [e]; exact congrArg List.length hm.rewards
    | flexible s1 m3 m4 owed y _ hr _ h3 _ h4 e =>
      have e1 : s1.rewards.length = s.rewards.length := by
        rcases hr.run with ⟨_, _, rfl⟩ | ⟨_, _, _, m, hm, rfl⟩
        · rfl
        · show m.rewards.length = _
          rw [hm.rewards]
          show (rewardsAfter s.rewards _ _ _).length = _
          unfold rewardsAfter
          rw [List.length_map]
      rw [e]
      show m4.rewards.length = _
      rw [h4.rewards, h3.rewards]
      exact e1
  rw [this]; exact h.recs

end Small

namespace Checked

theorem claimRewards_eq {c : Cfg} {p : PosEntry} {amt : Int} {s : State}
    (hx : SCALE ≤ p.index) (h0 : 0 ≤ amt) (h1 : amt ≤ 2 ^ 127) (hl : s.rewards.length ≤ 2 ^ 39)
    (hr : ∀ e ∈ s.rewards, e.2.total ≤ 2 ^ 200 ∧ e.2.rewards ≤ 2 ^ 127)
    (ht : ∀ e ∈ s.rewards, p.index < e.1 → roundedDown amt p.index ≤ e.2.total) :
    claimRewards c p amt s = Dollar.claimRewards c p amt s := by
  have hS : SCALE = 1000000000000 := rfl
  have hx0 : 0 < p.index := by omega
  unfold claimRewards Dollar.claimRewards
  refine bind_at rfl fun t s' ht' => ?_
  cases ht'
  split
  · rfl
  have hq0 := down_nonneg h0 hx0
  have hq1 := down_le_self h0 hx
  have hw := (walk_eq (start := p.index) (cur := s.index) hq0 (by omega) s.rewards (acc := 0) hr ht (le_refl _)
    (by omega)).1
  rw [Int.zero_add] at hw
  rw [lift_bind (principalDown_some h0 (by omega) hx0)]
  have e : ∀ f : Int → M Int, (Dollar.principalDown amt p.index >>= f) s = f (roundedDown amt p.index) s := fun f => by
    rw [bind_apply, principalDown_eq hx0.ne']
    rfl
  rw [e, lift_bind hw]
  rfl

theorem updatePosition_same {p : PosEntry} {amt pr : Int} (h0 : 0 ≤ amt) (h1 : 0 ≤ p.amount ∧ p.amount ≤ 2 ^ 127)
    (h2 : 0 ≤ p.principal ∧ p.principal ≤ 2 ^ 127) (h3 : 0 ≤ pr ∧ pr ≤ 2 ^ 127) (s : State) :
    updatePosition p amt pr s = Dollar.updatePosition p amt pr s := by
  unfold updatePosition Dollar.updatePosition
  by_cases h : p.amount ≤ amt
  · rw [if_pos h]
    simp only [modify_apply, if_pos h]
  · rw [if_neg h, lift_bind (sub_small (by omega) (by omega)), lift_bind (sub_small (by omega) (by omega))]
    simp only [modify_apply, if_neg h]

theorem unlockFlexible_eq {c : Cfg} (hc : c.WF) {signer : String} {p : PosEntry} {amt : Int} {s : State}
    (h : Small c s) (hu : c.IsUser p.address) (hpv : p.vault = FLEXIBLE)
    (hget : s.positions.get? p.key = some p.val) (h0 : 0 ≤ amt) (h1 : amt ≤ p.amount) :
    unlockFlexible c signer FLEXIBLE p amt (roundedDown amt p.index) s =
      Dollar.unlockFlexible c signer FLEXIBLE p amt (roundedDown amt p.index) s := by
  have hS : SCALE = 1000000000000 := rfl
  have hm := KV.mem_of_get? hget
  obtain ⟨a1, a2, a3, a4, a5⟩ := h.entry hm
  have a2 : p.amount ≤ 2 ^ 127 := a2
  have a3 : SCALE ≤ p.index := a3
  have hx0 : 0 < p.index := by omega
  obtain ⟨t1, t2⟩ := h.total
  have hq0 := down_nonneg h0 hx0
  have hq1 := down_le_self h0 a3
  have hle : roundedDown amt p.index ≤ roundedDown p.amount p.index := down_mono h0 h1 hx0
  unfold unlockFlexible Dollar.unlockFlexible
  rw [bind_apply]
  show (lift (sub s.totalFlexible (roundedDown amt p.index)) >>= _) s = _
  rw [lift_bind (sub_small (by omega) (by omega))]
  refine bind_at (by
    unfold addTotalFlexible
    simp only [modify_apply, ← sub_eq_add_neg]) fun u s1 e1 => ?_
  have e1 := modify_ok.1 e1
  subst e1
  refine bind_at (claimRewards_eq a3 h0 (by omega) h.recs
    (fun e he => ⟨(h.rng.rew e he).1.trans (by decide), (h.rng.rew e he).2.2⟩)
    (fun e he hlt => hle.trans (h.v0.covers hpv hget he hlt))) fun owed s2 e2 => ?_
  have hR := claimRewards_ok e2
  have hst : s2.vstats = s.vstats ∧ owed ≤ 2 ^ 127 := by
    rcases hR.run with ⟨_, rfl, rfl⟩ | ⟨_, _, _, m, hmv, rfl⟩
    · exact ⟨rfl, by decide⟩
    · refine ⟨hmv.vstats, ?_⟩
      rcases hmv.enough with e | e
      · rw [e]; decide
      · exact e.trans (h.bal _).2
  obtain ⟨d1, d2⟩ := h.dist
  have hn := hR.nonneg
  refine bind_at ?_ fun u2 s3 e3 => ?_
  · unfold incrementDistributed Dollar.incrementDistributed
    rw [bind_apply]
    show (lift (add s2.vstats.flexDistributed owed) >>= _) s2 = _
    rw [hst.1, lift_bind (add_small (by omega) (by omega))]
    simp only [modify_apply, hst.1]
  have e3 := modify_ok.1 e3
  refine bind_at rfl fun y s4 e4 => ?_
  obtain ⟨y1, y2⟩ := (claimModuleYield_wp c _ _).of_ok e4
  have hy0 : 0 ≤ y := by rw [y1]; exact claimable_nonneg _ _
  have hyb : y ≤ 2 ^ 127 := by
    rcases y2.enough with e | e
    · rw [e]; decide
    · refine e.trans ?_
      rw [← e3]
      show s2.balance c.yieldAddr ≤ _
      rw [(hR.same hc.flexible_ne_yield.symm hu.ne_yield.symm).2.1]
      exact (h.bal _).2
  split
  · rw [add_small (by omega) (by omega)]
    rfl
  · rfl

theorem unlockOne_eq {c : Cfg} (hc : c.WF) {signer : String} {a : Addr} {v : Int} {p : PosEntry} {rem : Int}
    {s : State} (h : Small c s) (hu : c.IsUser a) (hpa : p.address = a) (hpv : p.vault = v)
    (hget : s.positions.get? p.key = some p.val) (h0 : 0 ≤ rem) :
    unlockOne c signer a v p rem s = Dollar.unlockOne c signer a v p rem s := by
  have hS : SCALE = 1000000000000 := rfl
  have hm := KV.mem_of_get? hget
  obtain ⟨a1, a2, a3, a4, a5⟩ := h.entry hm
  have a1 : 0 ≤ p.amount := a1
  have a2 : p.amount ≤ 2 ^ 127 := a2
  have a3 : SCALE ≤ p.index := a3
  have hx0 : 0 < p.index := by omega
  obtain ⟨b0, b1, b2⟩ := amountToRemove_bounds (p := p) h0 a1
  have hq0 := down_nonneg b0 hx0
  have hq1 := down_le_self b0 a3
  unfold unlockOne Dollar.unlockOne
  generalize amountToRemove p rem = amt at *
  rw [lift_bind (principalDown_some b0 (by omega) hx0)]
  have e : ∀ f : Int → M (Int × Int), (Dollar.principalDown amt p.index >>= f) s = f (roundedDown amt p.index) s :=
    fun f => by
      rw [bind_apply, principalDown_eq hx0.ne']
      rfl
  rw [e]
  refine bind_at ?_ fun toSend s1 _ => bind_at rfl fun _ s2 _ => bind_at rfl fun _ s3 _ =>
    bind_at (updatePosition_same b0 ⟨a1, a2⟩ ⟨a4, a5⟩ ⟨hq0, by omega⟩ s3) fun _ s4 _ => rfl
  unfold unlockPayout Dollar.unlockPayout
  split
  · next hv =>
    subst hv
    exact unlockFlexible_eq hc h (hpa ▸ hu) hpv hget b0 b1
  · rfl

theorem unlockLoop_eq {c : Cfg} (hc : c.WF) {signer : String} {a : Addr} {v : Int} (hd : c.decode signer = some a)
    (hu : c.IsUser a) (l : List PosEntry) {rem removed : Int} {s : State} (h : Small c s) (hp : Pending s a v l)
    (h0 : 0 ≤ rem) (h1 : 0 ≤ removed) (hb : rem + removed ≤ 2 ^ 128) :
    unlockLoop c signer a v l rem removed s = Dollar.unlockLoop c signer a v l rem removed s := by
  induction l generalizing rem removed s with
  | nil => rfl
  | cons p t ih =>
    unfold unlockLoop Dollar.unlockLoop
    split
    · rfl
    have hpa := hp.addr p List.mem_cons_self
    have hpv := hp.vault p List.mem_cons_self
    have hget := hp.stored p List.mem_cons_self
    refine bind_at (unlockOne_eq hc h hu hpa hpv hget h0) fun r s' e => ?_
    have hsh := (Shape.unlockOne c signer a v p rem).ok e h.shape
    obtain ⟨_, rfl, hk⟩ := unlockOne_ok e
    have hm := KV.mem_of_get? hget
    obtain ⟨a1, a2, a3, a4, a5⟩ := h.entry hm
    have a1 : 0 ≤ p.amount := a1
    have a2 : p.amount ≤ 2 ^ 127 := a2
    have a3 : SCALE ≤ p.index := a3
    have hS : SCALE = 1000000000000 := rfl
    obtain ⟨b0, b1, b2⟩ := amountToRemove_bounds (p := p) h0 a1
    have hq0 := down_nonneg b0 (show 0 < p.index by omega)
    have hq1 := down_le_self b0 a3
    have g := (h.v0.of_one hc hd hu hpa hpv hget b0 b1 hk).2.1
    rw [lift_bind (add_small (by simp only; omega) (by simp only; omega)),
      lift_bind (sub_small (by simp only; omega) (by simp only; omega))]
    exact ih (h.one hc hd hu hpa hpv hget b0 b1 hsh hk) (hp.tail g) (by simp only; omega) (by simp only; omega)
      (by simp only; omega)

end Checked
end Dollar
