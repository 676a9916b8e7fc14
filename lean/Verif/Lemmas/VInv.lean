import Verif.Lemmas.Reward
import Verif.Lemmas.VStats
import Verif.Lemmas.Deliver
import Verif.Lemmas.Shape

/-
The vault invariant: positions are backed by balances, principal totals cover the positions, and
recorded rewards are funded.
-/
set_option linter.unusedSimpArgs false

namespace Dollar
open MM

/-- Key of a stored position: owner, vault, second. -/
abbrev PKey := Addr × Int × Int

/-- Amount of a position, if in vault `v`. -/
def amtIn (v : Int) : PKey → Position → Int := fun k p => if k.2.1 = v then p.amount else 0
/-- Principal of a position, if in vault `v`. -/
def prinIn (v : Int) : PKey → Position → Int := fun k p => if k.2.1 = v then p.principal else 0
/-- Principal of the amount of a flexible position opened below index `i`. -/
def below (i : Int) : PKey → Position → Int := fun k p =>
  if k.2.1 = FLEXIBLE ∧ p.index < i then roundedDown p.amount p.index else 0

/-- What is known of every stored position. -/
structure EntryOk (c : Cfg) (i : Int) (k : PKey) (p : Position) : Prop where
  time : p.time = k.2.2
  vault : k.2.1 = STAKED ∨ k.2.1 = FLEXIBLE
  amount : 0 ≤ p.amount
  idx : 0 < p.index
  le : p.index ≤ i
  user : c.IsUser k.1
  prin : roundedDown p.amount p.index ≤ p.principal

/-- The vault invariant (the part that also holds inside the loop of `Unlock`). -/
structure V0 (c : Cfg) (s : State) : Prop where
  sorted : s.positions.Sorted
  entry : ∀ e ∈ s.positions, EntryOk c s.index e.1 e.2
  staked : s.positions.sum (amtIn STAKED) ≤ s.balance c.stakedAddr
  flex : ∀ e ∈ s.positions, e.1.2.1 = FLEXIBLE → e.2.amount ≤ s.balance (flexAcct c e.1.1 e.1.2.2)
  ftot : s.positions.sum (prinIn FLEXIBLE) ≤ s.totalFlexible
  rew : ∀ e ∈ s.rewards, e.2.index = e.1 ∧ e.1 ≤ s.index ∧ s.positions.sum (below e.1) ≤ e.2.total
  rsum : s.rewards.sum (fun _ r => r.rewards) ≤ s.balance c.flexibleAddr

/-- The accounts the invariant speaks about. -/
def VaultAcct (c : Cfg) (x : Addr) : Prop :=
  x = c.stakedAddr ∨ x = c.flexibleAddr ∨ ∃ a t, x = flexAcct c a t

namespace VaultAcct
variable {c : Cfg} {x : Addr}
theorem mod (h : VaultAcct c x) : ∃ n, x = c.modAddr n := by
  rcases h with h | h | ⟨a, t, h⟩
  · exact ⟨_, h⟩
  · exact ⟨_, h⟩
  · exact ⟨_, h⟩
theorem ne_user (h : VaultAcct c x) {a : Addr} (hu : c.IsUser a) : x ≠ a := by
  rcases h with h | h | ⟨b, t, h⟩ <;> rw [h]
  · exact hu.ne_staked.symm
  · exact hu.ne_flexible.symm
  · exact (hu.ne_flexAcct b t).symm
theorem ne_escrow (h : VaultAcct c x) (hc : c.WF) (ch : String) : x ≠ c.escrowAddr ch := by
  obtain ⟨n, h⟩ := h.mod
  rw [h]; exact (hc.escrow_ne_mod ch n).symm
theorem ne_yield (h : VaultAcct c x) (hc : c.WF) : x ≠ c.yieldAddr := by
  rcases h with h | h | ⟨a, t, h⟩ <;> rw [h]
  · exact hc.staked_ne_yield
  · exact hc.flexible_ne_yield
  · exact flexAcct_ne_yield hc a t
theorem ne_module (h : VaultAcct c x) (hc : c.WF) : x ≠ c.moduleAddr := by
  rcases h with h | h | ⟨a, t, h⟩ <;> rw [h]
  · exact hc.staked_ne_module
  · exact hc.flexible_ne_module
  · exact flexAcct_ne_module hc a t
theorem ne_warp (h : VaultAcct c x) (hc : c.WF) : x ≠ c.warpAddr := by
  rcases h with h | h | ⟨a, t, h⟩ <;> rw [h]
  · exact hc.mod_ne (by decide)
  · exact hc.mod_ne (by decide)
  · exact flexAcct_ne_warp hc a t
end VaultAcct

/-- The invariant survives anything that leaves positions, flexible total and rewards alone and
takes nothing from the vault accounts. -/
theorem V0.mono {c : Cfg} {s s' : State} (h : V0 c s) (hb : ∀ x, VaultAcct c x → s.balance x ≤ s'.balance x)
    (hi : s.index ≤ s'.index) (hp : s'.positions = s.positions)
    (ht : s'.totalFlexible = s.totalFlexible) (hr : s'.rewards = s.rewards) : V0 c s' where
  sorted := hp ▸ h.sorted
  entry e he := by
    rw [hp] at he
    have := h.entry e he
    exact { this with le := this.le.trans hi }
  staked := by rw [hp]; exact h.staked.trans (hb _ (.inl rfl))
  flex e he hv := by rw [hp] at he; exact (h.flex e he hv).trans (hb _ (.inr (.inr ⟨_, _, rfl⟩)))
  ftot := by rw [hp, ht]; exact h.ftot
  rew e he := by
    rw [hr] at he
    have := h.rew e he
    rw [hp]; exact ⟨this.1, this.2.1.trans hi, this.2.2⟩
  rsum := by rw [hr]; exact h.rsum.trans (hb _ (.inr (.inl rfl)))

/-- Nothing in a flexible position opened below any index exceeds the flexible total. -/
theorem V0.below_le {c : Cfg} {s : State} (h : V0 c s) (i : Int) :
    s.positions.sum (below i) ≤ s.positions.sum (prinIn FLEXIBLE) := by
  refine KV.sum_le fun e he => ?_
  have ho := h.entry e he
  have h0 := down_nonneg ho.amount ho.idx
  have := ho.prin
  unfold below prinIn
  by_cases h1 : e.1.2.1 = FLEXIBLE
  · simp only [h1, true_and, if_true]
    split <;> omega
  · simp [h1]

theorem EntryOk.prin_nonneg {c : Cfg} {i : Int} {k : PKey} {p : Position} (h : EntryOk c i k p) :
    0 ≤ p.principal := (down_nonneg h.amount h.idx).trans h.prin

/-! ### Index update -/

theorem at'_none {K V : Type} [DecidableEq K] {m : KV K V} {k : K} {f : K → V → Int}
    (h : ∀ e ∈ m, e.1 ≠ k) : m.at' k f = 0 := by
  unfold KV.at'
  cases hg : m.get? k with
  | none => rfl
  | some v => exact absurd rfl (h _ (KV.mem_of_get? hg))

theorem V0.of_UI {c : Cfg} (hc : c.WF) {s s' : State} {i : Int} (h : V0 c s) (hu : UI c s i s') :
    V0 c s' := by
  have hb : ∀ x, VaultAcct c x → s.balance x ≤ s'.balance x := fun x hx =>
    hu.mono x (hx.ne_yield hc) (hx.ne_module hc)
  have hi : s.index ≤ s'.index := by
    rcases hu.index with e | ⟨e, hl⟩ <;> omega
  rcases hu.rewards with hr | ⟨_, he, hlt, r, hr0, hr, hbal⟩
  · exact h.mono hb hi hu.positions hu.totalFlexible hr
  · have h1 := h.mono (s' := { s' with rewards := s.rewards }) hb hi hu.positions hu.totalFlexible rfl
    refine ⟨h1.sorted, h1.entry, h1.staked, h1.flex, h1.ftot, ?_, ?_⟩
    · intro e hm
      rw [hr] at hm
      rcases KV.mem_set hm with e1 | hm
      · rw [e1]
        refine ⟨rfl, he.ge, ?_⟩
        show s'.positions.sum _ ≤ s.totalFlexible
        rw [hu.positions]
        exact (h.below_le i).trans h.ftot
      · exact h1.rew e hm
    · rw [hr, KV.sum_set, at'_none]
      · have := h.rsum
        show _ - 0 + r ≤ _
        omega
      · intro e hm e1
        have := (h.rew e hm).2.1
        omega

/-! ### Lock -/

theorem V0.of_lock {c : Cfg} (hc : c.WF) {env : Env} {signer : String} {v amt : Int} {a : Addr}
    {s s' : State} (h : V0 c s) (hg : Good c s) (hu : c.IsUser a)
    (hk : LockOk c env signer v amt a s s') : V0 c s' := by
  obtain ⟨m, hm, rfl⟩ := hk.run
  rw [posAddr_eq hc hk.dec] at hm
  have hb : ∀ x, VaultAcct c x → s.balance x ≤ m.balance x := fun x hx =>
    hm.mono hk.nonneg (hx.ne_user hu)
  have h1 := h.mono hb hm.index.ge hm.positions hm.totalFlexible hm.rewards
  have hnone : m.positions.get? (a, v, env.time) = none := by
    rw [hm.positions]
    have := hk.fresh
    unfold KV.has at this
    simpa using this
  have hat : ∀ f, m.positions.at' (a, v, env.time) f = 0 := by
    intro f; unfold KV.at'; rw [hnone]
  have hi0 : 0 < m.index := by rw [hm.index]; exact hg.index
  have hpos : (lockedState m signer a v amt env.time).positions =
    m.positions.set (a, v, env.time) ⟨roundedDown amt m.index, m.index, amt, env.time⟩ := rfl
  have hbacct : m.balance (acctOf c a v env.time) = s.balance (acctOf c a v env.time) + amt := by
    rw [hm.bal, if_neg (hu.ne_acct _ _ _).symm, if_pos rfl]; omega
  refine ⟨KV.sorted_set _ _ h1.sorted, ?_, ?_, ?_, ?_, ?_, h1.rsum⟩
  · intro e he
    rw [hpos] at he
    rcases KV.mem_set he with e1 | he
    · rw [e1]
      exact ⟨rfl, hk.vault, hk.nonneg, hi0, le_refl _, hu, le_refl _⟩
    · exact h1.entry e he
  · rw [hpos, KV.sum_set, hat]
    show _ ≤ m.balance c.stakedAddr
    unfold amtIn
    simp only
    by_cases hv : v = STAKED
    · have e1 : acctOf c a v env.time = c.stakedAddr := by
        unfold acctOf; rw [if_neg (by rw [hv]; decide)]
      rw [e1] at hbacct
      have := h.staked
      rw [hm.positions, if_pos hv, hbacct]
      unfold amtIn at this
      omega
    · have := h1.staked
      rw [if_neg hv]
      unfold amtIn at this
      omega
  · intro e he hv
    rw [hpos] at he
    show _ ≤ m.balance _
    rcases KV.mem_set he with e1 | he
    · rw [e1] at hv ⊢
      simp only at hv ⊢
      have e1 : acctOf c a v env.time = flexAcct c a env.time := by
        unfold acctOf; rw [if_pos hv]
      rw [e1] at hbacct
      have := hg.bal (flexAcct c a env.time)
      omega
    · exact h1.flex e he hv
  · rw [hpos, KV.sum_set, hat]
    have := h1.ftot
    show _ ≤ (if v = FLEXIBLE then m.totalFlexible + _ else m.totalFlexible)
    unfold prinIn at *
    simp only
    split <;> omega
  · intro e he
    have h2 := h1.rew e he
    refine ⟨h2.1, h2.2.1, ?_⟩
    rw [hpos, KV.sum_set, hat]
    have h3 := h2.2.2
    have : ¬ m.index < e.1 := by have := h2.2.1; omega
    unfold below at *
    simp only [this, and_false, if_false]
    omega

/-! ### Unlock -/

theorem sum_posUpd {ps : KV PKey Position} (hs : ps.Sorted) {p : PosEntry}
    (hg : ps.get? p.key = some p.val) (amt pr : Int) (f : PKey → Position → Int) :
    (posUpd ps p amt pr).sum f = ps.sum f - f p.key p.val +
      (if p.amount ≤ amt then 0 else f p.key ⟨p.principal - pr, p.index, p.amount - amt, p.time⟩) := by
  have hat : ps.at' p.key f = f p.key p.val := by unfold KV.at'; rw [hg]
  unfold posUpd
  split
  · rw [KV.sum_erase hs, hat]; omega
  · rw [KV.sum_set, hat]

theorem mem_posUpd {ps : KV PKey Position} {p : PosEntry} {amt pr : Int} {e : PKey × Position}
    (h : e ∈ posUpd ps p amt pr) : (e ∈ ps) ∨
      (¬ p.amount ≤ amt ∧ e = (p.key, ⟨p.principal - pr, p.index, p.amount - amt, p.time⟩)) := by
  unfold posUpd at h
  split at h
  · exact .inl (KV.mem_erase.1 h).1
  · next hn =>
    rcases KV.mem_set h with h | h
    · exact .inr ⟨hn, h⟩
    · exact .inl h

theorem sorted_posUpd {ps : KV PKey Position} (hs : ps.Sorted) (p : PosEntry) (amt pr : Int) :
    (posUpd ps p amt pr).Sorted := by
  unfold posUpd
  split
  · exact KV.sorted_erase _ hs
  · exact KV.sorted_set _ _ hs

theorem get?_posUpd_ne {ps : KV PKey Position} (p : PosEntry) (amt pr : Int) {k : PKey} (hk : k ≠ p.key) :
    (posUpd ps p amt pr).get? k = ps.get? k := by
  unfold posUpd
  split
  · rw [KV.get?_erase, if_neg hk]
  · rw [KV.get?_set_ne _ _ hk]

/-- Removing `amt` (between 0 and the position's amount) lowers what the position counts for by at
least the principal of `amt`. -/
theorem down_sub {amount amt i : Int} (h0 : 0 ≤ amt) (h1 : amt ≤ amount) (hi : 0 < i) :
    roundedDown (amount - amt) i ≤ roundedDown amount i - roundedDown amt i := by
  have := down_add_le (a := amount - amt) (b := amt) (by omega) h0 hi
  rw [Int.sub_add_cancel] at this
  omega

theorem sum_posUpd_below {ps : KV PKey Position} (hs : ps.Sorted) {p : PosEntry}
    (hg : ps.get? p.key = some p.val) {amt : Int} (h0 : 0 ≤ amt) (h1 : amt ≤ p.amount) (hi : 0 < p.index)
    (k pr : Int) :
    (posUpd ps p amt pr).sum (below k) ≤ ps.sum (below k) -
      (if p.vault = FLEXIBLE ∧ p.index < k then roundedDown amt p.index else 0) := by
  rw [sum_posUpd hs hg]
  unfold below
  show _ - (if p.vault = FLEXIBLE ∧ p.index < k then roundedDown p.amount p.index else 0) +
    (if p.amount ≤ amt then 0 else if p.vault = FLEXIBLE ∧ p.index < k then roundedDown (p.amount - amt) p.index else 0) ≤ _
  by_cases hc : p.vault = FLEXIBLE ∧ p.index < k
  · simp only [hc, and_self, if_true]
    split
    · have : amt = p.amount := by omega
      rw [this]; omega
    · have := down_sub h0 h1 hi
      omega
  · simp only [hc, if_false]
    split <;> omega

/-- The parts of the invariant that speak of positions only, after removing `amt`. -/
theorem V0.entries_posUpd {c : Cfg} {s : State} (h : V0 c s) {p : PosEntry}
    (hg : s.positions.get? p.key = some p.val) {amt : Int} (h0 : 0 ≤ amt) (h1 : amt ≤ p.amount) :
    ∀ e ∈ posUpd s.positions p amt (roundedDown amt p.index), EntryOk c s.index e.1 e.2 := by
  intro e he
  have ho := h.entry _ (KV.mem_of_get? hg)
  rcases mem_posUpd he with he | ⟨hn, rfl⟩
  · exact h.entry e he
  · refine ⟨ho.time, ho.vault, ?_, ho.idx, ho.le, ho.user, ?_⟩
    · show 0 ≤ p.amount - amt; omega
    · have := down_sub h0 h1 ho.idx
      have hp : roundedDown p.amount p.index ≤ p.principal := ho.prin
      show roundedDown (p.amount - amt) p.index ≤ p.principal - roundedDown amt p.index
      have e1 : p.val.index = p.index := rfl
      rw [e1] at this
      omega

theorem V0.prin_posUpd {c : Cfg} {s : State} (h : V0 c s) {p : PosEntry}
    (hg : s.positions.get? p.key = some p.val) {amt : Int} (h0 : 0 ≤ amt) (h1 : amt ≤ p.amount) (v : Int) :
    (posUpd s.positions p amt (roundedDown amt p.index)).sum (prinIn v) ≤
      s.positions.sum (prinIn v) - (if p.vault = v then roundedDown amt p.index else 0) := by
  have ho := h.entry _ (KV.mem_of_get? hg)
  rw [sum_posUpd h.sorted hg]
  unfold prinIn
  show _ - (if p.vault = v then p.principal else 0) + (if p.amount ≤ amt then 0 else
    (if p.vault = v then p.principal - roundedDown amt p.index else 0)) ≤ _
  have hp : roundedDown p.amount p.index ≤ p.principal := ho.prin
  by_cases hv : p.vault = v
  · simp only [hv, if_true]
    split
    · have : amt = p.amount := by omega
      rw [this]; omega
    · omega
  · simp only [hv, if_false]
    split <;> omega

theorem V0.amt_posUpd {c : Cfg} {s : State} (h : V0 c s) {p : PosEntry}
    (hg : s.positions.get? p.key = some p.val) {amt : Int} (h1 : amt ≤ p.amount) (pr v : Int) :
    (posUpd s.positions p amt pr).sum (amtIn v) =
      s.positions.sum (amtIn v) - (if p.vault = v then amt else 0) := by
  rw [sum_posUpd h.sorted hg]
  unfold amtIn
  show _ - (if p.vault = v then p.amount else 0) + (if p.amount ≤ amt then 0 else
    (if p.vault = v then p.amount - amt else 0)) = _
  split <;> split <;> omega

theorem rewardsAfter_sum (rs : KV Int Reward) (start cur p : Int) :
    (rewardsAfter rs start cur p).sum (fun _ r => r.rewards) =
      rs.sum (fun _ r => r.rewards) - rewardsOwed rs start cur p := by
  unfold rewardsAfter rewardsOwed
  induction rs with
  | nil => rfl
  | cons e t ih =>
    rw [List.map_cons, KV.sum_cons, KV.sum_cons, KV.sum_cons, ih]
    simp only
    split
    · rw [rewardAfter_rewards]; omega
    · omega

theorem mem_rewardsAfter {rs : KV Int Reward} {start cur p : Int} {e : Int × Reward}
    (h : e ∈ rewardsAfter rs start cur p) : ∃ r, (e.1, r) ∈ rs ∧
      e.2 = if start < e.1 then rewardAfter cur p r else r := by
  unfold rewardsAfter at h
  obtain ⟨x, hx, rfl⟩ := List.mem_map.1 h
  exact ⟨x.2, hx, rfl⟩

/-- One step of the unlock loop keeps the invariant. -/
theorem V0.of_one {c : Cfg} (hc : c.WF) {signer : String} {a : Addr} {v : Int} {p : PosEntry}
    {amt : Int} {s s' : State} (h : V0 c s) (hd : c.decode signer = some a) (hu : c.IsUser a)
    (hpa : p.address = a) (hpv : p.vault = v)
    (hget : s.positions.get? p.key = some p.val) (h0 : 0 ≤ amt) (h1 : amt ≤ p.amount)
    (hk : OneOk c signer a v p amt s s') :
    V0 c s' ∧ s'.positions = posUpd s.positions p amt (roundedDown amt p.index) ∧
      s'.totalFlexible = s.totalFlexible - (if v = FLEXIBLE then roundedDown amt p.index else 0) := by
  have ho := h.entry _ (KV.mem_of_get? hget)
  have hv12 : v = STAKED ∨ v = FLEXIBLE := hpv ▸ ho.vault
  have hp0 : 0 ≤ roundedDown amt p.index := down_nonneg h0 ho.idx
  have hfs : c.flexibleAddr ≠ c.stakedAddr := hc.mod_ne (by decide)
  cases hk with
  | staked m hv ha hm e =>
    rw [posAddr_eq hc hd] at hm
    have hvs : v = STAKED := hv12.resolve_right hv
    have e1 : acctOf c a p.vault p.time = c.stakedAddr := by
      unfold acctOf; rw [if_neg (by rw [hpv]; exact hv)]
    rw [e1] at hm
    have hpos : s'.positions = posUpd s.positions p amt (roundedDown amt p.index) := by
      rw [e, ← hm.positions]
    have hbal : ∀ x, s'.balance x = m.balance x := by intro x; rw [e]; rfl
    have hidx : s'.index = s.index := by rw [e]; exact hm.index
    refine ⟨⟨?_, ?_, ?_, ?_, ?_, ?_, ?_⟩, hpos, ?_⟩
    · rw [hpos]; exact sorted_posUpd h.sorted _ _ _
    · rw [hpos, hidx]; exact h.entries_posUpd hget h0 h1
    · rw [hpos, h.amt_posUpd hget h1, if_pos (hpv.trans hvs), hbal, hm.bal, if_pos rfl,
        if_neg hu.ne_staked.symm]
      have := h.staked
      omega
    · intro e he hvf
      rw [hpos] at he
      have hb : s'.balance (flexAcct c e.1.1 e.1.2.2) = s.balance (flexAcct c e.1.1 e.1.2.2) := by
        rw [hbal, hm.same (flexAcct_ne_staked hc _ _)
          ((VaultAcct.ne_user (.inr (.inr ⟨_, _, rfl⟩)) hu))]
      rw [hb]
      rcases mem_posUpd he with he | ⟨_, rfl⟩
      · exact h.flex e he hvf
      · exact absurd (hpv.symm.trans hvf) hv
    · have ht : s'.totalFlexible = s.totalFlexible := by rw [e]; exact hm.totalFlexible
      rw [hpos, ht]
      have h2 := h.prin_posUpd hget h0 h1 FLEXIBLE
      rw [if_neg (by rw [hpv]; exact hv)] at h2
      have := h.ftot
      omega
    · intro e he
      have hr : s'.rewards = s.rewards := by rw [‹s' = _›]; exact hm.rewards
      rw [hr] at he
      have h2 := h.rew e he
      rw [hpos, hidx]
      refine ⟨h2.1, h2.2.1, ?_⟩
      have h3 := sum_posUpd_below h.sorted hget h0 h1 ho.idx e.1 (roundedDown amt p.index)
      rw [if_neg (by rw [hpv]; exact fun hh => hv hh.1)] at h3
      have := h2.2.2
      omega
    · have hr : s'.rewards = s.rewards := by rw [e]; exact hm.rewards
      rw [hr, hbal, hm.same hfs hu.ne_flexible.symm]
      exact h.rsum
    · rw [if_neg hv, e]; show m.totalFlexible = _; rw [hm.totalFlexible]; omega
  | flexible s1 m3 m4 owed y hv hr hy h3 hn h4 e =>
    rw [posAddr_eq hc hd] at h3 h4
    have eacct : ∀ t, acctOf c a v t = flexAcct c a t := by
      intro t; unfold acctOf; rw [if_pos hv]
    rw [eacct] at h3
    rw [hpv, eacct] at h4
    have hy0 : 0 ≤ y := by rw [hy]; exact claimable_nonneg _ _
    have ptime : p.time = p.key.2.2 := rfl
    -- effect of the reward claim
    have hR : s1.positions = s.positions ∧ s1.index = s.index ∧
        s1.totalFlexible = s.totalFlexible - roundedDown amt p.index ∧
        (∀ x, VaultAcct c x → x ≠ c.flexibleAddr → s1.balance x = s.balance x) ∧
        s1.rewards.sum (fun _ r => r.rewards) ≤ s1.balance c.flexibleAddr ∧
        (∀ e ∈ s1.rewards, ∃ r, (e.1, r) ∈ s.rewards ∧ e.2.index = r.index ∧
          r.total - (if p.index < e.1 then roundedDown amt p.index else 0) ≤ e.2.total) := by
      clear hy
      rcases hr.run with ⟨_, _, rfl⟩ | ⟨_, _, ho', m, hm, rfl⟩
      · refine ⟨rfl, rfl, rfl, fun _ _ _ => rfl, h.rsum, ?_⟩
        intro e he
        refine ⟨e.2, he, rfl, ?_⟩
        split <;> omega
      · refine ⟨hm.positions, hm.index, hm.totalFlexible, ?_, ?_, ?_⟩
        · intro x hx hxf
          show m.balance x = _
          exact hm.same hxf (hpa ▸ hx.ne_user hu)
        · show m.rewards.sum _ ≤ m.balance _
          rw [hm.rewards, hm.bal, if_pos rfl, if_neg (hpa ▸ hu.ne_flexible.symm), rewardsAfter_sum,
            ho']
          have := h.rsum
          show s.rewards.sum (fun _ r => r.rewards) - rewardsOwed s.rewards p.index s.index (roundedDown amt p.index) ≤
            s.balance c.flexibleAddr - rewardsOwed s.rewards p.index s.index (roundedDown amt p.index) + 0
          omega
        · intro e he
          have he : e ∈ m.rewards := he
          rw [hm.rewards] at he
          obtain ⟨r, hr1, hr2⟩ := mem_rewardsAfter he
          refine ⟨r, hr1, ?_, ?_⟩
          · rw [hr2]; split
            · exact rewardAfter_index _ _ _
            · rfl
          · rw [hr2]; split
            · exact rewardAfter_total hp0 r
            · omega
    obtain ⟨r1, r2, r3, r4, r5, r6⟩ := hR
    have hpos : s'.positions = posUpd s.positions p amt (roundedDown amt p.index) := by
      rw [e]; show posUpd m4.positions _ _ _ = _
      rw [h4.positions, h3.positions]; show posUpd s1.positions _ _ _ = _; rw [r1]
    have hidx : s'.index = s.index := by
      rw [e]; show m4.index = _; rw [h4.index, h3.index]; exact r2
    have hrew : s'.rewards = s1.rewards := by
      rw [e]; show m4.rewards = _; rw [h4.rewards, h3.rewards]
    have htot : s'.totalFlexible = s.totalFlexible - roundedDown amt p.index := by
      rw [e]; show m4.totalFlexible = _; rw [h4.totalFlexible, h3.totalFlexible]; exact r3
    have hbal0 : ∀ x, x ≠ c.yieldAddr → x ≠ a →
        s'.balance x = s1.balance x - (if x = flexAcct c a p.time then amt else 0) := by
      intro x hxy hxa
      rw [e]; show m4.balance x = _
      rw [h4.bal, h3.bal, if_neg hxy, if_neg hxa]
      show s1.balance x - 0 + _ - _ + 0 = _
      split <;> omega
    have hVA : ∀ b t, VaultAcct c (flexAcct c b t) := fun b t => .inr (.inr ⟨_, _, rfl⟩)
    refine ⟨⟨?_, ?_, ?_, ?_, ?_, ?_, ?_⟩, hpos, ?_⟩
    · rw [hpos]; exact sorted_posUpd h.sorted _ _ _
    · rw [hpos, hidx]; exact h.entries_posUpd hget h0 h1
    · rw [hpos, h.amt_posUpd hget h1, if_neg (by rw [hpv, hv]; decide), hbal0 _ hc.staked_ne_yield
        hu.ne_staked.symm, if_neg (flexAcct_ne_staked hc _ _).symm,
        r4 _ (.inl rfl) hfs.symm]
      have := h.staked
      omega
    · intro e he hvf
      rw [hpos] at he
      rw [hbal0 _ (flexAcct_ne_yield hc _ _) ((hVA _ _).ne_user hu),
        r4 _ (hVA _ _) (flexAcct_ne_flexible hc _ _)]
      have hp1 := h.flex _ (KV.mem_of_get? hget) (show p.vault = FLEXIBLE from hpv.trans hv)
      by_cases hacc : flexAcct c e.1.1 e.1.2.2 = flexAcct c a p.time
      · obtain ⟨g1, g2⟩ := flexAcct_inj hc hacc
        rw [if_pos hacc]
        have hkey : e.1 = p.key := by
          unfold PosEntry.key
          refine Prod.ext (g1.trans hpa.symm) (Prod.ext (hvf.trans ((hpv.trans hv).symm)) g2)
        have hp2 : p.amount ≤ s.balance (flexAcct c e.1.1 e.1.2.2) := by
          rw [hacc, ← hpa]; exact hp1
        unfold posUpd at he
        split at he
        · exact absurd hkey (KV.mem_erase.1 he).2
        · have hge := KV.get?_of_mem (KV.sorted_set _ _ h.sorted) he
          rw [hkey, KV.get?_set_self] at hge
          have hge := congrArg Position.amount (Option.some.inj hge)
          have hge : p.amount - amt = e.2.amount := hge
          omega
      · rw [if_neg hacc]
        rcases mem_posUpd he with he | ⟨_, rfl⟩
        · have := h.flex e he hvf; omega
        · exfalso; exact hacc (by rw [← hpa]; rfl)
    · rw [hpos, htot]
      have h2 := h.prin_posUpd hget h0 h1 FLEXIBLE
      rw [if_pos (hpv.trans hv)] at h2
      have := h.ftot
      omega
    · intro e he
      rw [hrew] at he
      obtain ⟨r, hr1, hr2, hr3⟩ := r6 e he
      have h2 := h.rew _ hr1
      rw [hpos, hidx]
      refine ⟨hr2.trans h2.1, h2.2.1, ?_⟩
      have h3 := sum_posUpd_below h.sorted hget h0 h1 ho.idx e.1 (roundedDown amt p.index)
      have h4 := h2.2.2
      simp only at h4
      simp only [hpv.trans hv, true_and] at h3
      omega
    · rw [hrew, hbal0 _ hc.flexible_ne_yield hu.ne_flexible.symm,
        if_neg (flexAcct_ne_flexible hc _ _).symm]
      omega
    · rw [if_pos hv]; exact htot

end Dollar
