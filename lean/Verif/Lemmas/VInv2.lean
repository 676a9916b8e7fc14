import Verif.Lemmas.VInv
import Verif.Lemmas.Local
import Verif.Spec.Vaults

/-
The unlock loop and the vault invariant over histories.
-/
set_option linter.unusedSimpArgs false

namespace Dollar
open MM Spec

/-! ### The loop of `Unlock` -/

theorem amountToRemove_bounds {p : PosEntry} {rem : Int} (h0 : 0 ≤ rem) (ha : 0 ≤ p.amount) :
    0 ≤ amountToRemove p rem ∧ amountToRemove p rem ≤ p.amount ∧ amountToRemove p rem ≤ rem := by
  unfold amountToRemove
  split <;> omega

/-- The positions still to be visited are stored, under different keys. -/
structure Pending (s : State) (a : Addr) (v : Int) (l : List PosEntry) : Prop where
  addr : ∀ p ∈ l, p.address = a
  vault : ∀ p ∈ l, p.vault = v
  stored : ∀ p ∈ l, s.positions.get? p.key = some p.val
  nodup : l.Pairwise (fun p q => p.key ≠ q.key)

theorem Pending.tail {s s' : State} {a : Addr} {v amt pr : Int} {p : PosEntry} {l : List PosEntry}
    (h : Pending s a v (p :: l)) (e : s'.positions = posUpd s.positions p amt pr) : Pending s' a v l where
  addr q hq := h.addr q (List.mem_cons_of_mem _ hq)
  vault q hq := h.vault q (List.mem_cons_of_mem _ hq)
  stored q hq := by
    rw [e, get?_posUpd_ne]
    · exact h.stored q (List.mem_cons_of_mem _ hq)
    · exact ((List.pairwise_cons.1 h.nodup).1 q hq).symm
  nodup := (List.pairwise_cons.1 h.nodup).2

theorem pending_positionsOf {c : Cfg} {s : State} (h : V0 c s) (a : Addr) (v : Int) :
    Pending s a v (positionsOf s a v) where
  addr p hp := (positionsOf_mem hp).1
  vault p hp := (positionsOf_mem hp).2
  stored p hp := by
    unfold positionsOf at hp
    obtain ⟨e, he, hx⟩ := List.mem_filterMap.1 hp
    split at hx
    · cases hx
      have ht := (h.entry e he).time
      have := KV.get?_of_mem (k := e.1) (v := e.2) h.sorted he
      unfold PosEntry.key PosEntry.val
      simp only
      rw [ht]
      exact this.trans (by rw [← ht])
    · cases hx
  nodup := by
    unfold positionsOf
    refine List.Pairwise.filterMap (R := fun e e' : PKey × Position => e ∈ s.positions ∧ e' ∈ s.positions ∧ e.1 ≠ e'.1) _ ?_ ?_
    · rintro e e' ⟨h1, h2, hne⟩ x hx y hy
      split at hx
      · split at hy
        · cases hx; cases hy
          unfold PosEntry.key
          simp only
          rw [(h.entry e h1).time, (h.entry e' h2).time]
          exact hne
        · cases hy
      · cases hx
    · have := KV.nodup_keys h.sorted
      have h2 : s.positions.Pairwise (fun e e' => e.1 ≠ e'.1) := by
        rw [List.Nodup, List.pairwise_map] at this
        exact this
      exact List.Pairwise.imp_of_mem (fun h1 h2 h3 => ⟨h1, h2, h3⟩) h2

/-- Vault statistics that the loop does not touch. -/
def statCore (st : VStats) : VStats := { st with flexDistributed := 0 }

theorem OneOk.stats {c : Cfg} {signer : String} {a : Addr} {v : Int} {p : PosEntry}
    {amt : Int} {s s' : State} (hk : OneOk c signer a v p amt s s') :
    statCore s'.vstats = statCore s.vstats := by
  cases hk with
  | staked m hv ha hm e => rw [e]; show statCore m.vstats = _; rw [hm.vstats]
  | flexible s1 m3 m4 owed y hv hr hy h3 hn h4 e =>
    rw [e]; show statCore m4.vstats = _; rw [h4.vstats, h3.vstats]
    show statCore s1.vstats = _
    rcases hr.run with ⟨_, _, rfl⟩ | ⟨_, _, _, m, hm, rfl⟩
    · rfl
    · show statCore m.vstats = _; rw [hm.vstats]

/-- What the loop does to positions, totals and statistics. -/
structure LoopDid (c : Cfg) (a : Addr) (v rem removed : Int) (s : State) (rem' removed' : Int) (s' : State) :
    Prop where
  inv : V0 c s'
  left : 0 ≤ rem' ∧ rem' ≤ rem
  stats : statCore s'.vstats = statCore s.vstats
  total : s'.totalFlexible = s.totalFlexible - (if v = FLEXIBLE then removed' - removed else 0)
  prin : ∀ w, s'.positions.sum (prinIn w) ≤ s.positions.sum (prinIn w) - (if v = w then removed' - removed else 0)
  amt : ∀ w, s'.positions.sum (amtIn w) = s.positions.sum (amtIn w) - (if v = w then rem - rem' else 0)
  mine : s'.positions.sum (fun k p => if k.1 = a ∧ k.2.1 = v then p.amount else 0) =
    s.positions.sum (fun k p => if k.1 = a ∧ k.2.1 = v then p.amount else 0) - (rem - rem')
  others : ∀ k : PKey, ¬ (k.1 = a ∧ k.2.1 = v) → s'.positions.get? k = s.positions.get? k
  grow : removed ≤ removed'

theorem LoopOk.did {c : Cfg} (hc : c.WF) {signer : String} {a : Addr} {v : Int} {l : List PosEntry}
    {rem removed rem' removed' : Int} {s s' : State} (hd : c.decode signer = some a)
    (hu : c.IsUser a) (hi : V0 c s) (hp : Pending s a v l) (h0 : 0 ≤ rem)
    (h : LoopOk c signer a v l rem removed s rem' removed' s') :
    LoopDid c a v rem removed s rem' removed' s' := by
  induction h with
  | nil rem removed s =>
    exact ⟨hi, ⟨h0, le_refl _⟩, rfl, by simp, by simp, by simp, by simp, fun _ _ => rfl, le_refl _⟩
  | stop p t removed s =>
    exact ⟨hi, ⟨h0, le_refl _⟩, rfl, by simp, by simp, by simp, by simp, fun _ _ => rfl, le_refl _⟩
  | step p t rem removed s m rem' removed' s' hne _ h1 _ ih =>
    have hpa := hp.addr p List.mem_cons_self
    have hpv := hp.vault p List.mem_cons_self
    have hget := hp.stored p List.mem_cons_self
    have ho := hi.entry _ (KV.mem_of_get? hget)
    obtain ⟨b0, b1, b2⟩ := amountToRemove_bounds (p := p) h0 ho.amount
    have hstats := h1.stats
    obtain ⟨g1, g2, g3⟩ := hi.of_one hc hd hu hpa hpv hget b0 b1 h1
    have ih := ih g1 (hp.tail g2) (by omega)
    have hp0 : 0 ≤ roundedDown (amountToRemove p rem) p.index := down_nonneg b0 ho.idx
    refine ⟨ih.inv, ⟨ih.left.1, by have := ih.left.2; omega⟩, ih.stats.trans hstats, ?_, ?_, ?_, ?_, ?_, ?_⟩
    · rw [ih.total, g3]
      split <;> omega
    · intro w
      have h2 := ih.prin w
      have h3 := hi.prin_posUpd hget b0 b1 w
      rw [g2] at h2
      rw [hpv] at h3
      split at h3 <;> split at h2 <;> simp_all <;> omega
    · intro w
      have h2 := ih.amt w
      rw [h2, g2, hi.amt_posUpd hget b1, hpv]
      split <;> omega
    · rw [ih.mine, g2, sum_posUpd hi.sorted hget]
      have hk : p.key.1 = a ∧ p.key.2.1 = v := ⟨hpa, hpv⟩
      simp only [hk, and_self, if_true]
      show _ - p.amount + (if p.amount ≤ amountToRemove p rem then 0 else p.amount - amountToRemove p rem) - _ = _
      split <;> omega
    · intro k hk
      rw [ih.others k hk, g2, get?_posUpd_ne]
      rintro rfl
      exact hk ⟨hpa, hpv⟩
    · have := ih.grow; omega

/-! ### Users -/

theorem length_insert {l l' : List Addr} (h : l.Nodup) (h' : l'.Nodup) {a : Addr}
    (hm : ∀ x, x ∈ l' ↔ x = a ∨ x ∈ l) : l'.length = l.length + (if a ∈ l then 0 else 1) := by
  split
  · next ha =>
    have : l'.Perm l := (List.perm_ext_iff_of_nodup h' h).2 fun x => by
      rw [hm]; exact ⟨fun hx => hx.elim (fun e => e ▸ ha) id, .inr⟩
    rw [this.length_eq]; rfl
  · next ha =>
    have : l'.Perm (a :: l) := (List.perm_ext_iff_of_nodup h' (List.nodup_cons.2 ⟨ha, h⟩)).2 fun x => by
      rw [hm, List.mem_cons]
    rw [this.length_eq]; rfl

theorem length_same {l l' : List Addr} (h : l.Nodup) (h' : l'.Nodup) (hm : ∀ x, x ∈ l' ↔ x ∈ l) :
    l'.length = l.length := ((List.perm_ext_iff_of_nodup h' h).2 hm).length_eq

theorem usersIn_nodup (s : State) (v : Int) : (usersIn s v).Nodup := List.nodup_dedup _

theorem mem_usersIn {s : State} {v : Int} {a : Addr} :
    a ∈ usersIn s v ↔ ∃ e ∈ s.positions, e.1.1 = a ∧ e.1.2.1 = v := by
  unfold usersIn
  rw [List.mem_dedup, List.mem_filterMap]
  constructor
  · rintro ⟨e, he, hx⟩
    split at hx
    · next hv => cases hx; exact ⟨e, he, rfl, hv⟩
    · cases hx
  · rintro ⟨e, he, h1, h2⟩
    exact ⟨e, he, by rw [if_pos h2, h1]⟩

theorem posCount_zero {ps : KV PKey Position} {a : Addr} {v : Int} :
    posCount ps a v = 0 ↔ ¬ ∃ e ∈ ps, e.1.1 = a ∧ e.1.2.1 = v := by
  unfold posCount
  rw [List.length_eq_zero_iff, List.filter_eq_nil_iff]
  simp only [decide_eq_true_eq]
  constructor
  · rintro h ⟨e, he, hx⟩; exact h e he hx
  · intro h e he hx; exact h ⟨e, he, hx⟩

theorem posCount_sum (ps : KV PKey Position) (a : Addr) (v : Int) :
    (posCount ps a v : Int) = ps.sum (fun k _ => if k.1 = a ∧ k.2.1 = v then 1 else 0) := by
  unfold posCount
  induction ps with
  | nil => rfl
  | cons e t ih =>
    rw [List.filter_cons, KV.sum_cons, ← ih]
    by_cases h : e.1.1 = a ∧ e.1.2.1 = v
    · simp only [h, and_self, decide_true, if_true, List.length_cons]; push_cast; omega
    · simp only [h, decide_false, if_false]; simp

theorem usersIn_congr {s s' : State} (h : s'.positions = s.positions) (v : Int) : usersIn s' v = usersIn s v := by
  unfold usersIn; rw [h]

theorem u64inc_mod (n : Nat) : u64inc (n % 2 ^ 64) = (n + 1) % 2 ^ 64 := by unfold u64inc; omega
theorem u64dec_mod (n : Nat) : u64dec ((n + 1) % 2 ^ 64) = n % 2 ^ 64 := by
  unfold u64dec; split <;> omega

/-- The vault invariant between transactions. -/
structure VInv (c : Cfg) (s : State) : Prop extends V0 c s where
  flexP : s.vstats.flexPrincipal = s.totalFlexible
  stakedP : s.positions.sum (prinIn STAKED) ≤ s.vstats.stakedPrincipal
  stakedU : s.vstats.stakedUsers = (usersIn s STAKED).length % 2 ^ 64
  flexU : s.vstats.flexUsers = (usersIn s FLEXIBLE).length % 2 ^ 64

theorem VInv.of_core {c : Cfg} {s s' : State} (h : VInv c s) (h0 : V0 c s')
    (hs : s'.vstats = s.vstats) (hp : s'.positions = s.positions)
    (ht : s'.totalFlexible = s.totalFlexible) : VInv c s' where
  toV0 := h0
  flexP := by rw [hs, ht]; exact h.flexP
  stakedP := by rw [hp, hs]; exact h.stakedP
  stakedU := by rw [hs, usersIn_congr hp]; exact h.stakedU
  flexU := by rw [hs, usersIn_congr hp]; exact h.flexU

theorem vUsers_count {v w : Int} (f : Nat → Nat) (st : VStats) (hvw : v = STAKED ∨ v = FLEXIBLE)
    (hw : w = STAKED ∨ w = FLEXIBLE) (p : Prop) [Decidable p] (d : Int) :
    let g := fun st : VStats => if w = STAKED then st.stakedUsers else st.flexUsers
    g (vAddP v d (if p then vUsers v f st else st)) = if p ∧ v = w then f (g st) else g st := by
  simp only [vAddP_stakedUsers, vAddP_flexUsers]
  by_cases hp : p
  · simp only [hp, if_true, true_and, vUsers_stakedUsers, vUsers_flexUsers]
    rcases hvw with rfl | rfl <;> rcases hw with rfl | rfl <;> simp [STAKED, FLEXIBLE]
  · simp [hp]

/-- The user statistic of a vault. -/
def usersStat (st : VStats) (w : Int) : Nat := if w = STAKED then st.stakedUsers else st.flexUsers

theorem VInv.users {c : Cfg} {s : State} (h : VInv c s) {w : Int} (hw : w = STAKED ∨ w = FLEXIBLE) :
    usersStat s.vstats w = (usersIn s w).length % 2 ^ 64 := by
  unfold usersStat
  rcases hw with rfl | rfl
  · exact h.stakedU
  · exact h.flexU

theorem VInv.of_lock {c : Cfg} (hc : c.WF) {env : Env} {signer : String} {v amt : Int} {a : Addr}
    {s s' : State} (h : VInv c s) (hg : Good c s) (hu : c.IsUser a)
    (hk : LockOk c env signer v amt a s s') : VInv c s' := by
  have h0 := h.toV0.of_lock hc hg hu hk
  obtain ⟨m, hm, rfl⟩ := hk.run
  have hnone : m.positions.get? (a, v, env.time) = none := by
    rw [hm.positions]
    have := hk.fresh
    unfold KV.has at this
    simpa using this
  have hat : ∀ f, m.positions.at' (a, v, env.time) f = 0 := by
    intro f; unfold KV.at'; rw [hnone]
  have hsort : m.positions.Sorted := by rw [hm.positions]; exact h.sorted
  have hstats : (lockedState m signer a v amt env.time).vstats = vAddP v (roundedDown amt m.index)
      (if posCount (m.positions.set (a, v, env.time) ⟨roundedDown amt m.index, m.index, amt, env.time⟩) a v = 1
        then vUsers v u64inc m.vstats else m.vstats) := rfl
  have hpos : (lockedState m signer a v amt env.time).positions =
    m.positions.set (a, v, env.time) ⟨roundedDown amt m.index, m.index, amt, env.time⟩ := rfl
  have hvp := vPrincipals (posCount (m.positions.set (a, v, env.time)
      ⟨roundedDown amt m.index, m.index, amt, env.time⟩) a v = 1) v (roundedDown amt m.index) u64inc m.vstats
  have hcnt : posCount (m.positions.set (a, v, env.time)
      ⟨roundedDown amt m.index, m.index, amt, env.time⟩) a v = 1 ↔ a ∉ usersIn s v := by
    have e1 := posCount_sum (m.positions.set (a, v, env.time)
      ⟨roundedDown amt m.index, m.index, amt, env.time⟩) a v
    rw [KV.sum_set, hat, ← posCount_sum] at e1
    simp only [and_self, if_true] at e1
    rw [mem_usersIn, ← posCount_zero, ← hm.positions]
    omega
  have husers : ∀ w, w = STAKED ∨ w = FLEXIBLE →
      usersStat (lockedState m signer a v amt env.time).vstats w =
        (usersIn (lockedState m signer a v amt env.time) w).length % 2 ^ 64 := by
    intro w hw
    have e1 := vUsers_count (v := v) (w := w) u64inc m.vstats hk.vault hw (posCount (m.positions.set (a, v, env.time)
      ⟨roundedDown amt m.index, m.index, amt, env.time⟩) a v = 1) (roundedDown amt m.index)
    simp only at e1
    rw [hstats]
    unfold usersStat
    rw [e1]
    have e2 := h.users hw
    unfold usersStat at e2
    rw [hm.vstats, e2]
    have hmem : ∀ x, x ∈ usersIn (lockedState m signer a v amt env.time) w ↔ (x = a ∧ v = w) ∨ x ∈ usersIn s w := by
      intro x
      rw [mem_usersIn, mem_usersIn, hpos]
      constructor
      · rintro ⟨e, he, h1, h2⟩
        rcases KV.mem_set he with rfl | he
        · exact .inl ⟨h1.symm, h2⟩
        · exact .inr ⟨e, hm.positions ▸ he, h1, h2⟩
      · rintro (⟨rfl, rfl⟩ | ⟨e, he, h1, h2⟩)
        · exact ⟨_, KV.mem_of_get? (KV.get?_set_self _ _ _), rfl, rfl⟩
        · refine ⟨e, KV.mem_of_get? (k := e.1) (v := e.2) ?_, h1, h2⟩
          rw [← hm.positions] at he
          have hge := KV.get?_of_mem (k := e.1) (v := e.2) hsort he
          rw [KV.get?_set_ne]
          · exact hge
          · intro e3; rw [e3, hnone] at hge; cases hge
    by_cases hvw : v = w
    · subst hvw
      simp only [and_true] at hmem ⊢
      rw [length_insert (usersIn_nodup s v) (usersIn_nodup _ v) hmem]
      by_cases hin : a ∈ usersIn s v
      · rw [if_neg (fun hh => hcnt.1 hh hin), if_pos hin]; rfl
      · rw [if_pos (hcnt.2 hin), if_neg hin]
        exact u64inc_mod _
    · simp only [hvw, and_false, if_false, false_or] at hmem ⊢
      rw [length_same (usersIn_nodup s w) (usersIn_nodup _ w) hmem]
  refine ⟨h0, ?_, ?_, ?_, ?_⟩
  · rw [hstats, hvp.1, hm.vstats, h.flexP]
    show _ = (if v = FLEXIBLE then m.totalFlexible + _ else m.totalFlexible)
    rw [hm.totalFlexible]; split <;> omega
  · rw [hstats, hvp.2.1, hm.vstats, hpos, KV.sum_set, hat, hm.positions]
    have := h.stakedP
    unfold prinIn at *
    simp only
    split <;> omega
  · exact husers STAKED (.inl rfl)
  · exact husers FLEXIBLE (.inr rfl)

theorem lockedTotal_eq (s : State) (a : Addr) (v : Int) : lockedTotal s a v =
    s.positions.sum (fun k p => if k.1 = a ∧ k.2.1 = v then p.amount else 0) := by
  unfold lockedTotal positionsOf
  generalize s.positions = l
  induction l with
  | nil => rfl
  | cons e t ih =>
    rw [List.filterMap_cons, KV.sum_cons, ← ih]
    by_cases h : e.1.1 = a ∧ e.1.2.1 = v
    · simp only [h, and_self, if_true, List.map_cons, List.sum_cons]
    · simp only [h, if_false]; omega

theorem VInv.of_unlock {c : Cfg} (hc : c.WF) {signer : String} {v amt : Int} {a : Addr}
    {s s' : State} (h : VInv c s) (hu : c.IsUser a) (hk : UnlockOk c signer v amt a s s') : VInv c s' := by
  obtain ⟨m, removed, hlp, rfl⟩ := hk.run
  have hD := hlp.did hc hk.dec hu h.toV0 (pending_positionsOf h.toV0 a v) hk.pos.le
  have hsm : statCore m.vstats = statCore s.vstats := hD.stats
  have e1 : m.vstats.flexPrincipal = s.vstats.flexPrincipal := (congrArg VStats.flexPrincipal hsm :)
  have e2 : m.vstats.stakedPrincipal = s.vstats.stakedPrincipal := (congrArg VStats.stakedPrincipal hsm :)
  have e3 : m.vstats.stakedUsers = s.vstats.stakedUsers := (congrArg VStats.stakedUsers hsm :)
  have e4 : m.vstats.flexUsers = s.vstats.flexUsers := (congrArg VStats.flexUsers hsm :)
  have hvp := vPrincipals (posCount m.positions a v = 0) v (-removed) u64dec m.vstats
  have hstats : (unlockedState m a v removed).vstats = vAddP v (-removed)
    (if posCount m.positions a v = 0 then vUsers v u64dec m.vstats else m.vstats) := rfl
  have hpos : (unlockedState m a v removed).positions = m.positions := rfl
  have hin : a ∈ usersIn s v := by
    rw [mem_usersIn]
    by_contra hn
    rw [← posCount_zero, ← positionsOf_length, List.length_eq_zero_iff] at hn
    have := hk.enough
    have := hk.pos
    unfold lockedTotal at *
    rw [hn] at *
    simp at *
    omega
  have hmem : ∀ w x, ¬ (x = a ∧ w = v) → (x ∈ usersIn m w ↔ x ∈ usersIn s w) := by
    intro w x hne
    rw [mem_usersIn, mem_usersIn]
    constructor
    · rintro ⟨e, he, h1, h2⟩
      have hg := KV.get?_of_mem (k := e.1) (v := e.2) hD.inv.sorted he
      rw [hD.others _ (by rw [h1, h2]; exact hne)] at hg
      exact ⟨_, KV.mem_of_get? hg, h1, h2⟩
    · rintro ⟨e, he, h1, h2⟩
      have hg := KV.get?_of_mem (k := e.1) (v := e.2) h.sorted he
      rw [← hD.others _ (by rw [h1, h2]; exact hne)] at hg
      exact ⟨_, KV.mem_of_get? hg, h1, h2⟩
  have hcnt : posCount m.positions a v = 0 ↔ a ∉ usersIn m v := by rw [mem_usersIn, posCount_zero]
  have husers : ∀ w, w = STAKED ∨ w = FLEXIBLE →
      usersStat (unlockedState m a v removed).vstats w = (usersIn (unlockedState m a v removed) w).length % 2 ^ 64 := by
    intro w hw
    have g1 := vUsers_count (v := v) (w := w) u64dec m.vstats hk.vault hw (posCount m.positions a v = 0) (-removed)
    simp only at g1
    rw [hstats]
    unfold usersStat
    rw [g1]
    have g2 := h.users hw
    unfold usersStat at g2
    rw [e3, e4, g2, usersIn_congr hpos]
    by_cases hvw : v = w
    · subst hvw
      by_cases hz : a ∈ usersIn m v
      · rw [if_neg (fun hh => hcnt.1 hh.1 hz)]
        rw [length_same (usersIn_nodup s v) (usersIn_nodup m v)]
        intro x
        by_cases hx : x = a
        · subst hx; simp [hz, hin]
        · exact hmem v x (fun hh => hx hh.1)
      · rw [if_pos ⟨hcnt.2 hz, rfl⟩]
        have : (usersIn s v).length = (usersIn m v).length + (if a ∈ usersIn m v then 0 else 1) := by
          refine length_insert (usersIn_nodup m v) (usersIn_nodup s v) fun x => ?_
          by_cases hx : x = a
          · subst hx; simp [hin]
          · rw [hmem v x (fun hh => hx hh.1)]; simp [hx]
        rw [this, if_neg hz]
        exact u64dec_mod _
    · rw [if_neg (fun hh => hvw hh.2)]
      rw [length_same (usersIn_nodup s w) (usersIn_nodup m w)]
      exact fun x => hmem w x (fun hh => hvw hh.2.symm)
  refine ⟨?_, ?_, ?_, ?_, ?_⟩
  · exact ⟨hD.inv.sorted, hD.inv.entry, hD.inv.staked, hD.inv.flex, hD.inv.ftot, hD.inv.rew, hD.inv.rsum⟩
  · rw [hstats, hvp.1, e1, h.flexP]
    show _ = m.totalFlexible
    rw [hD.total]; split <;> omega
  · rw [hstats, hvp.2.1, e2, hpos]
    have h1 := h.stakedP
    have h2 := hD.prin STAKED
    split at h2 <;> split <;> omega
  · exact husers STAKED (.inl rfl)
  · exact husers FLEXIBLE (.inr rfl)

/-! ### Every other message -/

theorem VInv.of_deliver {c : Cfg} (hc : c.WF) {env : Env} {vaa : Bytes} {s s' : State} (hl : Led c s)
    (hv : VInv c s) (h : deliver c env vaa s = .ok () s') : VInv c s' := by
  obtain ⟨v, sA, _, _, rfl, hA, _, hd⟩ := deliver_did hc hl h
  have hvA : VInv c { s with archive := s.archive ++ [v.digest] } :=
    hv.of_core (hv.toV0.mono (fun _ _ => le_refl _) (le_refl _) rfl rfl rfl) rfl rfl rfl
  generalize content env vaa = q at hd
  cases hd with
  | ignored _ _ _ _ _ _ _ _ e =>
    have hp : s'.positions = s.positions := (congrArg State.positions e :)
    have hb : s'.bal = s.bal := (congrArg State.bal e :)
    have ht : s'.totalFlexible = s.totalFlexible := (congrArg State.totalFlexible e :)
    have hr : s'.rewards = s.rewards := (congrArg State.rewards e :)
    have hx : s'.index = s.index := (congrArg State.index e :)
    have hst : s'.vstats = s.vstats := (congrArg State.vstats e :)
    refine hv.of_core (hv.toV0.mono (fun x _ => ?_) hx.ge hp ht hr) hst hp ht
    unfold State.balance; rw [hb]
  | token amount i rcp s1 _ hu hm =>
    have h1 := hvA.toV0.of_UI hc hu
    have hp : s'.positions = s1.positions := hm.moved.positions
    have ht : s'.totalFlexible = s1.totalFlexible := hm.moved.totalFlexible
    have hst : s'.vstats = s1.vstats := hm.moved.vstats
    have h2 : V0 c s' := h1.mono (fun x _ => by
      have := hm.bal x
      have h0 := hm.nonneg
      have e : State.balance s' x = _ := this
      rw [e]; split <;> omega) (le_of_eq hm.moved.index.symm) hp ht hm.moved.rewards
    exact (hvA.of_core h1 hu.vstats hu.positions hu.totalFlexible).of_core h2 hst hp ht
  | index i m _ e hu _ =>
    have h1 := hvA.toV0.of_UI hc hu
    have h2 := hvA.of_core h1 hu.vstats hu.positions hu.totalFlexible
    have hp : s'.positions = m.positions := (congrArg State.positions e :)
    have hb : s'.bal = m.bal := (congrArg State.bal e :)
    have ht : s'.totalFlexible = m.totalFlexible := (congrArg State.totalFlexible e :)
    have hr : s'.rewards = m.rewards := (congrArg State.rewards e :)
    have hx : s'.index = m.index := (congrArg State.index e :)
    have hst : s'.vstats = m.vstats := (congrArg State.vstats e :)
    refine h2.of_core (h1.mono (fun x _ => ?_) hx.ge hp ht hr) hst hp ht
    unfold State.balance; rw [hb]

/-- No message but an unlock takes coins from a vault account. -/
theorem vault_mono {c : Cfg} (hc : c.WF) {env : Env} {m : Msg} {s s' : State} (hl : Led c s)
    (hm : m.SignedByUser c) (hd : ∀ v, m ≠ .deliver v) (hk : ∀ a v x, m ≠ .unlock a v x)
    (h : exec c env m s = .ok () s') : ∀ x, VaultAcct c x → s.balance x ≤ s'.balance x := by
  intro x hx
  cases m with
  | claimYield signer =>
    obtain ⟨_, a, m, hd, hb, hmv, rfl⟩ := claimYield_ok h
    exact hmv.mono (claimable_nonneg s a) (hx.ne_yield hc)
  | setPaused signer p =>
    obtain ⟨_, rfl⟩ := setPaused_ok h
    exact le_refl _
  | setYieldRecipient signer p i r =>
    obtain ⟨_, _, rfl⟩ := setYieldRecipient_ok h
    exact le_refl _
  | deliver v => exact absurd rfl (hd v)
  | transfer signer a ch tk r =>
    obtain ⟨amt, _, hk⟩ := transfer_ok h
    obtain ⟨b, hb⟩ := hk.sender
    have := (hk.did hb).bal x
    rw [this, if_neg (hx.ne_user (hm b hb))]; omega
  | portalSetPaused signer p =>
    obtain ⟨_, _, rfl⟩ := portalSetPaused_ok h
    exact le_refl _
  | setPeer signer ch t mg =>
    obtain ⟨_, _, _, _, _, _, _, _, rfl⟩ := setPeer_ok h
    exact le_refl _
  | setBridgingPath signer ch t b =>
    obtain ⟨_, _, _, _, _, rfl⟩ := setBridgingPath_ok h
    exact le_refl _
  | transferOwnership signer o =>
    obtain ⟨_, _, _, _, rfl⟩ := transferOwnership_ok h
    exact le_refl _
  | lock signer v amt? =>
    obtain ⟨amt, a, _, hk⟩ := lock_ok h
    obtain ⟨m, hmv, rfl⟩ := hk.run
    exact hmv.mono hk.nonneg (hx.ne_user (hm a hk.dec))
  | unlock signer v amt? => exact absurd rfl (hk _ _ _)
  | vaultsSetPaused signer p =>
    obtain ⟨_, _, _, rfl⟩ := vaultsSetPaused_ok h
    exact le_refl _
  | bankSend a b amt =>
    obtain ⟨h0, hb, hmv⟩ := bankSend_ok h
    exact hmv.mono h0.le (hx.ne_user hm)
  | keeperSend a b amt =>
    obtain ⟨h0, hmv⟩ := keeperSend_ok h
    exact hmv.mono h0 (hx.ne_user hm.1)
  | bankMultiSend a outs =>
    have hu : c.IsUser a := hm
    have hmm := bankMultiSend_ok hc hu.ne_yield hu.ne_module hl.good.index.ne' h
    rw [hmm.bal, if_neg (hx.ne_user hu)]
    have := outTo_nonneg hmm.pos x
    omega
  | ibcTransfer a ch r amt =>
    obtain ⟨h0, _, m, hmv, rfl⟩ := userIbcTransfer_ok h
    exact hmv.mono h0.le (hx.ne_user hm)
  | ibcReceive ch r amt =>
    obtain ⟨h0, _, hb, m, hmv, rfl⟩ := ibcReceive_ok h
    exact hmv.mono h0.le (hx.ne_escrow hc _)
  | ibcTimeout p => exact pf hc hl hx p true h
  | ibcAckError p => exact pf hc hl hx p false h
  | ibcAckSuccess p =>
    obtain ⟨_, rfl⟩ := packetAcked_ok h
    exact le_refl _
  | warpCreate t =>
    have h : warpCreate t s = .ok () s' := h
    unfold warpCreate at h
    have h := modify_ok.1 h
    subst h
    split <;> exact le_refl _
  | warpTransfer a t d r amt =>
    obtain ⟨h0, col, m, hcol, hmv, rfl⟩ := warpSend_ok h
    exact hmv.mono h0.le (hx.ne_user hm)
  | warpReceive t a amt =>
    obtain ⟨h0, hb, col, hcol, hle, hmv⟩ := warpReceive_ok h
    exact hmv.mono h0.le (hx.ne_warp hc)
where
  pf {c : Cfg} (hc : c.WF) {s s' : State} (hl : Led c s) {x : Addr} (hx : VaultAcct c x) (p : IbcOut) (b : Bool)
      (h : packetFailed c p b s = .ok () s') : s.balance x ≤ s'.balance x := by
    obtain ⟨hin, _, m, hmv, rfl⟩ := packetFailed_ok h
    obtain ⟨h0, _⟩ := hl.good.infl p hin
    have := hmv.mono h0.le (hx.ne_escrow hc p.channel)
    have e : (if ownPacket c p then retryAdded s IBC p.channel p.amount else s).balance x = s.balance x := by
      split <;> rfl
    rw [e] at this
    exact this

theorem VInv.step {c : Cfg} (hc : c.WF) {env : Env} {msg : Msg} {s : State} (hl : Led c s)
    (hv : VInv c s) (hm : msg.SignedByUser c) : VInv c (step c env msg s) := by
  have hl' : Led c (Dollar.step c env msg s) := hl.step hc hm
  rcases step_cases c env msg s with h | h
  · rw [h]; exact hv
  generalize Dollar.step c env msg s = s' at h hl'
  have idx : (∀ v, msg ≠ .deliver v) → s.index ≤ s'.index := by
    intro hd
    by_cases hq : msg.isPortal = false
    · exact (exec_quiet hc hl hm hq h).2.index.ge
    · cases msg with
      | transfer signer a ch tk r =>
        obtain ⟨amt, _, hk⟩ := transfer_ok h
        obtain ⟨b, hb⟩ := hk.sender
        exact (hk.did hb).index.ge
      | deliver v => exact absurd rfl (hd v)
      | _ => exact absurd rfl hq
  have core : (∀ v, msg ≠ .deliver v) → (∀ a v x, msg ≠ .unlock a v x) → vaultF s' = vaultF s → VInv c s' := by
    intro h1 h2 h3
    have e1 : s'.positions = s.positions := congrArg Prod.fst h3
    have e2 : s'.totalFlexible = s.totalFlexible := congrArg (fun x => x.2.1) h3
    have e3 : s'.rewards = s.rewards := congrArg (fun x => x.2.2.1) h3
    have e4 : s'.vstats = s.vstats := congrArg (fun x => x.2.2.2) h3
    exact hv.of_core (hv.toV0.mono (vault_mono hc hl hm h1 h2 h) (idx h1) e1 e2 e3) e4 e1 e2
  by_cases ho : msg.noOther = true
  · refine core ?_ ?_ (congrArg Prod.fst ((Other.msg c env msg ho).ok h) :)
    · rintro v rfl; cases ho
    · rintro a v x rfl; cases ho
  have ho : msg.noOther = false := by simpa using ho
  cases msg with
  | lock signer v amt? =>
    obtain ⟨amt, a, _, hk⟩ := lock_ok (show lock c env signer v amt? s = .ok () s' from h)
    exact hv.of_lock hc hl.good (hm a hk.dec) hk
  | unlock signer v amt? =>
    obtain ⟨_, _, amt, a, _, hk⟩ := unlock_ok (show unlock c signer v amt? s = .ok () s' from h)
    exact hv.of_unlock hc (hm a hk.dec) hk
  | deliver vaa => exact hv.of_deliver hc hl h
  | _ =>
    first
    | exact core nofun nofun ((VaultF.route c env _ ho rfl nofun nofun).ok h)
    | exact Bool.noConfusion ho

theorem VInv.initial {c : Cfg} {s : State} (h : Initial c s) : VInv c s := by
  refine ⟨⟨?_, ?_, ?_, ?_, ?_, ?_, ?_⟩, ?_, ?_, ?_, ?_⟩
  · rw [h.positions]; exact KV.sorted_nil
  · rw [h.positions]; nofun
  · rw [h.positions]; unfold State.balance; rw [h.bal]; exact le_refl _
  · rw [h.positions]; nofun
  · rw [h.positions, h.totalFlexible]; exact le_refl _
  · rw [h.rewards]; nofun
  · rw [h.rewards]; unfold State.balance; rw [h.bal]; exact le_refl _
  · rw [h.vstats, h.totalFlexible]
  · rw [h.positions, h.vstats]; exact le_refl _
  · unfold usersIn; rw [h.positions, h.vstats]; rfl
  · unfold usersIn; rw [h.positions, h.vstats]; rfl

/-- Every reachable state satisfies the vault invariant. -/
theorem VInv.upgrade {c : Cfg} {s s' : State} (h : VInv c s) (hu : Upgrade c s s') : VInv c s' := by
  obtain ⟨⟨_, _, _, _, _, _, _, _, _, rfl⟩, _⟩ := hu
  exact ⟨⟨h.sorted, h.entry, h.staked, h.flex, h.ftot, h.rew, h.rsum⟩, h.flexP, h.stakedP, h.stakedU, h.flexU⟩

theorem Reachable.vinv {c : Cfg} (hc : c.WF) {s : State} (h : Reachable c s) : VInv c s :=
  (Reachable.induct (P := fun s => Led c s ∧ VInv c s) (fun _ h => ⟨Led.initial h, VInv.initial h⟩)
    (fun _ _ _ hl hm => ⟨hl.1.step hc hm, hl.2.step hc hl.1 hm⟩)
    (fun _ _ hl hu => ⟨hl.1.upgrade hu, hl.2.upgrade hu⟩) h).2

end Dollar
