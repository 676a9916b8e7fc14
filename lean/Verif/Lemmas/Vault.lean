import Verif.Lemmas.Names

/-
Effects of the vault handlers.
-/
set_option linter.unusedSimpArgs false

namespace Dollar
open MM

/-! ### Statistics -/

/-- Add `d` to the principal statistic of a vault. -/
def vAddP (v d : Int) (st : VStats) : VStats :=
  if v = STAKED then { st with stakedPrincipal := st.stakedPrincipal + d }
  else if v = FLEXIBLE then { st with flexPrincipal := st.flexPrincipal + d }
  else st

/-- Apply `f` to the user count of a vault. -/
def vUsers (v : Int) (f : Nat → Nat) (st : VStats) : VStats :=
  if v = STAKED then { st with stakedUsers := f st.stakedUsers }
  else if v = FLEXIBLE then { st with flexUsers := f st.flexUsers }
  else st

theorem incrementVaultUsers_eq (v : Int) (s : State) :
    incrementVaultUsers v s = .ok () { s with vstats := vUsers v u64inc s.vstats } := by
  unfold incrementVaultUsers vUsers
  simp only [modify_apply]
  split
  · rfl
  · split <;> rfl

theorem decrementVaultUsers_eq (v : Int) (s : State) :
    decrementVaultUsers v s = .ok () { s with vstats := vUsers v u64dec s.vstats } := by
  unfold decrementVaultUsers vUsers
  simp only [modify_apply]
  split
  · rfl
  · split <;> rfl

theorem addVaultPrincipal_eq (v d : Int) (s : State) :
    addVaultPrincipal v d s = .ok () { s with vstats := vAddP v d s.vstats } := by
  unfold addVaultPrincipal vAddP
  simp only [modify_apply]
  split
  · rfl
  · split <;> rfl

theorem principalDown_ok {a i p : Int} {s s' : State} (h : principalDown a i s = .ok p s') :
    i ≠ 0 ∧ p = roundedDown a i ∧ s' = s := by
  unfold principalDown at h
  rw [ite_ok] at h
  rcases h with ⟨_, h⟩ | ⟨h0, h⟩
  · cases h
  obtain ⟨rfl, rfl⟩ := pure_ok.1 h
  exact ⟨h0, rfl, rfl⟩

/-! ### Lock -/

/-- Number of positions of a user in a vault. -/
def posCount (ps : KV (Addr × Int × Int) Position) (a : Addr) (v : Int) : Nat :=
  (ps.filter fun e => decide (e.1.1 = a ∧ e.1.2.1 = v)).length

theorem positionsOf_length (s : State) (a : Addr) (v : Int) :
    (positionsOf s a v).length = posCount s.positions a v := by
  unfold positionsOf posCount
  generalize s.positions = l
  induction l with
  | nil => rfl
  | cons e t ih =>
    rw [List.filterMap_cons, List.filter_cons]
    by_cases h : e.1.1 = a ∧ e.1.2.1 = v
    · simp only [h, and_self, if_true, decide_true, List.length_cons, ih]
    · simp only [h, if_false, decide_false, ih]
      simp

/-- The state after the bookkeeping of `Lock`. -/
def lockedState (m : State) (signer : String) (a : Addr) (v amt t : Int) : State :=
  let ps := m.positions.set (a, v, t) ⟨roundedDown amt m.index, m.index, amt, t⟩
  { m with
    positions := ps
    totalFlexible := if v = FLEXIBLE then m.totalFlexible + roundedDown amt m.index else m.totalFlexible
    vstats := vAddP v (roundedDown amt m.index)
      (if posCount ps a v = 1 then vUsers v u64inc m.vstats else m.vstats)
    events := m.events ++ [.positionLocked signer v m.index amt (roundedDown amt m.index)] }

theorem lockTotal_eq (v p : Int) (s : State) : lockTotal v p s =
    .ok () (let t := if v = FLEXIBLE then s.totalFlexible + p else s.totalFlexible
      { s with totalFlexible := t }) := by
  unfold lockTotal
  split <;> rfl

theorem countNewUser_eq (a : Addr) (v : Int) (s : State) : countNewUser a v s =
    .ok () (let st := if posCount s.positions a v = 1 then vUsers v u64inc s.vstats else s.vstats
      { s with vstats := st }) := by
  unfold countNewUser
  simp only [bind_apply, get_apply, positionsOf_length]
  split
  · rw [incrementVaultUsers_eq]
  · rfl

theorem countGoneUser_eq (a : Addr) (v : Int) (s : State) : countGoneUser a v s =
    .ok () (let st := if posCount s.positions a v = 0 then vUsers v u64dec s.vstats else s.vstats
      { s with vstats := st }) := by
  unfold countGoneUser
  simp only [bind_apply, get_apply, positionsOf_length]
  split
  · rw [decrementVaultUsers_eq]
  · rfl

theorem lockBook_eq (signer : String) (a : Addr) (v amt t : Int) (m : State) :
    lockBook signer a v amt t m = if m.index = 0 then .panic else .ok () (lockedState m signer a v amt t) := by
  unfold lockBook
  simp only [bind_apply, get_apply]
  by_cases hi : m.index = 0
  · unfold principalDown
    simp only [hi, if_true]
    rfl
  simp only [hi, if_false, principalDown_eq hi, pure_apply, modify_apply, lockTotal_eq, countNewUser_eq,
    addVaultPrincipal_eq, emit]
  rfl

/-- Everything `Lock` checked and did. -/
structure LockOk (c : Cfg) (env : Env) (signer : String) (v amt : Int) (a : Addr) (s s' : State) :
    Prop where
  season : ¬ (v = FLEXIBLE ∧ s.seasonOneEnded = true)
  notPaused : ¬ (s.vPaused = PAUSE_ALL ∨ s.vPaused = PAUSE_LOCK)
  dec : c.decode signer = some a
  min : c.minLock ≤ amt
  vault : v = STAKED ∨ v = FLEXIBLE
  fresh : s.positions.has (a, v, env.time) = false
  funds : amt ≤ s.balance a
  nonneg : 0 ≤ amt
  index : s.index ≠ 0
  run : ∃ m, Moved c s a (posAddr c signer v env.time) amt m ∧
    s' = lockedState m signer a v amt env.time

theorem lock_ok {c : Cfg} {env : Env} {signer : String} {v : Int} {amt? : Option Int}
    {s s' : State} {u : Unit} (h : lock c env signer v amt? s = .ok u s') :
    ∃ amt a, amt? = some amt ∧ LockOk c env signer v amt a s s' := by
  unfold lock at h
  simp only [bind_ok, get_ok] at h
  obtain ⟨_, _, ⟨rfl, rfl⟩, h⟩ := h
  rw [ite_ok] at h
  rcases h with ⟨_, h⟩ | ⟨h0, h⟩
  · cases h
  rw [ite_ok] at h
  rcases h with ⟨_, h⟩ | ⟨h1, h⟩
  · cases h
  cases hd : c.decode signer with
  | none => simp only [hd] at h; cases h
  | some a =>
  simp only [hd] at h
  cases amt? with
  | none => cases h
  | some amt =>
  simp only at h
  rw [ite_ok] at h
  rcases h with ⟨_, h⟩ | ⟨h2, h⟩
  · cases h
  rw [ite_ok] at h
  rcases h with ⟨_, h⟩ | ⟨h3, h⟩
  · cases h
  rw [ite_ok] at h
  rcases h with ⟨_, h⟩ | ⟨h4, h⟩
  · cases h
  rw [ite_ok] at h
  rcases h with ⟨_, h⟩ | ⟨h5, h⟩
  · cases h
  simp only [bind_ok] at h
  obtain ⟨_, s1, h6, _, m, h7, h8⟩ := h
  obtain ⟨hn, rfl⟩ := newCoin_ok h6
  have hm := sendCoins_ok h7
  rw [lockBook_eq] at h8
  have hmi := hm.index
  split at h8
  · cases h8
  next hi =>
  cases h8
  refine ⟨amt, a, rfl, h0, h1, hd, by omega, ?_, by simpa using h4, by omega, hn, hmi ▸ hi, m, hm, rfl⟩
  unfold validVault at h3
  by_contra hc
  exact h3 (decide_eq_false hc)

/-! ### Unlock -/

/-- Key of a position entry. -/
def PosEntry.key (p : PosEntry) : Addr × Int × Int := (p.address, p.vault, p.time)

/-- Stored value of a position entry. -/
def PosEntry.val (p : PosEntry) : Position := ⟨p.principal, p.index, p.amount, p.time⟩

/-- The store after removing `amt` (principal `pr`) from a position. -/
def posUpd (ps : KV (Addr × Int × Int) Position) (p : PosEntry) (amt pr : Int) :
    KV (Addr × Int × Int) Position :=
  if p.amount ≤ amt then ps.erase p.key
  else ps.set p.key ⟨p.principal - pr, p.index, p.amount - amt, p.time⟩

theorem updatePosition_eq (p : PosEntry) (amt pr : Int) (s : State) :
    updatePosition p amt pr s = .ok () { s with positions := posUpd s.positions p amt pr } := by
  unfold updatePosition posUpd
  simp only [modify_apply]
  split <;> rfl

/-- Result of claiming the rewards of a position. -/
structure Rewarded (c : Cfg) (s : State) (p : PosEntry) (amt owed : Int) (s' : State) : Prop where
  nonneg : 0 ≤ owed
  run : (s.principalOf c.flexibleAddr ≤ 0 ∧ owed = 0 ∧ s' = s) ∨
    (0 < s.principalOf c.flexibleAddr ∧ p.index ≠ 0 ∧
      owed = rewardsOwed s.rewards p.index s.index (roundedDown amt p.index) ∧
      ∃ m, Moved c { s with rewards := rewardsAfter s.rewards p.index s.index (roundedDown amt p.index) }
        c.flexibleAddr p.address owed m ∧
        s' = { m with events := m.events ++ [.rewardClaimed p.address owed] })

theorem claimRewards_ok {c : Cfg} {p : PosEntry} {amt owed : Int} {s s' : State}
    (h : claimRewards c p amt s = .ok owed s') : Rewarded c s p amt owed s' := by
  unfold claimRewards at h
  simp only [bind_ok, get_ok] at h
  obtain ⟨_, _, ⟨rfl, rfl⟩, h⟩ := h
  rw [ite_ok] at h
  rcases h with ⟨h0, h⟩ | ⟨h0, h⟩
  · obtain ⟨rfl, rfl⟩ := pure_ok.1 h
    exact ⟨le_refl _, .inl ⟨h0, rfl, rfl⟩⟩
  simp only [bind_ok, modify_ok] at h
  obtain ⟨q, _, h1, _, _, rfl, _, s2, h2, _, m, h3, _, m2, h4, h5⟩ := h
  obtain ⟨hi, rfl, rfl⟩ := principalDown_ok h1
  obtain ⟨hn, rfl⟩ := newCoin_ok h2
  obtain ⟨rfl, rfl⟩ := pure_ok.1 h5
  exact ⟨hn, .inr ⟨by omega, hi, rfl, m, sendCoins_ok h3, emit_ok h4⟩⟩

/-- Result of removing `amt` from one position. -/
inductive OneOk (c : Cfg) (signer : String) (a : Addr) (v : Int) (p : PosEntry) (amt : Int)
    (s s' : State) : Prop
  | staked (m : State) : v ≠ FLEXIBLE → 0 ≤ amt → Moved c s (posAddr c signer p.vault p.time) a amt m →
      s' = { m with
        positions := posUpd m.positions p amt (roundedDown amt p.index)
        events := m.events ++ [.positionUnlocked signer v p.index amt (roundedDown amt p.index)] } →
      OneOk c signer a v p amt s s'
  | flexible (s1 m3 m4 : State) (owed y : Int) : v = FLEXIBLE →
      Rewarded c { s with totalFlexible := s.totalFlexible - roundedDown amt p.index } p amt owed s1 →
      y = claimable s1 (posAddr c signer v p.time) →
      Moved c { s1 with vstats := { s1.vstats with flexDistributed := s1.vstats.flexDistributed + owed } }
        c.yieldAddr (posAddr c signer v p.time) y m3 →
      0 ≤ amt + y →
      Moved c m3 (posAddr c signer p.vault p.time) a (amt + y) m4 →
      s' = { m4 with
        positions := posUpd m4.positions p amt (roundedDown amt p.index)
        events := m4.events ++ [.positionUnlocked signer v p.index (amt + y) (roundedDown amt p.index)] } →
      OneOk c signer a v p amt s s'

theorem unlockOne_ok {c : Cfg} {signer : String} {a : Addr} {v : Int} {p : PosEntry} {rem : Int}
    {r : Int × Int} {s s' : State} (h : unlockOne c signer a v p rem s = .ok r s') :
    p.index ≠ 0 ∧ r = (amountToRemove p rem, roundedDown (amountToRemove p rem) p.index) ∧
      OneOk c signer a v p (amountToRemove p rem) s s' := by
  unfold unlockOne at h
  simp only [bind_ok] at h
  obtain ⟨q, _, h1, send, s2, h2, _, s3, h3, _, m, h4, _, m2, h5, _, m3, h6, h7⟩ := h
  obtain ⟨hi, rfl, rfl⟩ := principalDown_ok h1
  obtain ⟨hn, rfl⟩ := newCoin_ok h3
  rw [updatePosition_eq] at h5
  cases h5
  have h6 := emit_ok h6
  obtain ⟨rfl, rfl⟩ := pure_ok.1 h7
  refine ⟨hi, rfl, ?_⟩
  have hm := sendCoins_ok h4
  unfold unlockPayout at h2
  rw [ite_ok] at h2
  rcases h2 with ⟨hv, h2⟩ | ⟨hv, h2⟩
  · unfold unlockFlexible at h2
    simp only [bind_ok] at h2
    obtain ⟨_, t1, g1, owed, t2, g2, _, t3, g3, y, t4, g4, g5⟩ := h2
    have g1 := modify_ok.1 g1
    subst g1
    have g2 := claimRewards_ok g2
    have g3 := modify_ok.1 g3
    subst g3
    obtain ⟨e4, g4⟩ := (claimModuleYield_wp c _ _).of_ok g4
    have hy0 : 0 ≤ y := by rw [e4]; exact claimable_nonneg _ _
    have : send = amountToRemove p rem + y ∧ s3 = t4 := by
      rw [ite_ok] at g5
      rcases g5 with ⟨_, g5⟩ | ⟨g, g5⟩
      · obtain ⟨rfl, rfl⟩ := pure_ok.1 g5; exact ⟨rfl, rfl⟩
      · obtain ⟨rfl, rfl⟩ := pure_ok.1 g5; exact ⟨by omega, rfl⟩
    obtain ⟨rfl, rfl⟩ := this
    refine .flexible t2 s3 m owed y hv ?_ e4 g4 hn hm h6
    rw [← sub_eq_add_neg] at g2
    exact g2
  · obtain ⟨rfl, rfl⟩ := pure_ok.1 h2
    exact .staked m hv hn hm h6

/-- The loop of `unlock`: the positions touched one after the other. -/
inductive LoopOk (c : Cfg) (signer : String) (a : Addr) (v : Int) :
    List PosEntry → Int → Int → State → Int → Int → State → Prop
  | nil (rem removed : Int) (s : State) : LoopOk c signer a v [] rem removed s rem removed s
  | stop (p : PosEntry) (t : List PosEntry) (removed : Int) (s : State) :
      LoopOk c signer a v (p :: t) 0 removed s 0 removed s
  | step (p : PosEntry) (t : List PosEntry) (rem removed : Int) (s m : State) (rem' removed' : Int)
      (s' : State) : rem ≠ 0 → p.index ≠ 0 → OneOk c signer a v p (amountToRemove p rem) s m →
      LoopOk c signer a v t (rem - amountToRemove p rem)
        (removed + roundedDown (amountToRemove p rem) p.index) m rem' removed' s' →
      LoopOk c signer a v (p :: t) rem removed s rem' removed' s'

theorem unlockLoop_ok {c : Cfg} {signer : String} {a : Addr} {v : Int} {l : List PosEntry}
    {rem removed : Int} {r : Int × Int} {s s' : State}
    (h : unlockLoop c signer a v l rem removed s = .ok r s') :
    LoopOk c signer a v l rem removed s r.1 r.2 s' := by
  induction l generalizing rem removed s with
  | nil =>
    obtain ⟨rfl, rfl⟩ := pure_ok.1 h
    exact .nil _ _ _
  | cons p t ih =>
    unfold unlockLoop at h
    rw [ite_ok] at h
    rcases h with ⟨h0, h⟩ | ⟨h0, h⟩
    · obtain ⟨rfl, rfl⟩ := pure_ok.1 h
      subst h0
      exact .stop _ _ _ _
    simp only [bind_ok] at h
    obtain ⟨q, m, h1, h2⟩ := h
    obtain ⟨hi, rfl, h3⟩ := unlockOne_ok h1
    exact .step _ _ _ _ _ _ _ _ _ h0 hi h3 (ih h2)

/-- Total amount of a user's positions in a vault. -/
def lockedTotal (s : State) (a : Addr) (v : Int) : Int :=
  ((positionsOf s a v).map PosEntry.amount).sum

/-- The state after the bookkeeping that ends `Unlock`. -/
def unlockedState (m : State) (a : Addr) (v removed : Int) : State :=
  let st := if posCount m.positions a v = 0 then vUsers v u64dec m.vstats else m.vstats
  { m with vstats := vAddP v (-removed) st }

/-- Everything `Unlock` checked and did. -/
structure UnlockOk (c : Cfg) (signer : String) (v amt : Int) (a : Addr) (s s' : State) : Prop where
  dec : c.decode signer = some a
  pos : 0 < amt
  vault : v = STAKED ∨ v = FLEXIBLE
  enough : amt ≤ lockedTotal s a v
  min : ¬ (amt < c.minUnlock ∧ lockedTotal s a v ≠ amt)
  run : ∃ m removed, LoopOk c signer a v (positionsOf s a v) amt 0 s 0 removed m ∧
    s' = unlockedState m a v removed

theorem unlockInner_ok {c : Cfg} {signer : String} {v : Int} {amt? : Option Int}
    {s s' : State} {u : Unit} (h : unlockInner c signer v amt? s = .ok u s') :
    ∃ amt a, amt? = some amt ∧ UnlockOk c signer v amt a s s' := by
  unfold unlockInner at h
  cases hd : c.decode signer with
  | none => simp only [hd] at h; cases h
  | some a =>
  simp only [hd] at h
  cases amt? with
  | none => cases h
  | some amt =>
  simp only at h
  rw [ite_ok] at h
  rcases h with ⟨_, h⟩ | ⟨h0, h⟩
  · cases h
  rw [ite_ok] at h
  rcases h with ⟨_, h⟩ | ⟨h1, h⟩
  · cases h
  simp only [bind_ok, get_ok] at h
  obtain ⟨_, _, ⟨rfl, rfl⟩, h⟩ := h
  rw [ite_ok] at h
  rcases h with ⟨_, h⟩ | ⟨h2, h⟩
  · cases h
  rw [ite_ok] at h
  rcases h with ⟨_, h⟩ | ⟨h3, h⟩
  · cases h
  simp only [bind_ok] at h
  obtain ⟨r, m, h4, h⟩ := h
  rw [ite_ok] at h
  rcases h with ⟨_, h⟩ | ⟨h5, h⟩
  · cases h
  simp only [bind_ok, get_ok] at h
  obtain ⟨_, m2, h6, h7⟩ := h
  have h4 := unlockLoop_ok h4
  rw [countGoneUser_eq] at h6
  cases h6
  rw [addVaultPrincipal_eq] at h7
  cases h7
  refine ⟨amt, a, rfl, hd, by omega, ?_, ?_, ?_, m, r.2, ?_, ?_⟩
  · unfold validVault at h1
    by_contra hc
    exact h1 (decide_eq_false hc)
  · unfold lockedTotal; omega
  · exact h3
  · have : r.1 = 0 := by omega
    rw [this] at h4; exact h4
  · rfl

theorem unlock_ok {c : Cfg} {signer : String} {v : Int} {amt? : Option Int}
    {s s' : State} {u : Unit} (h : unlock c signer v amt? s = .ok u s') :
    ¬ (v = FLEXIBLE ∧ s.seasonOneEnded = true) ∧ ¬ (s.vPaused = PAUSE_ALL ∨ s.vPaused = PAUSE_UNLOCK) ∧
    ∃ amt a, amt? = some amt ∧ UnlockOk c signer v amt a s s' := by
  unfold unlock at h
  simp only [bind_ok, get_ok] at h
  obtain ⟨_, _, ⟨rfl, rfl⟩, h⟩ := h
  rw [ite_ok] at h
  rcases h with ⟨_, h⟩ | ⟨h0, h⟩
  · cases h
  rw [ite_ok] at h
  rcases h with ⟨_, h⟩ | ⟨h1, h⟩
  · cases h
  exact ⟨h0, h1, unlockInner_ok h⟩

end Dollar
