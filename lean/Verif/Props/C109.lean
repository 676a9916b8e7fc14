import Verif.Lemmas.Work
import Verif.Lemmas.Settings
import Verif.Model.Queries
import Verif.Spec.Agree
import Verif.Spec.DemoExt

/-
C109: nobody else can make an unlock expensive.
-/
set_option maxRecDepth 100000
namespace Dollar
open MM Spec

/-! ### Specification -/

/-- Number of accepted locks of a user in a history. -/
def Spec.locksBy (c : Cfg) (user : Addr) : History → State → Nat
  | [], _ => 0
  | (env, m) :: t, s =>
    (match m with
      | .lock signer _ _ => if c.decode signer = some user ∧ outcome c env m s = .done then 1 else 0
      | _ => 0) + locksBy c user t (step c env m s)

/-- Number of messages in a history that change the index. -/
def Spec.rises (c : Cfg) : History → State → Nat
  | [], _ => 0
  | (env, m) :: t, s =>
    (if (step c env m s).index = s.index then 0 else 1) + rises c t (step c env m s)

/-- Number of accepted messages of the authority that set a yield recipient. -/
def Spec.recipientSets (c : Cfg) : History → State → Nat
  | [], _ => 0
  | (env, m) :: t, s =>
    (match m with
      | .setYieldRecipient signer _ _ _ => if signer = c.authority ∧ outcome c env m s = .done then 1 else 0
      | _ => 0) + recipientSets c t (step c env m s)

/-- Number of records an unlock of everything reads: every position of the user in the vault, and for each
flexible one the reward records after the index at which it was opened. -/
def Spec.unlockReads (s : State) (user : Addr) (vault : Int) : Nat :=
  ((positionsOf s user vault).map fun p =>
    1 + if vault = FLEXIBLE then (s.rewards.filter fun e => p.index < e.1).length else 0).sum

/-! ### Proof -/

/-- Keys of the positions of a user. -/
def keysOf (s : State) (user : Addr) : List PKey := (s.positions.map Prod.fst).filter fun k => k.1 = user

theorem keysOf_nodup {s : State} (h : Shape s) (user : Addr) : (keysOf s user).Nodup :=
  (KV.nodup_keys h.positions).filter _

theorem length_le_of_subset {α : Type} {l m : List α} (hn : l.Nodup) (h : ∀ x ∈ l, x ∈ m) : l.length ≤ m.length :=
  (hn.subperm h).length_le

theorem step_keys {c : Cfg} (hc : c.WF) {env : Env} {m : Msg} {s : State} (hr : Reachable c s) (user : Addr) :
    (keysOf (step c env m s) user).length ≤ (keysOf s user).length + locksBy c user [(env, m)] s := by
  rcases step_cases c env m s with e | e
  · rw [e]; omega
  · have hs' : Shape (step c env m s) := (Shape.exec c env m).ok e hr.shape
    have hd : outcome c env m s = .done := by unfold outcome; rw [e]
    by_cases hl : ∃ signer v x, m = .lock signer v x ∧ c.decode signer = some user
    · obtain ⟨signer, v, x, rfl, hdec⟩ := hl
      have hw := exec_within (P := fun k => k ∈ s.positions.map Prod.fst ∨ k = (user, v, env.time))
        (R := fun _ => True) hc hr ⟨fun e he => .inl (List.mem_map_of_mem he), fun _ _ => trivial⟩
        (fun signer' v' x' a hm ha => by
          cases hm
          rw [hdec] at ha
          cases ha
          exact .inr rfl) (fun _ => trivial) e
      have h1 : locksBy c user [(env, .lock signer v x)] s = 1 := by
        unfold locksBy
        simp only [hdec, hd, and_self, if_true]
        rfl
      rw [h1]
      refine le_trans (length_le_of_subset (keysOf_nodup hs' user) (m := keysOf s user ++ [(user, v, env.time)])
        fun k hk => ?_) (by simp)
      obtain ⟨hk1, hk2⟩ := List.mem_filter.1 hk
      obtain ⟨x, hx, rfl⟩ := List.mem_map.1 hk1
      rcases hw.pos x hx with h | h
      · exact List.mem_append_left _ (List.mem_filter.2 ⟨h, hk2⟩)
      · exact List.mem_append_right _ (by rw [h]; exact List.mem_singleton.2 rfl)
    · push Not at hl
      have hw := exec_within (P := fun k => k.1 = user → k ∈ s.positions.map Prod.fst)
        (R := fun _ => True) hc hr ⟨fun e he _ => List.mem_map_of_mem he, fun _ _ => trivial⟩
        (fun signer' v' x' a hm ha he => by
          have he : a = user := he
          exact absurd (he ▸ ha) (hl _ _ _ hm)) (fun _ => trivial) e
      refine le_trans (length_le_of_subset (keysOf_nodup hs' user) (m := keysOf s user) fun k hk => ?_)
        (Nat.le_add_right _ _)
      obtain ⟨hk1, hk2⟩ := List.mem_filter.1 hk
      obtain ⟨x, hx, rfl⟩ := List.mem_map.1 hk1
      exact List.mem_filter.2 ⟨hw.pos x hx (by simpa using hk2), hk2⟩

theorem step_rewards {c : Cfg} (hc : c.WF) {env : Env} {m : Msg} {s : State} (hr : Reachable c s) :
    (step c env m s).rewards.length ≤ s.rewards.length + rises c [(env, m)] s := by
  rcases step_cases c env m s with e | e
  · rw [e]; omega
  · have hs' : Shape (step c env m s) := (Shape.exec c env m).ok e hr.shape
    have hn := KV.nodup_keys hs'.rewards
    have hw := exec_within (P := fun _ => True)
      (R := fun k => k ∈ s.rewards.map Prod.fst ∨ ((step c env m s).index ≠ s.index ∧ k = (step c env m s).index))
      hc hr ⟨fun _ _ => trivial, fun e he => .inl (List.mem_map_of_mem he)⟩ (fun _ _ _ _ _ _ => trivial)
      (fun h => .inr ⟨h, rfl⟩) e
    by_cases hi : (step c env m s).index = s.index
    · have := length_le_of_subset hn (m := s.rewards.map Prod.fst) fun k hk => by
        obtain ⟨x, hx, rfl⟩ := List.mem_map.1 hk
        rcases hw.rew x hx with h | h
        · exact h
        · exact absurd hi h.1
      simp only [List.length_map] at this
      omega
    · have := length_le_of_subset hn (m := s.rewards.map Prod.fst ++ [(step c env m s).index]) fun k hk => by
        obtain ⟨x, hx, rfl⟩ := List.mem_map.1 hk
        rcases hw.rew x hx with h | h
        · exact List.mem_append_left _ h
        · exact List.mem_append_right _ (by rw [h.2]; exact List.mem_singleton.2 rfl)
      have h1 : rises c [(env, m)] s = 1 := by unfold rises; rw [if_neg hi]; rfl
      rw [h1]
      simpa using this

theorem run_keys {c : Cfg} (hc : c.WF) {s : State} (hr : Reachable c s) (h : History) (hsig : History.Signed c h)
    (user : Addr) : (keysOf (run c h s) user).length ≤ (keysOf s user).length + locksBy c user h s := by
  induction h generalizing s with
  | nil => exact Nat.le_add_right _ _
  | cons e l ih =>
    have h1 := step_keys hc (env := e.1) (m := e.2) hr user
    have h2 := ih (hr.step (env := e.1) (hsig e (.head _))) (fun x hx => hsig x (.tail _ hx))
    have h3 : locksBy c user (e :: l) s = locksBy c user [(e.1, e.2)] s + locksBy c user l (step c e.1 e.2 s) := by
      simp only [locksBy, Nat.add_zero]
    rw [h3]
    show (keysOf (run c l (step c e.1 e.2 s)) user).length ≤ _
    omega

theorem run_rewards {c : Cfg} (hc : c.WF) {s : State} (hr : Reachable c s) (h : History)
    (hsig : History.Signed c h) : (run c h s).rewards.length ≤ s.rewards.length + rises c h s := by
  induction h generalizing s with
  | nil => exact Nat.le_add_right _ _
  | cons e l ih =>
    have h1 := step_rewards hc (env := e.1) (m := e.2) hr
    have h2 := ih (hr.step (env := e.1) (hsig e (.head _))) (fun x hx => hsig x (.tail _ hx))
    have h3 : rises c (e :: l) s = rises c [(e.1, e.2)] s + rises c l (step c e.1 e.2 s) := by
      simp only [rises, Nat.add_zero]
    rw [h3]
    show (run c l (step c e.1 e.2 s)).rewards.length ≤ _
    omega

theorem length_shown (s : State) (user : Addr) :
    ((allPositions s).filter fun p => p.address = user).length = (keysOf s user).length := by
  unfold allPositions keysOf
  rw [List.filter_map, List.filter_map, List.length_map, List.length_map]
  rfl

theorem length_positionsOf (s : State) (user : Addr) (vault : Int) :
    (positionsOf s user vault).length ≤ (keysOf s user).length := by
  unfold positionsOf keysOf
  generalize s.positions = l
  induction l with
  | nil => exact Nat.le_refl _
  | cons e t ih =>
    simp only [List.filterMap_cons, List.map_cons, List.filter_cons]
    by_cases h1 : e.1.1 = user
    · by_cases h2 : e.1.2.1 = vault
      · simp only [h1, h2, and_self, if_true, decide_true, List.length_cons]
        omega
      · simp only [h1, h2, and_false, if_false, decide_true, if_true, List.length_cons]
        omega
    · simp only [h1, false_and, if_false, decide_false, Bool.false_eq_true]
      exact ih

theorem sum_le_mul {α : Type} (l : List α) (f : α → Nat) (b : Nat) (h : ∀ x ∈ l, f x ≤ b) :
    (l.map f).sum ≤ l.length * b := by
  induction l with
  | nil => exact Nat.zero_le _
  | cons x t ih =>
    have h1 := h x (.head _)
    have h2 := ih fun y hy => h y (.tail _ hy)
    simp only [List.map_cons, List.sum_cons, List.length_cons, Nat.add_mul, Nat.one_mul]
    omega

theorem length_replace {K V : Type} [DecidableEq K] (m : KV K V) (k : K) (v : V) :
    (m.replace k v).length = m.length := by
  induction m with
  | nil => rfl
  | cons e t ih =>
    unfold KV.replace
    split
    · rfl
    · simp only [List.length_cons, ih]

theorem length_insertS {K V : Type} [DecidableEq K] [KeyOrd K] (m : KV K V) (k : K) (v : V) :
    (m.insertS k v).length = m.length + 1 := by
  induction m with
  | nil => rfl
  | cons e t ih =>
    unfold KV.insertS
    split
    · rfl
    · simp only [List.length_cons, ih]

theorem length_set_le {K V : Type} [DecidableEq K] [KeyOrd K] (m : KV K V) (k : K) (v : V) :
    (m.set k v).length ≤ m.length + 1 := by
  unfold KV.set
  split
  · rw [length_replace]; omega
  · rw [length_insertS]

/-- C109: the list of positions a user is shown grows by at most one per accepted lock of that user; nobody
else can add to it. -/
theorem C109_positions {c : Cfg} (hc : c.WF) {s : State} (hr : Reachable c s) (h : History)
    (hsig : History.Signed c h) (provider : String) (user : Addr) (hd : c.decode provider = some user) :
    ∃ l l', queryPositions c s provider = some l ∧ queryPositions c (run c h s) provider = some l' ∧
      l'.length ≤ l.length + locksBy c user h s := by
  refine ⟨_, _, by unfold queryPositions; rw [hd]; rfl, by unfold queryPositions; rw [hd]; rfl, ?_⟩
  rw [length_shown, length_shown]
  exact run_keys hc hr h hsig user

/-- C109: at most one record of vault rewards is added per message that changes the index. -/
theorem C109_records {c : Cfg} (hc : c.WF) {s : State} (hr : Reachable c s) (h : History)
    (hsig : History.Signed c h) : (run c h s).rewards.length ≤ s.rewards.length + rises c h s :=
  run_rewards hc hr h hsig

/-- C109: what a full unlock of a user has to read is bounded by the positions the user had, the user's own
locks, the reward records there were, and the number of changes of the index. -/
theorem C109_reads {c : Cfg} (hc : c.WF) {s : State} (hr : Reachable c s) (h : History)
    (hsig : History.Signed c h) (user : Addr) (vault : Int) :
    unlockReads (run c h s) user vault ≤
      (((allPositions s).filter fun p => p.address = user).length + locksBy c user h s) *
        (1 + (s.rewards.length + rises c h s)) := by
  have h1 := run_keys hc hr h hsig user
  have h2 := run_rewards hc hr h hsig
  have h3 := length_positionsOf (run c h s) user vault
  rw [length_shown]
  unfold unlockReads
  refine le_trans (sum_le_mul _ _ _ fun p _ => ?_) (Nat.mul_le_mul_right _ (le_trans h3 h1))
  split
  · have := List.length_filter_le (fun e : Int × Reward => decide (p.index < e.1)) (run c h s).rewards
    omega
  · omega

/-- C109: from a fresh chain the bound is the user's own locks times one more than the number of changes of the
index; in particular no message of anybody else than the user and the bridge raises it. -/
theorem C109_fresh {c : Cfg} (hc : c.WF) {s : State} (hi : Initial c s) (h : History)
    (hsig : History.Signed c h) (user : Addr) (vault : Int) :
    unlockReads (run c h s) user vault ≤ locksBy c user h s * (1 + rises c h s) := by
  have := C109_reads hc (.fresh hi) h hsig user vault
  unfold allPositions at this
  rw [hi.positions, hi.rewards] at this
  simpa using this

/-- C109: the recipients an index update has to pay: the list grows by at most one per accepted message of the
authority that sets a recipient. -/
theorem C109_recipients {c : Cfg} {s : State} (h : History) :
    (run c h s).recipients.length ≤ s.recipients.length + recipientSets c h s := by
  induction h generalizing s with
  | nil => exact Nat.le_add_right _ _
  | cons x l ih =>
    obtain ⟨env, m⟩ := x
    have h2 := ih (s := step c env m s)
    have h1 : (step c env m s).recipients.length ≤ s.recipients.length + recipientSets c [(env, m)] s := by
      rcases step_cases c env m s with he | he
      · rw [he]; omega
      · have hd : outcome c env m s = .done := by unfold outcome; rw [he]
        have hs := settings_step he
        cases hs with
        | same _ e => exact (congrArg (fun z : Settings => z.recipients.length) e :).le.trans (Nat.le_add_right _ _)
        | recipients p i r e =>
          have hset := length_set_le s.recipients (p, i) r
          have h1 : recipientSets c [(env, .setYieldRecipient c.authority p i r)] s = 1 := by
            unfold recipientSets
            simp only [hd, and_self, if_true]
            rfl
          rw [h1]
          exact (congrArg (fun z : Settings => z.recipients.length) e :).le.trans hset
        | paused _ e => exact (congrArg (fun z : Settings => z.recipients.length) e :).le.trans (Nat.le_add_right _ _)
        | vPaused _ _ _ e => exact (congrArg (fun z : Settings => z.recipients.length) e :).le.trans (Nat.le_add_right _ _)
        | owner _ _ e => exact (congrArg (fun z : Settings => z.recipients.length) e :).le.trans (Nat.le_add_right _ _)
        | portalPaused _ _ e =>
          exact (congrArg (fun z : Settings => z.recipients.length) e :).le.trans (Nat.le_add_right _ _)
        | peers _ _ _ _ _ _ e =>
          exact (congrArg (fun z : Settings => z.recipients.length) e :).le.trans (Nat.le_add_right _ _)
        | paths _ _ _ _ _ e =>
          exact (congrArg (fun z : Settings => z.recipients.length) e :).le.trans (Nat.le_add_right _ _)
    have h3 : recipientSets c ((env, m) :: l) s =
        recipientSets c [(env, m)] s + recipientSets c l (step c env m s) := by
      simp only [recipientSets, Nat.add_zero]
    rw [h3]
    show (run c l (step c env m s)).recipients.length ≤ _
    omega

/-! ### Non-vacuity: Alice locks twice and Bob once; the index changes twice -/

example : locksBy Demo.cfg Demo.alice Demo.hist2 Demo.start = 2 ∧ rises Demo.cfg Demo.hist2 Demo.start = 2 := by
  decide +kernel
example : unlockReads (run Demo.cfg Demo.hist1 Demo.start) Demo.alice FLEXIBLE = 2 := by decide +kernel

end Dollar
