import Verif.Lemmas.Commute
import Verif.Spec.Independent
import Verif.Props.C07
import Verif.Props.C12
import Verif.Props.C30
import Verif.Props.C36
import Verif.Props.C52
import Verif.Props.C53
import Verif.Props.C87

/-
C92: the order in which a block contains independent transactions does not matter.
-/
set_option linter.unusedSimpArgs false
set_option maxRecDepth 100000
namespace Dollar
open MM Spec

/-- What a transaction of `a` looks at. -/
structure Alike (a : Addr) (s t : State) : Prop where
  paused : t.paused = s.paused
  index : t.index = s.index
  vPaused : t.vPaused = s.vPaused
  season : t.seasonOneEnded = s.seasonOneEnded
  portal : t.portalPaused = s.portalPaused
  peers : t.peers = s.peers
  paths : t.paths = s.paths
  bal : t.balance a = s.balance a
  prin : t.principalOf a = s.principalOf a
  pos : ∀ v w, t.positions.get? (a, v, w) = s.positions.get? (a, v, w)

theorem Alike.symm {a : Addr} {s t : State} (h : Alike a s t) : Alike a t s :=
  ⟨h.paused.symm, h.index.symm, h.vPaused.symm, h.season.symm, h.portal.symm, h.peers.symm, h.paths.symm, h.bal.symm,
    h.prin.symm, fun v w => (h.pos v w).symm⟩

theorem Alike.refl (a : Addr) (s : State) : Alike a s s :=
  ⟨rfl, rfl, rfl, rfl, rfl, rfl, rfl, rfl, rfl, fun _ _ => rfl⟩

theorem Alike.claimable {a : Addr} {s t : State} (h : Alike a s t) : claimable t a = claimable s a := by
  unfold Dollar.claimable; rw [h.prin, h.index, h.bal]

theorem adds_of_spender {c : Cfg} {m : Msg} {a : Addr} (h : spender c m = some a) : adds m = true := by
  cases m <;> first | rfl | cases h

theorem user_of_spender {c : Cfg} {m : Msg} {a : Addr} (hm : m.SignedByUser c) (h : spender c m = some a) : c.IsUser a := by
  cases m with
  | bankSend x y z => cases h; exact hm
  | bankMultiSend x y => cases h; exact hm
  | claimYield g => exact hm a h
  | lock g v x => exact hm a h
  | transfer g x ch t r => exact hm a h
  | _ => cases h

theorem effectOf_claim {c : Cfg} {env : Env} {s : State} {g : String} {a : Addr} (h : c.decode g = some a) :
    effectOf c env s (.claimYield g) = .pay c a (claimable s a) := by
  show (match c.decode g with | some a => Effect.pay c a (claimable s a) | none => {}) = _
  rw [h]

theorem effectOf_lock {c : Cfg} {env : Env} {s : State} {g : String} {a : Addr} {v x : Int} (h : c.decode g = some a) :
    effectOf c env s (.lock g v (some x)) = { Effect.send c s.index a (posAddr c g v env.time) x with
      pos := some ((a, v, env.time), ⟨roundedDown x s.index, s.index, x, env.time⟩)
      flex := if v = FLEXIBLE then roundedDown x s.index else 0 } := by
  unfold effectOf; simp only [h]

theorem effectOf_transfer {c : Cfg} {env : Env} {s : State} {g : String} {a : Addr} {x : Int} {ch : Nat}
    {t r : Bytes} (h : c.decode g = some a) :
    effectOf c env s (.transfer g (some x) ch t r) = { Effect.send c s.index a c.moduleAddr x with
      bal := (Effect.send c s.index a c.moduleAddr x).bal ++ [(c.moduleAddr, -x)]
      supply := -x
      nonce := 1 } := by
  unfold effectOf; simp only [h]

theorem effectOf_alike {c : Cfg} {env : Env} {m : Msg} {a : Addr} {s t : State} (ha : spender c m = some a)
    (h : Alike a s t) : effectOf c env t m = effectOf c env s m := by
  cases m with
  | bankSend x y z => unfold effectOf; rw [h.index]
  | bankMultiSend x y => unfold effectOf; rw [h.index]
  | claimYield g => rw [effectOf_claim ha, effectOf_claim ha, h.claimable]
  | lock g v x =>
    cases x with
    | none => rfl
    | some x => rw [effectOf_lock ha, effectOf_lock ha, h.index]
  | transfer g x ch tk r =>
    cases x with
    | none => rfl
    | some x => rw [effectOf_transfer ha, effectOf_transfer ha, h.index]
  | _ => cases ha

theorem isOk_iff {c : Cfg} {env : Env} {m : Msg} {s : State} :
    (exec c env m s).isOk = true ↔ ∃ s', exec c env m s = .ok () s' := by
  constructor
  · intro h; exact ⟨_, exec_of_isOk h⟩
  · rintro ⟨s', h⟩; rw [h]; rfl

theorem succeeds_alike {c : Cfg} (hc : c.WF) {env : Env} {m : Msg} {a : Addr} {s t : State}
    (hm : m.SignedByUser c) (ha : spender c m = some a) (hs : Reachable c s) (ht : Reachable c t) (h : Alike a s t)
    (hy : isClaim m = true → claimable t a ≤ t.balance c.yieldAddr)
    (hx : ∃ s', exec c env m s = .ok () s') : ∃ t', exec c env m t = .ok () t' := by
  have hu := user_of_spender hm ha
  cases m with
  | bankSend x y z =>
    cases ha
    rw [C53_send_iff hc env _ ht _ _ _ hu, h.bal]
    exact (C53_send_iff hc env _ hs _ _ _ hu).1 hx
  | bankMultiSend x y =>
    cases ha
    rw [C53_multi_send_iff hc env _ ht _ _ hu, h.bal]
    exact (C53_multi_send_iff hc env _ hs _ _ hu).1 hx
  | claimYield g =>
    have ha : c.decode g = some a := ha
    obtain ⟨h1, b, y, h2, h3, h4, _⟩ := (C07_claim_succeeds_iff env g ((hs.led hc).good.bal _)).1 hx
    cases ha.symm.trans h2
    refine (C07_claim_succeeds_iff env g ((ht.led hc).good.bal _)).2
      ⟨h.paused.trans h1, a, claimable t a, ha, by unfold queryYield; rw [ha]; rfl, h4, hy rfl⟩
  | lock g v x =>
    obtain ⟨s', hx⟩ := hx
    obtain ⟨amt, _, _, rfl, _⟩ := lock_sent (show lock c env g v x s = .ok () s' from hx)
    obtain ⟨b, h1, h2, h3, h4, h5, h6, h7, h8, h9⟩ :=
      (C30_lock_iff hc env g v amt s (Reachable.index_pos hc hs)).1 ⟨s', hx⟩
    cases (show c.decode g = some a from ha).symm.trans h1
    exact (C30_lock_iff hc env g v amt t (Reachable.index_pos hc ht)).2
      ⟨a, h1, h2, fun e => h.season.trans (h3 e), h.vPaused ▸ h4, h.vPaused ▸ h5, h6, h7, h.bal ▸ h8,
        (h.pos _ _).trans h9⟩
  | transfer g x ch tk r =>
    obtain ⟨h1, h2, h3, h4, h5, b, amt, h6, h7, h8, h9, h10, h11⟩ := (C52_transfer_iff hc hs env _ _ _ _ _).1 hx
    cases (show c.decode g = some a from ha).symm.trans h6
    exact (C52_transfer_iff hc ht env _ _ _ _ _).2
      ⟨h.portal.trans h1, h.peers ▸ h2, h.paths ▸ h3, h4, h5, a, amt, h6, h7, h8, h9, h10, h.bal ▸ h11⟩
  | _ => cases ha

theorem added_send {c : Cfg} (i : Int) {a b k : Addr} (x : Int) (h1 : k ≠ a) (h2 : k ≠ b) :
    added (Effect.send c i a b x).bal k = 0 ∧ added (Effect.send c i a b x).prin k = 0 := by
  unfold Effect.send added
  have h1 : ¬ a = k := fun e => h1 e.symm
  have h2 : ¬ b = k := fun e => h2 e.symm
  split
  · exact ⟨rfl, rfl⟩
  · refine ⟨by simp [h1, h2], ?_⟩
    simp only [List.map_cons, List.sum_cons, h1, if_false]
    split <;> simp [h2]

theorem added_outs {c : Cfg} (i : Int) {a k : Addr} (l : List (Addr × Int)) (h1 : k ≠ a) (h2 : k ∉ l.map Prod.fst) :
    added (Effect.outs c i a l).bal k = 0 ∧ added (Effect.outs c i a l).prin k = 0 := by
  induction l with
  | nil => exact ⟨rfl, rfl⟩
  | cons o t ih =>
    obtain ⟨b, x⟩ := o
    have h3 : ¬ b = k := fun e => h2 (by simp [e])
    obtain ⟨e1, e2⟩ := ih fun e => h2 (by simp at e ⊢; exact .inr e)
    have h1 : ¬ a = k := fun e => h1 e.symm
    unfold added at e1 e2 ⊢
    unfold Effect.outs
    refine ⟨by simp [h3, e1], ?_⟩
    rw [List.map_append, List.sum_append, e2]
    simp only [List.map_cons, List.sum_cons, h1, if_false]
    split <;> simp [h3]

/-- A message leaves alone what is neither its spender, nor paid, nor an account of the module. -/
theorem added_other {c : Cfg} {env : Env} {s : State} {m : Msg} {a k : Addr} (ha : spender c m = some a)
    (h1 : k ≠ a) (h2 : k ∉ payees m) (hm : k ≠ c.moduleAddr) (hp : ∀ g v t, c.decode g = some a → k ≠ posAddr c g v t)
    (hy : k = c.yieldAddr → isClaim m = false) :
    added (effectOf c env s m).bal k = 0 ∧ added (effectOf c env s m).prin k = 0 := by
  cases m with
  | bankSend x y z =>
    cases ha
    exact added_send _ _ h1 fun e => h2 (by simp [payees, e])
  | bankMultiSend x y =>
    cases ha
    obtain ⟨e1, e2⟩ := added_outs (c := c) s.index y h1 h2
    refine ⟨?_, e2⟩
    unfold effectOf
    unfold added at e1 ⊢
    simp only [List.map_cons, List.sum_cons, e1, if_neg fun e : a = k => h1 e.symm]
    rfl
  | claimYield g =>
    have hk : ¬ c.yieldAddr = k := fun e => by cases hy e.symm
    have h1 : ¬ a = k := fun e => h1 e.symm
    rw [effectOf_claim ha]
    unfold Effect.pay
    split
    · exact ⟨rfl, rfl⟩
    · simp [added, hk, h1]
  | lock g v x =>
    cases x with
    | none => exact ⟨rfl, rfl⟩
    | some x =>
      rw [effectOf_lock ha]
      exact added_send _ _ h1 (hp g v env.time ha)
  | transfer g x ch t r =>
    cases x with
    | none => exact ⟨rfl, rfl⟩
    | some x =>
      rw [effectOf_transfer ha]
      obtain ⟨e1, e2⟩ := added_send (c := c) s.index x h1 hm
      refine ⟨?_, e2⟩
      simp only
      unfold added at e1 ⊢
      rw [List.map_append, List.sum_append, e1]
      have hm : ¬ c.moduleAddr = k := fun e => hm e.symm
      simp [hm]
  | _ => cases ha

theorem pos_effectOf {c : Cfg} {env : Env} {s : State} {m : Msg} {a : Addr} (ha : spender c m = some a)
    {kv : (Addr × Int × Int) × Position} (h : (effectOf c env s m).pos = some kv) : kv.1.1 = a := by
  have plain : ∀ i b d x, (Effect.send c i b d x).pos = none := fun i b d x => (Effect.send_plain c i b d x).2.1
  cases m with
  | bankSend x y z => exact absurd h (by unfold effectOf; rw [plain]; simp)
  | bankMultiSend x y => exact absurd h (by unfold effectOf; simp only; rw [(Effect.outs_plain c _ _ _).2.1]; simp)
  | claimYield g =>
    rw [effectOf_claim ha] at h
    unfold Effect.pay at h
    split at h <;> cases h
  | lock g v x =>
    cases x with
    | none => cases h
    | some x =>
      rw [effectOf_lock ha] at h
      cases h
      rfl
  | transfer g x ch t r =>
    cases x with
    | none => cases h
    | some x =>
      rw [effectOf_transfer ha] at h
      simp only at h
      rw [plain] at h
      cases h
  | _ => cases ha

theorem step_failed {c : Cfg} {env : Env} {m : Msg} {s : State} (h : (exec c env m s).isOk ≠ true) :
    step c env m s = s := by
  unfold step runTx
  cases hr : exec c env m s with
  | ok u s' => rw [hr] at h; exact absurd rfl h
  | err e s' => rfl
  | panic => rfl

theorem balance_on {e : Effect} {s t : State} (h : unrecorded t = e.on (unrecorded s)) (a : Addr) :
    t.balance a = s.balance a + added e.bal a := by
  have : t.bal = bumps s.bal e.bal := (congrArg State.bal h :)
  unfold State.balance; rw [this]; exact bumps_getD _ _ _

theorem principalOf_on {e : Effect} {s t : State} (h : unrecorded t = e.on (unrecorded s)) (a : Addr) :
    t.principalOf a = s.principalOf a + added e.prin a := by
  have : t.principal = bumps s.principal e.prin := (congrArg State.principal h :)
  unfold State.principalOf; rw [this]; exact bumps_getD _ _ _

theorem alike_step {c : Cfg} (hc : c.WF) (env : Env) {m : Msg} {a b : Addr} {s : State} (hm : m.SignedByUser c)
    (ha : spender c m = some a) (hb : c.IsUser b) (hne : b ≠ a) (hp : b ∉ payees m) : Alike b s (step c env m s) := by
  by_cases hx : (exec c env m s).isOk = true
  swap
  · rw [step_failed hx]; exact .refl b s
  have e := exec_on hm (adds_of_spender ha) (exec_of_isOk hx)
  obtain ⟨e1, e2⟩ := added_other (env := env) (s := s) ha hne hp hb.ne_module
    (fun g v t hg => by rw [posAddr_eq hc hg]; exact hb.ne_acct _ _ _)
    fun h => absurd h hb.ne_yield
  refine ⟨(congrArg State.paused e :), (congrArg State.index e :), (congrArg State.vPaused e :),
    (congrArg State.seasonOneEnded e :), (congrArg State.portalPaused e :), (congrArg State.peers e :),
    (congrArg State.paths e :), ?_, ?_, fun v w => ?_⟩
  · rw [balance_on e, e1, add_zero]
  · rw [principalOf_on e, e2, add_zero]
  · have h : (step c env m s).positions = (effectOf c env s m).posAfter s.positions := (congrArg State.positions e :)
    rw [h]
    unfold Effect.posAfter
    cases hq : (effectOf c env s m).pos with
    | none => rfl
    | some kv =>
      have hk := pos_effectOf ha hq
      exact KV.get?_set_ne _ _ fun h => hne (by rw [← hk]; exact (congrArg Prod.fst h :))

/-- Only claims touch the yield. -/
theorem yield_step {c : Cfg} (hc : c.WF) (env : Env) {m : Msg} {a : Addr} {s : State} (hs : Reachable c s)
    (hm : m.SignedByUser c) (ha : spender c m = some a) (hn : isClaim m = false) :
    (step c env m s).balance c.yieldAddr = s.balance c.yieldAddr := by
  by_cases hx : (exec c env m s).isOk = true
  swap
  · rw [step_failed hx]
  have hu := user_of_spender hm ha
  have e := exec_on hm (adds_of_spender ha) (exec_of_isOk hx)
  have hp : c.yieldAddr ∉ payees m := by
    cases m with
    | bankSend x y z =>
      have := ((C53_send_iff hc env _ hs _ _ _ (show c.IsUser x from hm)).1 (isOk_iff.1 hx)).2.2.2
      intro h
      exact this (List.mem_singleton.1 h).symm
    | bankMultiSend x y =>
      have := ((C53_multi_send_iff hc env _ hs _ _ (show c.IsUser x from hm)).1 (isOk_iff.1 hx)).2.1
      intro h
      obtain ⟨o, h1, h2⟩ := List.mem_map.1 h
      exact (this o h1).2.2 h2
    | _ => exact List.not_mem_nil
  obtain ⟨e1, e2⟩ := added_other (k := c.yieldAddr) (env := env) (s := s) ha hu.ne_yield.symm hp hc.yield_ne_module
    (fun g v t hg => by rw [posAddr_eq hc hg]; exact (acctOf_ne_yield hc _ _ _).symm) fun _ => hn
  rw [balance_on e, e1, add_zero]

theorem yield_claimed {c : Cfg} (env : Env) {g : String} {a : Addr} {s : State} (hu : c.IsUser a)
    (ha : c.decode g = some a) (hx : (exec c env (.claimYield g) s).isOk = true) :
    (step c env (.claimYield g) s).balance c.yieldAddr = s.balance c.yieldAddr - claimable s a := by
  have e := exec_on (m := .claimYield g) (fun b hb => by cases ha.symm.trans hb; exact hu) rfl (exec_of_isOk hx)
  rw [balance_on e, effectOf_claim ha]
  unfold Effect.pay added
  split
  · next h => rw [h]; simp
  · simp [hu.ne_yield]; omega

theorem claimable_nonneg' (s : State) (a : Addr) : 0 ≤ claimable s a := by
  unfold claimable; simp only; split <;> omega

theorem yield_le {c : Cfg} (hc : c.WF) (env : Env) {m : Msg} {a : Addr} {s : State} (hs : Reachable c s)
    (hm : m.SignedByUser c) (ha : spender c m = some a) :
    (step c env m s).balance c.yieldAddr ≤ s.balance c.yieldAddr := by
  by_cases hn : isClaim m = false
  · exact (yield_step hc env hs hm ha hn).le
  by_cases hx : (exec c env m s).isOk = true
  swap
  · rw [step_failed hx]
  cases m with
  | claimYield g =>
    have := claimable_nonneg' s a
    rw [yield_claimed env (user_of_spender hm ha) ha hx]
    omega
  | _ => exact absurd rfl hn

theorem covered_of_claim {c : Cfg} (hc : c.WF) {env : Env} {m : Msg} {a : Addr} {s : State} (hs : Reachable c s)
    (ha : spender c m = some a) (hn : isClaim m = true) (hx : (exec c env m s).isOk = true) :
    claimable s a ≤ s.balance c.yieldAddr := by
  cases m with
  | claimYield g =>
    have ha : c.decode g = some a := ha
    obtain ⟨h1, b, y, h2, h3, h4, h5⟩ :=
      (C07_claim_succeeds_iff env g ((hs.led hc).good.bal _)).1 (isOk_iff.1 hx)
    cases ha.symm.trans h2
    unfold queryYield at h3
    rw [ha] at h3
    cases h3
    exact h5
  | _ => cases hn

/-- C92, two transactions: of two independent transactions, each succeeds or fails alike, whichever comes first,
and afterwards every balance, principal, position, setting and total is the same.  Two claims compete
for the same yield: for them it is assumed that both succeed. -/
theorem C92_pair {c : Cfg} (hc : c.WF) {s : State} (hs : Reachable c s) {env env' : Env} {m m' : Msg}
    (hm : m.SignedByUser c) (hm' : m'.SignedByUser c) (hi : Independent c m m')
    (hy : isClaim m = true → isClaim m' = true →
      (exec c env m s).isOk = true ∧ (exec c env' m' (step c env m s)).isOk = true) :
    (exec c env' m' (step c env m s)).isOk = (exec c env' m' s).isOk ∧
    (exec c env m (step c env' m' s)).isOk = (exec c env m s).isOk ∧
    unrecorded (step c env' m' (step c env m s)) = unrecorded (step c env m (step c env' m' s)) := by
  obtain ⟨a, a', ha, ha', hne, hp', hp⟩ := hi
  have hu := user_of_spender hm ha
  have hu' := user_of_spender hm' ha'
  have hs1 : Reachable c (step c env m s) := .step hs hm
  have hs2 : Reachable c (step c env' m' s) := .step hs hm'
  have al' := alike_step hc env (s := s) hm ha hu' hne.symm hp
  have al := alike_step hc env' (s := s) hm' ha' hu hne hp'
  have k1 : (exec c env' m' (step c env m s)).isOk = true ↔ (exec c env' m' s).isOk = true := by
    constructor
    · intro hx
      refine isOk_iff.2 (succeeds_alike hc hm' ha' hs1 hs al'.symm (fun hn => ?_) (isOk_iff.1 hx))
      have h1 := covered_of_claim hc hs1 ha' hn hx
      have h2 := yield_le hc env hs hm ha
      rw [al'.claimable] at h1
      omega
    · intro hx
      by_cases hn : isClaim m = true ∧ isClaim m' = true
      · exact (hy hn.1 hn.2).2
      refine isOk_iff.2 (succeeds_alike hc hm' ha' hs hs1 al' (fun h => ?_) (isOk_iff.1 hx))
      rw [al'.claimable, yield_step hc env hs hm ha (by simpa [h] using hn)]
      exact covered_of_claim hc hs ha' h hx
  have k2 : (exec c env m (step c env' m' s)).isOk = true ↔ (exec c env m s).isOk = true := by
    constructor
    · intro hx
      refine isOk_iff.2 (succeeds_alike hc hm ha hs2 hs al.symm (fun hn => ?_) (isOk_iff.1 hx))
      have h1 := covered_of_claim hc hs2 ha hn hx
      have h2 := yield_le hc env' hs hm' ha'
      rw [al.claimable] at h1
      omega
    · intro hx
      refine isOk_iff.2 (succeeds_alike hc hm ha hs hs2 al (fun h => ?_) (isOk_iff.1 hx))
      rw [al.claimable]
      by_cases hn : isClaim m' = true
      · have h1 := (hy h hn).2
        have h2 := covered_of_claim hc hs1 ha' hn h1
        have h3 := k1.1 h1
        cases m with
        | claimYield g =>
          cases m' with
          | claimYield g' =>
            rw [yield_claimed env hu ha hx, al'.claimable] at h2
            rw [yield_claimed env' hu' ha' h3]
            omega
          | _ => cases hn
        | _ => cases h
      · rw [yield_step hc env' hs hm' ha' (by simpa using hn)]
        exact covered_of_claim hc hs ha h hx
  refine ⟨Bool.eq_iff_iff.2 k1, Bool.eq_iff_iff.2 k2, ?_⟩
  by_cases h1 : (exec c env m s).isOk = true
  · have e1 := exec_on hm (adds_of_spender ha) (exec_of_isOk h1)
    by_cases h2 : (exec c env' m' s).isOk = true
    · have e2 := exec_on hm' (adds_of_spender ha') (exec_of_isOk h2)
      have e12 := exec_on hm' (adds_of_spender ha') (exec_of_isOk (k1.2 h2))
      have e21 := exec_on hm (adds_of_spender ha) (exec_of_isOk (k2.2 h1))
      rw [e12, e21, e1, e2, effectOf_alike ha' al', effectOf_alike ha al]
      have sh := hs.shape
      refine Effect.comm sh.bal sh.principal sh.positions fun p q h3 h4 h5 => hne ?_
      rw [← pos_effectOf ha h3, ← pos_effectOf ha' h4, h5]
    · rw [step_failed h2, step_failed fun h => h2 (k1.1 h)]
  · rw [step_failed h1, step_failed fun h => h1 (k2.1 h)]

theorem Spec.Independent.symm {c : Cfg} {m m' : Msg} (h : Independent c m m') : Independent c m' m := by
  obtain ⟨a, a', h1, h2, h3, h4, h5⟩ := h
  exact ⟨a', a, h2, h1, h3.symm, h5, h4⟩

theorem results_congr {c : Cfg} (l : History) {s t : State} (h : unrecorded s = unrecorded t) :
    results c l s = results c l t := by
  induction l generalizing s t with
  | nil => rfl
  | cons e l ih =>
    obtain ⟨h1, h2⟩ := C87_records_do_not_matter c e.1 e.2 h
    have h3 : (exec c e.1 e.2 s).isOk = (exec c e.1 e.2 t).isOk := by
      unfold outcome at h1
      cases hx : exec c e.1 e.2 s <;> cases hz : exec c e.1 e.2 t <;> rw [hx, hz] at h1 <;>
        first | rfl | cases h1
    unfold results
    rw [h3, ih h2]

/-- C92: in a block of independent transactions, in which no claim fails, the order does not matter.  Whatever order the
block has them in, the same transactions succeed, and afterwards every balance, principal, position,
setting and total is the same. -/
theorem C92_order {c : Cfg} (hc : c.WF) {s : State} (hs : Reachable c s) {h h' : History} (hp : h.Perm h')
    (hsig : History.Signed c h) (hi : h.Pairwise fun e f => Independent c e.2 f.2)
    (hy : ∀ r ∈ results c h s, isClaim r.1.2 = true → r.2 = true) :
    (results c h s).Perm (results c h' s) ∧ unrecorded (run c h s) = unrecorded (run c h' s) := by
  induction hp generalizing s with
  | nil => exact ⟨.nil, rfl⟩
  | cons e _ ih =>
    obtain ⟨i1, i2⟩ := ih (.step hs (env := e.1) (hsig e List.mem_cons_self)) (fun f hf => hsig f (List.mem_cons_of_mem _ hf))
      (List.pairwise_cons.1 hi).2 fun r hr => hy r (List.mem_cons_of_mem _ hr)
    exact ⟨i1.cons _, i2⟩
  | swap f e l =>
    have hf := List.mem_cons_of_mem e (List.mem_cons_self (a := f) (l := l))
    have he : Independent c e.2 f.2 := (List.pairwise_cons.1 hi).1 f List.mem_cons_self
    obtain ⟨k1, k2, k3⟩ := C92_pair hc hs (env := e.1) (env' := f.1) (hsig e List.mem_cons_self) (hsig f hf) he fun n1 n2 =>
      ⟨hy (e, _) List.mem_cons_self n1, hy (f, _) (List.mem_cons_of_mem _ List.mem_cons_self) n2⟩
    refine ⟨?_, C87_histories c l k3⟩
    unfold results
    unfold results
    rw [k1, k2, results_congr l k3]
    exact .swap _ _ _
  | trans h1 h2 ih1 ih2 =>
    obtain ⟨i1, i2⟩ := ih1 hs hsig hi hy
    obtain ⟨j1, j2⟩ := ih2 hs (fun e he => hsig e (h1.mem_iff.2 he))
      ((h1.pairwise_iff fun {_ _} h => Spec.Independent.symm h).1 hi) fun r hr => hy r (i1.mem_iff.2 hr)
    exact ⟨i1.trans j1, i2.trans j2⟩

namespace Demo

/-- A claim, two payments that pay the same account, one of which fails for lack of funds. -/
def block : History :=
  [(env 8, .claimYield aliceS), (env 8, .bankMultiSend bob [(2 :: [7], 500), (2 :: [8], 40)]),
   (env 8, .bankSend collector (2 :: [7]) 1000000000)]

theorem block_signed : History.Signed cfg block := by
  intro e he
  simp only [block, List.mem_cons, List.not_mem_nil, or_false] at he
  rcases he with rfl | rfl | rfl
  · exact aliceS_user
  · exact bob_user
  · exact user _

theorem block_independent : block.Pairwise fun e f => Independent cfg e.2 f.2 := by
  have h : cfg.decode aliceS = some alice := by decide +kernel
  simp only [block, List.pairwise_cons, List.mem_cons, List.not_mem_nil, or_false]
  refine ⟨?_, ?_, ?_, .nil⟩
  · rintro f (rfl | rfl)
    · exact ⟨alice, bob, h, rfl, by decide +kernel, by decide +kernel, by decide +kernel⟩
    · exact ⟨alice, collector, h, rfl, by decide +kernel, by decide +kernel, by decide +kernel⟩
  · rintro f rfl
    exact ⟨bob, collector, rfl, rfl, by decide +kernel, by decide +kernel, by decide +kernel⟩
  · exact fun _ h => h.elim

theorem block_results (s : State) (h : (results cfg block s).map Prod.snd = [true, true, false]) :
    ∀ r ∈ results cfg block s, isClaim r.1.2 = true → r.2 = true := by
  simp only [block, results, List.map_cons, List.map_nil, List.cons.injEq, and_true] at h
  intro r hr hn
  simp only [block, results, List.mem_cons, List.not_mem_nil, or_false] at hr
  rcases hr with rfl | rfl | rfl
  · exact h.1
  · cases hn
  · cases hn

end Demo

/-- Non-vacuity: the block above in reverse order on a chain after an announcement.  The claim and the payments to two
accounts succeed, the third transaction fails, in both orders. -/
example :
    let s := run Demo.cfg Demo.hist1 Demo.start
    (results Demo.cfg Demo.block s).map Prod.snd = [true, true, false] ∧
    (results Demo.cfg Demo.block s).Perm (results Demo.cfg Demo.block.reverse s) ∧
    unrecorded (run Demo.cfg Demo.block s) = unrecorded (run Demo.cfg Demo.block.reverse s) ∧
    (run Demo.cfg Demo.block s).bal ≠ s.bal := by
  have h : (results Demo.cfg Demo.block (run Demo.cfg Demo.hist1 Demo.start)).map Prod.snd = [true, true, false] := by
    decide +kernel
  obtain ⟨h1, h2⟩ := C92_order Demo.cfg_wf Demo.reach1 (List.reverse_perm Demo.block).symm Demo.block_signed
    Demo.block_independent (Demo.block_results _ h)
  exact ⟨h, h1, h2, by decide +kernel⟩

/-- The assumption is needed: when one transaction pays the account that makes the other, the order decides
whether the other succeeds. -/
example :
    let s := run Demo.cfg Demo.hist1 Demo.start
    let pay : Env × Msg := (Demo.env 8, .bankSend Demo.bob (2 :: [7]) 10)
    let spend : Env × Msg := (Demo.env 8, .bankSend (2 :: [7]) Demo.bob 3)
    (results Demo.cfg [pay, spend] s).map Prod.snd = [true, true] ∧
    (results Demo.cfg [spend, pay] s).map Prod.snd = [false, true] := by
  decide +kernel

end Dollar
