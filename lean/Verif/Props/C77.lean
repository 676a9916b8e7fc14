import Verif.Props.C24
import Verif.Props.C52
import Verif.Props.C58
import Verif.Props.C72
import Verif.Lemmas.Settings

/-
C77: while the portal is open a user can take everything out: the stake first, then the balance.
-/
set_option maxRecDepth 100000
namespace Dollar
open MM Spec

/-- The portal lets a user send to `recipient` as `token` on `chain`. -/
structure Spec.PortalOpen (s : State) (chain : Nat) (token recipient : Bytes) : Prop where
  notPaused : s.portalPaused = false
  peer : ∃ p, s.peers.get? chain = some p
  path : ∃ b, s.paths.get? (chain, token) = some b
  length : recipient.length = 32

/-- The most a single portal transfer can move. -/
def Spec.maxTransfer : Int := 2 ^ 63 - 1

theorem Spec.PortalOpen.of_settings {s s' : State} {chain : Nat} {token recipient : Bytes}
    (h : PortalOpen s chain token recipient) (e : settings s' = settings s) : PortalOpen s' chain token recipient := by
  have e1 : s'.portalPaused = s.portalPaused := congrArg Settings.portalPaused e
  have e2 : s'.peers = s.peers := congrArg Settings.peers e
  have e3 : s'.paths = s.paths := congrArg Settings.paths e
  exact ⟨by rw [e1]; exact h.notPaused, by rw [e2]; exact h.peer, by rw [e3]; exact h.path, h.length⟩

theorem allSucceed_cons {c : Cfg} {env : Env} {m : Msg} {t : List (Env × Msg)} {s s' : State}
    (h : exec c env m s = .ok () s') (ht : allSucceed c t s') : allSucceed c ((env, m) :: t) s := by
  intro pre env' m' post e
  cases pre with
  | nil =>
    rw [List.nil_append] at e
    cases e
    rw [run, h]; rfl
  | cons q pre =>
    rw [List.cons_append] at e
    cases e
    rw [run, step_of_exec h]
    exact ht pre env' m' post rfl

/-- C77: a balance can be bridged out in any portions, each below 2^63, whatever the other modules answer as long
as Wormhole accepts the messages; nobody else's balance and no position changes. -/
theorem C77_any_portions {c : Cfg} (hc : c.WF) {s : State} (hr : Reachable c s) (signer : String) (a : Addr)
    (hd : c.decode signer = some a) (hu : c.IsUser a) (hl : a.length ≤ 32) (chain : Nat) (token recipient : Bytes)
    (ho : PortalOpen s chain token recipient) (amounts : List Int) (hx : ∀ x ∈ amounts, 0 ≤ x ∧ x < 2 ^ 63)
    (hs : amounts.sum ≤ s.balance a) (envs : List Env) (hn : envs.length = amounts.length)
    (he : ∀ e ∈ envs, e.postOk = true) :
    let h : History := envs.zip (amounts.map fun x => .transfer signer (some x) chain token recipient)
    allSucceed c h s ∧ (run c h s).balance a = s.balance a - amounts.sum ∧
      (run c h s).supply = s.supply - amounts.sum ∧
      (∀ x, x ≠ a → (run c h s).balance x = s.balance x) ∧ (run c h s).positions = s.positions := by
  induction amounts generalizing s envs with
  | nil =>
    have : envs = [] := List.eq_nil_of_length_eq_zero hn
    subst this
    refine ⟨fun pre env m post e => ?_, ?_, ?_, fun x _ => rfl, rfl⟩
    · cases pre <;> cases e
    · show s.balance a = _
      rw [List.sum_nil]; omega
    · show s.supply = _
      rw [List.sum_nil]; omega
  | cons x t ih =>
    cases envs with
    | nil => cases hn
    | cons env es =>
    have hx0 := hx x List.mem_cons_self
    have ht0 : 0 ≤ t.sum := List.sum_nonneg fun y hy => (hx y (List.mem_cons_of_mem _ hy)).1
    rw [List.sum_cons] at hs
    obtain ⟨s', hok⟩ := (C52_transfer_iff hc hr env signer (some x) chain token recipient).2
      ⟨ho.notPaused, ho.peer, ho.path, ho.length, he env List.mem_cons_self, a, x, hd, hl, rfl, hx0.1, hx0.2,
        by omega⟩
    obtain ⟨amt, e1, ht⟩ := transfer_ok
      (show transfer c env signer (some x) chain token recipient s = .ok () s' from hok)
    cases e1
    have hdid := ht.did hd
    have hst := step_of_exec hok
    have hr' : Reachable c s' := by
      rw [← hst]
      refine hr.step (m := .transfer signer (some x) chain token recipient) fun b hb => ?_
      rw [hd] at hb; cases hb; exact hu
    have hba : s'.balance a = s.balance a - x := by rw [hdid.bal, if_pos rfl]
    obtain ⟨i1, i2, i3, i4, i5⟩ := ih hr' (ho.of_settings hdid.settings)
      (fun y hy => hx y (List.mem_cons_of_mem _ hy)) (by omega) es (by simpa using hn)
      (fun e h => he e (List.mem_cons_of_mem _ h))
    show allSucceed c ((env, .transfer signer (some x) chain token recipient) :: _) s ∧ _
    refine ⟨allSucceed_cons hok i1, ?_⟩
    have hrun : run c ((env :: es).zip
        ((x :: t).map fun x => Msg.transfer signer (some x) chain token recipient)) s =
        run c (es.zip (t.map fun x => Msg.transfer signer (some x) chain token recipient)) s' := by
      rw [← hst]; rfl
    rw [hrun, List.sum_cons]
    refine ⟨by rw [i2, hba]; omega, by rw [i3, hdid.supply]; omega, fun y hy => ?_, ?_⟩
    · rw [i4 y hy, hdid.bal, if_neg hy]; omega
    · rw [i5]
      exact (congrArg State.positions hdid.core :)

/-- An amount in portions of at most 2^63 - 1. -/
def Spec.portions (x : Int) : List Int :=
  List.replicate (x / maxTransfer).toNat maxTransfer ++ [x % maxTransfer]

theorem portions_ok (x : Int) (hx : 0 ≤ x) :
    (portions x).sum = x ∧ (∀ y ∈ portions x, 0 ≤ y ∧ y < 2 ^ 63) ∧
      ((portions x).length : Int) = x / maxTransfer + 1 := by
  have hm : (0 : Int) < maxTransfer := by unfold maxTransfer; decide
  have hq := Int.ediv_nonneg hx hm.le
  unfold portions
  refine ⟨?_, ?_, ?_⟩
  · rw [List.sum_append, List.sum_replicate, List.sum_singleton, nsmul_eq_mul]
    rw [Int.toNat_of_nonneg hq, mul_comm]
    exact Int.mul_ediv_add_emod x maxTransfer
  · intro y hy
    rcases List.mem_append.1 hy with h | h
    · rw [List.eq_of_mem_replicate h]; unfold maxTransfer; decide
    · rw [List.mem_singleton.1 h]
      have h1 := Int.emod_nonneg x hm.ne'
      have h2 := Int.emod_lt_of_pos x hm
      refine ⟨h1, ?_⟩
      unfold maxTransfer at *
      omega
  · rw [List.length_append, List.length_replicate, List.length_singleton]
    push_cast
    omega

/-- The messages of a user who takes everything out: unlock the stake, if there is one, then bridge the
balance out. -/
def Spec.exitPlan (s : State) (signer : String) (a : Addr) (chain : Nat) (token recipient : Bytes) : List Msg :=
  (if 0 < lockedBy s a 1 then [.unlock signer 1 (some (lockedBy s a 1))] else []) ++
    (portions (s.balance a + lockedBy s a 1)).map fun x => .transfer signer (some x) chain token recipient

/-- C77: while the portal is open and unlocking is not paused, a user can take everything out: the whole stake
and the whole balance are bridged to another chain, in two messages unless the sum exceeds 2^63 - 1, and nobody
else loses anything but the staked vault its stake. -/
theorem C77_exit {c : Cfg} (hc : c.WF) {s : State} (hr : Reachable c s) (signer : String) (a : Addr)
    (hd : c.decode signer = some a) (hu : c.IsUser a) (hl : a.length ≤ 32) (chain : Nat) (token recipient : Bytes)
    (ho : PortalOpen s chain token recipient) (hv : s.vPaused ≠ 2 ∧ s.vPaused ≠ 3) (envs : List Env)
    (hn : envs.length = (exitPlan s signer a chain token recipient).length) (he : ∀ e ∈ envs, e.postOk = true) :
    let h : History := envs.zip (exitPlan s signer a chain token recipient)
    allSucceed c h s ∧ (run c h s).balance a = 0 ∧ lockedBy (run c h s) a 1 = 0 ∧
      (run c h s).supply = s.supply - (s.balance a + lockedBy s a 1) ∧
      (∀ x, x ≠ a → x ≠ c.modAddr "dollar/vaults/staked" → (run c h s).balance x = s.balance x) ∧
      (∀ x, x ≠ a → lockedBy (run c h s) x 1 = lockedBy s x 1) ∧
      (h.length : Int) ≤ 2 + (s.balance a + lockedBy s a 1) / maxTransfer := by
  have hpos : 0 ≤ lockedBy s a 1 := by
    unfold lockedBy
    refine List.sum_nonneg fun y hy => ?_
    obtain ⟨e, he, rfl⟩ := List.mem_map.1 hy
    split
    · exact ((hr.vinv hc).toV0.entry e he).amount
    · exact le_refl _
  have hb0 : 0 ≤ s.balance a := (hr.led hc).good.bal a
  obtain ⟨q1, q2, q3⟩ := portions_ok (s.balance a + lockedBy s a 1) (by omega)
  have hq0 : 0 ≤ (s.balance a + lockedBy s a 1) / maxTransfer := by
    refine Int.ediv_nonneg (by omega) ?_
    unfold maxTransfer; decide
  dsimp only
  unfold exitPlan at hn ⊢
  by_cases hp : 0 < lockedBy s a 1
  · rw [if_pos hp] at hn ⊢
    cases envs with
    | nil => simp at hn
    | cons env es =>
    obtain ⟨s', hok⟩ := C24_staked_withdrawable hc env s hr signer a hd hu hv hp
    have hsig : (Msg.unlock signer 1 (some (lockedBy s a 1))).SignedByUser c := by
      intro b hb
      rw [hd] at hb; cases hb; exact hu
    obtain ⟨b1, b2, b3, b4, b5, b6, b7, b8⟩ := C25_staked_unlock_effect hc env s s' hr signer a _ hd hu hok
    have hqt := (exec_quiet hc (hr.led hc) hsig rfl hok).2
    have hst := step_of_exec hok
    have hr' : Reachable c s' := by rw [← hst]; exact hr.step hsig
    have hset : settings s' = settings s := by
      cases settings_step hok
      assumption
    have hn' : es.length = (portions (s.balance a + lockedBy s a 1)).length := by
      simpa using hn
    obtain ⟨i1, i2, i3, i4, i5⟩ := C77_any_portions hc hr' signer a hd hu hl chain token recipient
      (ho.of_settings hset) _ q2 (by omega) es hn' (fun e h => he e (List.mem_cons_of_mem _ h))
    have hrun : run c ((env :: es).zip ([Msg.unlock signer 1 (some (lockedBy s a 1))] ++
        (portions (s.balance a + lockedBy s a 1)).map
          fun x => Msg.transfer signer (some x) chain token recipient)) s =
        run c (es.zip ((portions (s.balance a + lockedBy s a 1)).map
          fun x => Msg.transfer signer (some x) chain token recipient)) s' := by
      rw [← hst]; rfl
    have hoth : ∀ x, x ≠ a → lockedBy s' x 1 = lockedBy s x 1 := by
      intro x hx
      rw [exec_lockedBy hc hr hsig hok, lockChange, if_neg]
      · omega
      · rintro ⟨h1, _⟩
        rw [hd] at h1; cases h1; exact hx rfl
    rw [hrun]
    refine ⟨allSucceed_cons hok i1, by omega, ?_, ?_, ?_, ?_, ?_⟩
    · rw [lockedBy_congr i5]; omega
    · rw [i3, hqt.supply, q1]
    · intro x h1 h2
      rw [i4 x h1, b3 x h1 h2]
    · intro x h1
      rw [lockedBy_congr i5, hoth x h1]
    · rw [List.length_zip]
      simp only [List.length_append, List.length_map, List.length_cons, List.length_nil]
      omega
  · rw [if_neg hp, List.nil_append] at hn ⊢
    have h0 : lockedBy s a 1 = 0 := by omega
    obtain ⟨i1, i2, i3, i4, i5⟩ := C77_any_portions hc hr signer a hd hu hl chain token recipient
      ho _ q2 (by omega) envs (by simpa using hn) he
    refine ⟨i1, by omega, ?_, by rw [i3, q1], fun x h1 _ => i4 x h1, fun x _ => lockedBy_congr i5 x 1, ?_⟩
    · rw [lockedBy_congr i5]; omega
    · rw [List.length_zip, List.length_map]
      omega

/-- Alice, who holds a stake and a balance, leaves with two messages. -/
example : let s := run Demo.cfg Demo.hist3 Demo.start
    let plan := exitPlan s Demo.aliceS Demo.alice 2 (List.replicate 32 8) (List.replicate 32 1)
    let h : History := [Demo.env 14, Demo.env 15].zip plan
    plan.length = 2 ∧ lockedBy s Demo.alice 1 = 4000000 ∧ 0 < s.balance Demo.alice ∧
      allSucceed Demo.cfg h s ∧ (run Demo.cfg h s).balance Demo.alice = 0 ∧
      (run Demo.cfg h s).supply = s.supply - (s.balance Demo.alice + 4000000) := by
  have hs : lockedBy (run Demo.cfg Demo.hist3 Demo.start) Demo.alice 1 = 4000000 := by decide +kernel
  have h := C77_exit Demo.cfg_wf Demo.reach3 Demo.aliceS Demo.alice (by decide +kernel) Demo.alice_user
    (by decide +kernel) 2 (List.replicate 32 8) (List.replicate 32 1)
    ⟨by decide +kernel, Option.isSome_iff_exists.1 (by decide +kernel),
      Option.isSome_iff_exists.1 (by decide +kernel), by decide⟩ (by decide +kernel)
    [Demo.env 14, Demo.env 15] (by decide +kernel) (by decide +kernel)
  rw [hs] at h
  exact ⟨by decide +kernel, hs, by decide +kernel, h.1, h.2.1, h.2.2.2.1⟩

end Dollar
