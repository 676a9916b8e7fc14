import Verif.Props.C55
import Verif.Props.C24
import Verif.Model.Queries

/-
C58: the positions a user is shown are the user's accepted locks minus the accepted unlocks.
-/
set_option maxRecDepth 100000
namespace Dollar
open MM Spec

/-- What an accepted message adds to the amount a user has locked in a vault. -/
def Spec.lockChange (c : Cfg) (user : Addr) (vault : Int) : Msg → Int
  | .lock signer v (some amount) => if c.decode signer = some user ∧ v = vault then amount else 0
  | .unlock signer v (some amount) => if c.decode signer = some user ∧ v = vault then - amount else 0
  | _ => 0

/-- Accepted locks minus accepted unlocks of a user in a vault, over a history. -/
def Spec.netLocked (c : Cfg) (user : Addr) (vault : Int) : History → State → Int
  | [], _ => 0
  | (env, m) :: rest, s =>
    (if (exec c env m s).isOk then lockChange c user vault m else 0) +
      netLocked c user vault rest (Dollar.step c env m s)

/-- Total of the amounts that the query for the positions of a user lists for a vault. -/
def Spec.listed (l : List PosEntry) (vault : Int) : Int :=
  (l.map fun p => if p.vault = vault then p.amount else 0).sum

theorem lockedBy_eq_sum (s : State) (a : Addr) (v : Int) :
    lockedBy s a v = KV.sum s.positions fun k p => if k.1 = a ∧ k.2.1 = v then p.amount else 0 := rfl

theorem lockedBy_congr {s s' : State} (h : s'.positions = s.positions) (a : Addr) (v : Int) :
    lockedBy s' a v = lockedBy s a v := by unfold lockedBy; rw [h]

theorem withdraw_other {u a : Addr} {w v : Int} (h : ¬ (a = u ∧ v = w)) (l : KV (Addr × Int × Int) Position)
    (x : Int) :
    ((withdraw u w x l).map fun e => if e.1.1 = a ∧ e.1.2.1 = v then e.2.amount else 0).sum =
      (l.map fun e => if e.1.1 = a ∧ e.1.2.1 = v then e.2.amount else 0).sum := by
  induction l generalizing x with
  | nil => rfl
  | cons e t ih =>
    unfold withdraw
    by_cases hc : e.1.1 = u ∧ e.1.2.1 = w ∧ 0 < x
    · have hn : ¬ (e.1.1 = a ∧ e.1.2.1 = v) := fun k => h ⟨k.1.symm.trans hc.1, k.2.symm.trans hc.2.1⟩
      rw [if_pos hc]
      split
      · rw [ih, List.map_cons, List.sum_cons, if_neg hn, zero_add]
      · rw [List.map_cons, List.sum_cons, List.map_cons, List.sum_cons, if_neg hn, if_neg hn]
    · rw [if_neg hc, List.map_cons, List.sum_cons, ih, List.map_cons, List.sum_cons]

theorem exec_positions_eq {c : Cfg} (hc : c.WF) {env : Env} {m : Msg} {s s' : State}
    (hr : Reachable c s) (h : exec c env m s = .ok () s')
    (hlk : ∀ x y z, m ≠ .lock x y z) (hul : ∀ x y z, m ≠ .unlock x y z) :
    s'.positions = s.positions := by
  by_cases hno : m.noOther = true
  · have e := ((Other.msg c env m hno) (otherF s)).ok h rfl
    exact congrArg (fun z => z.1.1) e
  rw [Bool.not_eq_true] at hno
  by_cases hp : m.isPortal = true
  · cases m <;> first | exact Bool.noConfusion hp | exact Bool.noConfusion hno | skip
    case deliver vaa =>
      obtain ⟨w, sA, _, _, rfl, hA, hR, hd⟩ := deliver_did hc (hr.led hc) h
      generalize hq : content env vaa = q at hd
      cases hd with
      | ignored _ hn _ _ _ _ _ _ e => rw [e]
      | token amount i rcp s1 hup hui hmk =>
        have h1 : s1.positions = s.positions := hui.positions
        have h2 : s'.positions = s1.positions := hmk.moved.positions
        rw [h2, h1]
      | index i m hup e hui _ =>
        have h1 : m.positions = s.positions := hui.positions
        rw [e]; exact h1
  rw [Bool.not_eq_true] at hp
  have e := ((VaultF.route c env m hno hp hlk hul) (vaultF s)).ok h rfl
  exact congrArg (fun z => z.1) e

theorem exec_lockedBy {c : Cfg} (hc : c.WF) {env : Env} {m : Msg} {s s' : State} (hr : Reachable c s)
    (hm : m.SignedByUser c) (h : exec c env m s = .ok () s') (a : Addr) (v : Int) :
    lockedBy s' a v = lockedBy s a v + lockChange c a v m := by
  by_cases hlk : ∃ x y z, m = .lock x y z
  · obtain ⟨x, y, z, rfl⟩ := hlk
    obtain ⟨amt, d, rfl, hk⟩ := lock_ok h
    obtain ⟨m, hmv, rfl⟩ := hk.run
    rw [lockedBy_eq_sum]
    show KV.sum (m.positions.set (d, y, env.time) _) _ = _
    have e0 : m.positions = s.positions := hmv.positions
    have hf : s.positions.get? (d, y, env.time) = none := by
      have := hk.fresh; unfold KV.has at this
      cases hg : s.positions.get? (d, y, env.time) with
      | none => rfl
      | some p => rw [hg] at this; cases this
    rw [KV.sum_set, e0, KV.at', hf, ← lockedBy_eq_sum, lockChange]
    show _ - 0 + (if d = a ∧ y = v then amt else 0) = _
    rw [hk.dec, sub_zero]
    simp only [Option.some.injEq]
  by_cases hul : ∃ x y z, m = .unlock x y z
  · obtain ⟨x, y, z, rfl⟩ := hul
    obtain ⟨_, _, amt, d, rfl, hk⟩ := unlock_ok h
    have hd := hk.dec
    have hu : c.IsUser d := hm d hd
    rw [lockChange, hd]
    by_cases hav : d = a ∧ y = v
    · obtain ⟨rfl, rfl⟩ := hav
      rw [if_pos ⟨rfl, rfl⟩]
      rcases hk.vault with e | e
      · have e : y = 1 := e
        subst e
        have := (C25_staked_unlock_effect hc env s s' hr x d amt hd hu h).2.2.2.1
        omega
      · have e : y = 2 := e
        subst e
        have := (C25_flexible_unlock_effect hc env s s' hr x d amt hd hu h).2.2.2.1
        omega
    · rw [if_neg (by simpa using hav)]
      have e := (C47_oldest_first hc env s s' hr x d y amt hd hu h).1
      unfold lockedBy
      rw [e, withdraw_other (fun k => hav ⟨k.1.symm, k.2.symm⟩), add_zero]
  have e := exec_positions_eq hc hr h (fun x y z e => hlk ⟨x, y, z, e⟩) (fun x y z e => hul ⟨x, y, z, e⟩)
  rw [lockedBy_congr e]
  have : lockChange c a v m = 0 := by
    unfold lockChange
    split
    · exact absurd ⟨_, _, _, rfl⟩ hlk
    · exact absurd ⟨_, _, _, rfl⟩ hul
    · rfl
  rw [this, add_zero]

theorem listed_eq (c : Cfg) (s : State) (provider : String) (l : List PosEntry) (a : Addr)
    (hd : c.decode provider = some a) (h : queryPositions c s provider = some l) (v : Int) :
    listed l v = lockedBy s a v := by
  unfold queryPositions at h
  rw [hd] at h
  cases h
  unfold listed lockedBy allPositions
  show (List.map _ (List.filter (fun p : PosEntry => decide (p.address = a)) _)).sum = _
  induction s.positions with
  | nil => rfl
  | cons e t ih =>
    rw [List.map_cons, List.filter_cons, List.map_cons, List.sum_cons, ← ih]
    by_cases hx : e.1.1 = a
    · simp [hx]
    · simp [hx]

/-- The position ledger: over any history of transactions, what the query for a user's positions
lists for a vault grows by the user's accepted `Lock`s and shrinks by the user's accepted `Unlock`s,
and by nothing else. -/
theorem C58_positions_ledger {c : Cfg} (hc : c.WF) {s : State} (hr : Reachable c s) (h : History)
    (hsig : History.Signed c h) (provider : String) (user : Addr) (hd : c.decode provider = some user)
    (vault : Int) :
    ∃ l l', queryPositions c s provider = some l ∧ queryPositions c (run c h s) provider = some l' ∧
      listed l' vault = listed l vault + netLocked c user vault h s := by
  have hq : ∀ t, ∃ l, queryPositions c t provider = some l := fun t => by
    unfold queryPositions; rw [hd]; exact ⟨_, rfl⟩
  obtain ⟨l, hl⟩ := hq s
  obtain ⟨l', hl'⟩ := hq (run c h s)
  refine ⟨l, l', hl, hl', ?_⟩
  rw [listed_eq c _ _ _ _ hd hl', listed_eq c _ _ _ _ hd hl]
  clear hl hl' l l' hq
  induction h generalizing s with
  | nil => unfold netLocked; rw [add_zero]; rfl
  | cons e t ih =>
    obtain ⟨env, m⟩ := e
    have hm : m.SignedByUser c := hsig (env, m) List.mem_cons_self
    have := ih (s := step c env m s) (Reachable.step hr hm) (fun e he => hsig e (List.mem_cons_of_mem _ he))
    show lockedBy (run c t (step c env m s)) user vault = _
    rw [this, netLocked, ← add_assoc]
    congr 1
    unfold step runTx
    cases hx : exec c env m s with
    | ok u s' =>
      simp only [Res.isOk, if_true]
      exact exec_lockedBy hc hr hm hx user vault
    | err => simp [Res.isOk]
    | panic => simp [Res.isOk]

/-- From a fresh chain: the listed amounts are accepted locks minus accepted unlocks. -/
theorem C58_positions_from_start {c : Cfg} (hc : c.WF) {s0 : State} (hi : Initial c s0) (h : History)
    (hsig : History.Signed c h) (provider : String) (user : Addr) (hd : c.decode provider = some user)
    (vault : Int) :
    ∃ l, queryPositions c (run c h s0) provider = some l ∧
      listed l vault = netLocked c user vault h s0 := by
  obtain ⟨l, l', h1, h2, h3⟩ := C58_positions_ledger hc (.fresh hi)
    h hsig provider user hd vault
  refine ⟨l', h2, ?_⟩
  rw [h3, listed_eq c _ _ _ _ hd h1]
  have h0 : lockedBy s0 user vault = 0 := by unfold lockedBy; rw [hi.positions]; rfl
  show lockedBy s0 user vault + _ = _
  rw [h0]
  exact zero_add _

/-- Non-vacuity: alice locks in both vaults and takes part of the flexible amount out again. -/
example : let s := run Demo.cfg Demo.hist2 Demo.start
    Demo.cfg.decode Demo.aliceS = some Demo.alice ∧
    netLocked Demo.cfg Demo.alice 2 Demo.hist2 Demo.start = 1000000 ∧
    netLocked Demo.cfg Demo.alice 1 Demo.hist2 Demo.start = 3000000 ∧
    ((queryPositions Demo.cfg s Demo.aliceS).map fun l => (listed l 1, listed l 2)) = some (3000000, 1000000) := by
  decide +kernel

end Dollar
