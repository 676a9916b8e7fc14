import Verif.Props.C55
import Verif.Props.C07
import Verif.Props.C10

/-
C56: when and how often a holder claims does not matter.
-/
set_option maxRecDepth 100000
namespace Dollar
open MM Spec

/-- The message moves coins from or to the account, or claims yield for it. -/
def Spec.movesOf (c : Cfg) (env : Env) (a : Addr) : Msg → Prop
  | .bankSend x y _ | .keeperSend x y _ => x = a ∨ y = a
  | .bankMultiSend x outs => x = a ∨ ∃ o ∈ outs, o.1 = a
  | .ibcTransfer x .. => x = a
  | .ibcReceive _ r _ => r = a
  | .ibcTimeout p | .ibcAckError p => p.sender = a
  | .warpTransfer x .. => x = a
  | .warpReceive _ r _ => r = a
  | .transfer s .. | .lock s .. | .unlock s .. | .claimYield s => c.decode s = some a
  | .deliver vaa => ∃ n i ch t, content env vaa = some (.token n i a ch t)
  | _ => False

/-- Balance and principal of one account. -/
def bpc (a : Addr) (s : State) : Int × Int := (s.balance a, s.principalOf a)

theorem bpc_moved {c : Cfg} {s s' s0 t : State} {x y a : Addr} {v : Int} (h : Moved c s x y v s') (hx : a ≠ x)
    (hy : a ≠ y) (e1 : bpc a s = bpc a s0 := by rfl) (e2 : bpc a t = bpc a s' := by rfl) :
    bpc a t = bpc a s0 := by
  rw [e2, ← e1]; unfold bpc; rw [h.same hx hy, h.prin_same hx hy]

theorem OneOk.bpc {c : Cfg} (hc : c.WF) {signer : String} {u x : Addr} {v : Int} {p : PosEntry} {amt : Int}
    {s s' : State} (hd : c.decode signer = some u) (hu : c.IsUser x) (hx : x ≠ u)
    (hpa : p.address = u) (h : OneOk c signer u v p amt s s') : bpc x s' = bpc x s := by
  have hne : ∀ w t, x ≠ acctOf c u w t := fun w t => hu.ne_acct _ _ _
  cases h with
  | staked m hv ha hm e =>
    rw [posAddr_eq hc hd] at hm
    subst e
    exact bpc_moved hm (hne _ _) hx
  | flexible s1 m3 m4 owed y hv hr hy h3 hn h4 e =>
    rw [posAddr_eq hc hd] at h3 h4 hy
    subst e
    have q1 : Dollar.bpc x s1 = Dollar.bpc x s := by
      rcases hr.run with ⟨_, _, rfl⟩ | ⟨_, _, _, m, hm, rfl⟩
      · rfl
      · exact bpc_moved hm hu.ne_flexible (hpa ▸ hx)
    have q2 : Dollar.bpc x m3 = Dollar.bpc x s1 := bpc_moved (s0 := s1) (s := { s1 with vstats := { s1.vstats with
      flexDistributed := s1.vstats.flexDistributed + owed } }) h3 hu.ne_yield (hne _ _)
    exact bpc_moved h4 (hne _ _) hx (q2.trans q1)

theorem LoopOk.bpc {c : Cfg} (hc : c.WF) {signer : String} {u x : Addr} {v : Int} {l : List PosEntry}
    {rem removed rem' removed' : Int} {s s' : State} (hd : c.decode signer = some u)
    (hu : c.IsUser x) (hx : x ≠ u) (hpa : ∀ p ∈ l, p.address = u) (h : LoopOk c signer u v l rem removed s rem' removed' s') :
    bpc x s' = bpc x s := by
  induction h with
  | nil => rfl
  | stop => rfl
  | step p t rem removed s m rem' removed' s' _ _ h1 _ ih => 
    exact (ih fun p hp => hpa p (List.mem_cons_of_mem _ hp)).trans (h1.bpc hc hd hu hx (hpa p List.mem_cons_self))

theorem UI.bpc {c : Cfg} {s s' : State} {i : Int} (h : UI c s i s') {a : Addr} (hu : c.IsUser a)
    (hcol : a ≠ s.collector) : bpc a s' = bpc a s := by
  have nd : ¬ Dist c s a := by
    rintro (h | h | h | h | ⟨ch, h⟩)
    · exact hu.ne_staked h
    · exact hu.ne_flexible h
    · exact hu.ne_warp h
    · exact hcol h
    · exact hu.ne_escrow ch h
  unfold Dollar.bpc
  rw [(h.same a hu.ne_yield nd).1, (h.same a hu.ne_yield nd).2]

/-- Every message that neither pays, credits nor claims for a user leaves balance and principal of
the user alone. -/
theorem exec_untouched {c : Cfg} (hc : c.WF) {env : Env} {m : Msg} {s s' : State} {a : Addr}
    (hu : c.IsUser a) (hcol : a ≠ s.collector) (hno : ¬ movesOf c env a m) (hl : Led c s)
    (hm : m.SignedByUser c) (h : exec c env m s = .ok () s') : bpc a s' = bpc a s := by
  have packet : ∀ p f, packetFailed c p f s = .ok () s' → p.sender ≠ a → bpc a s' = bpc a s := by
    intro p f h hp
    obtain ⟨hin, _, m1, hmv, rfl⟩ := packetFailed_ok h
    have q0 : bpc a (if ownPacket c p then retryAdded s IBC p.channel p.amount else s) = bpc a s := by
      split <;> rfl
    exact bpc_moved hmv (hu.ne_escrow _) (Ne.symm hp) q0
  cases m with
  | claimYield signer =>
    obtain ⟨_, d, m, hd, hb, hmv, rfl⟩ := claimYield_ok h
    exact bpc_moved hmv hu.ne_yield (fun e => hno (e ▸ hd))
  | setPaused signer p =>
    obtain ⟨_, rfl⟩ := setPaused_ok h
    rfl
  | setYieldRecipient signer p i r =>
    obtain ⟨_, _, rfl⟩ := setYieldRecipient_ok h
    rfl
  | deliver vaa =>
    obtain ⟨v, sA, _, _, rfl, hA, hR, hd⟩ := deliver_did hc hl h
    have hno : ∀ n i ch t, content env vaa ≠ some (.token n i a ch t) :=
      fun n i ch t e => hno ⟨n, i, ch, t, e⟩
    generalize hq : content env vaa = q at hd hno
    cases hd with
    | ignored _ hn _ _ _ _ _ _ e =>
      rw [e]; rfl
    | token amount i rcp s1 hup hui hmk =>
      have h1 : bpc a s1 = bpc a s := hui.bpc hu hcol
      have h2 : bpc a (minted s1 c.moduleAddr amount) = bpc a s1 := by
        unfold bpc
        rw [minted_balance, if_neg hu.ne_module, Int.add_zero]
        rfl
      exact bpc_moved hmk.moved hu.ne_module (fun e => by subst e; exact hno _ _ _ _ rfl) (h2.trans h1)
    | index i m hup e hui _ =>
      have h1 : bpc a m = bpc a s := hui.bpc hu hcol
      rw [e]; exact h1
  | transfer signer amt? ch t r =>
    obtain ⟨amt, _, hk⟩ := transfer_ok h
    obtain ⟨peer, sender, m, _, hd, _, _, hb, e⟩ := hk.run
    obtain ⟨m1, hm1, hle, rfl⟩ := hb.mid
    have h1 := bpc_moved (s0 := s) (t := m1) (s := { s with nonce := (s.nonce + 1) % 2 ^ 32 }) (a := a) hm1
      (fun e => hno (e ▸ hd)) hu.ne_module
    refine Eq.trans ?_ h1
    rw [e]
    unfold bpc
    refine Prod.ext ?_ rfl
    show (debit m1 c.moduleAddr amt).balance a = _
    rw [balance_debit, if_neg hu.ne_module]; omega
  | portalSetPaused signer p =>
    obtain ⟨_, _, rfl⟩ := portalSetPaused_ok h
    rfl
  | setPeer signer ch t mg =>
    obtain ⟨_, _, _, _, _, _, _, _, rfl⟩ := setPeer_ok h
    rfl
  | setBridgingPath signer ch t b =>
    obtain ⟨_, _, _, _, _, rfl⟩ := setBridgingPath_ok h
    rfl
  | transferOwnership signer o =>
    obtain ⟨_, _, _, _, rfl⟩ := transferOwnership_ok h
    rfl
  | lock signer v amt? =>
    obtain ⟨amt, d, _, hk⟩ := lock_ok h
    obtain ⟨m, hmv, rfl⟩ := hk.run
    rw [posAddr_eq hc hk.dec] at hmv
    exact bpc_moved hmv (fun e => hno (e ▸ hk.dec)) (hu.ne_acct _ _ _)
  | unlock signer v amt? =>
    obtain ⟨_, _, amt, d, _, hk⟩ := unlock_ok h
    obtain ⟨m, removed, hlp, rfl⟩ := hk.run
    have := hlp.bpc hc hk.dec hu (fun e => hno (e ▸ hk.dec)) (fun p hp => (positionsOf_mem hp).1)
    exact this
  | vaultsSetPaused signer p =>
    obtain ⟨_, _, _, rfl⟩ := vaultsSetPaused_ok h
    rfl
  | bankSend d b amt =>
    obtain ⟨h0, hb, hmv⟩ := bankSend_ok h
    exact bpc_moved hmv (fun e => hno (.inl e.symm)) (fun e => hno (.inr e.symm))
  | keeperSend d b amt =>
    obtain ⟨h0, hmv⟩ := keeperSend_ok h
    exact bpc_moved hmv (fun e => hno (.inl e.symm)) (fun e => hno (.inr e.symm))
  | bankMultiSend d outs =>
    have hd : c.IsUser d := hm
    have mm := bankMultiSend_ok hc hd.ne_yield hd.ne_module hl.good.index.ne'
      (show bankMultiSend c d outs s = .ok () s' from h)
    have hx : a ≠ d := fun e => hno (.inl e.symm)
    have ho : ∀ o ∈ outs, o.1 ≠ a := fun o ho e => hno (.inr ⟨o, ho, e⟩)
    unfold bpc
    rw [mm.prin a hx ho, mm.bal a, if_neg hx, outTo, show (outs.map fun o => if o.1 = a then o.2 else 0) =
      outs.map fun _ => (0 : Int) from List.map_congr_left fun o h => if_neg (ho o h)]
    simp
  | ibcTransfer d ch r amt =>
    obtain ⟨h0, _, m, hmv, rfl⟩ := userIbcTransfer_ok h
    exact bpc_moved hmv (fun e => hno e.symm) (hu.ne_escrow _)
  | ibcReceive ch r amt =>
    obtain ⟨h0, _, hb, m, hmv, rfl⟩ := ibcReceive_ok h
    exact bpc_moved hmv (hu.ne_escrow _) (fun e => hno e.symm)
  | ibcTimeout p => exact packet p true h hno
  | ibcAckError p => exact packet p false h hno
  | ibcAckSuccess p =>
    obtain ⟨_, rfl⟩ := packetAcked_ok h
    rfl
  | warpCreate t =>
    have h : warpCreate t s = .ok () s' := h
    unfold warpCreate at h
    have h := modify_ok.1 h
    subst h
    split <;> rfl
  | warpTransfer d t dom r amt =>
    obtain ⟨h0, col, m, hcol, hmv, rfl⟩ := warpSend_ok h
    exact bpc_moved hmv (fun e => hno e.symm) hu.ne_warp
  | warpReceive t d amt =>
    obtain ⟨h0, hb, col, hcol, hle, hmv⟩ := warpReceive_ok h
    exact bpc_moved (s0 := s) (s := { s with collateral := s.collateral.set t (col - amt) }) hmv hu.ne_warp
      (fun e => hno e.symm)

/-- One transaction that is a claim by a user or does not move the user's coins. -/
theorem claim_or_untouched {c : Cfg} (hc : c.WF) {s : State} (hr : Reachable c s) (env : Env) (m : Msg)
    (hm : m.SignedByUser c) {a : Addr} (hu : c.IsUser a) (hcol : a ≠ s.collector)
    (hno : ¬ movesOf c env a m ∨ ∃ signer, m = .claimYield signer) :
    let s' := step c env m s
    s'.principalOf a = s.principalOf a ∧ (s'.balance a = s.balance a ∨
      (s'.index = s.index ∧ s.balance a < s'.balance a ∧
        s'.balance a = s.principalOf a * s.index / 10 ^ 12)) := by
  intro s'
  rcases step_cases c env m s with h | h
  · rw [show s' = s from h]; exact ⟨rfl, .inl rfl⟩
  change exec c env m s = .ok () s' at h
  by_cases hmv : movesOf c env a m
  · obtain ⟨signer, rfl⟩ := hno.resolve_left (fun hn => hn hmv)
    have ha : c.decode signer = some a := hmv
    obtain ⟨a', y, ha', hy, h0, hb, _, _, hp, _, hi, _⟩ := C07_claim env signer hm h
    rw [ha] at ha'; cases ha'
    refine ⟨by unfold State.principalOf; rw [hp], ?_⟩
    unfold queryYield at hy
    rw [ha] at hy
    simp only [Option.map_some, Option.some.injEq] at hy
    unfold claimable present at hy
    have hl := hr.led hc
    have hnn := hl.good.bal a
    simp only at hy
    by_cases hy0 : y = 0
    · left; omega
    split at hy
    · left; omega
    · right
      next hlt =>
      have hpos : 0 < s.principalOf a * s.index := by
        by_contra hn
        have : (s.principalOf a * s.index).tdiv SCALE ≤ 0 := by
          have := Int.tdiv_nonneg (a := -(s.principalOf a * s.index)) (b := SCALE) (by omega) (by decide)
          rw [Int.neg_tdiv] at this
          omega
        omega
      have e : (s.principalOf a * s.index).tdiv SCALE = s.principalOf a * s.index / 10 ^ 12 := by
        rw [Int.tdiv_eq_ediv_of_nonneg hpos.le]; rfl
      rw [e] at hy hlt
      exact ⟨hi, by omega, by omega⟩
  · have := exec_untouched hc hu hcol hmv (hr.led hc) hm h
    exact ⟨congrArg Prod.snd this, .inl (congrArg Prod.fst this)⟩

/-- Over any history in which the user's coins only move through the user's own claims, what the user
ends up with (balance, or the value of the principal if more) is determined by the balance and
principal at the beginning and the index at the end: it does not depend on when, how often or
whether yield was claimed. -/
theorem C56_history {c : Cfg} (hc : c.WF) {s : State} (hr : Reachable c s) {h : History}
    (hsig : History.Signed c h) {a : Addr} (hu : c.IsUser a) (hcol : a ≠ s.collector)
    (hno : ∀ e ∈ h, ¬ movesOf c e.1 a e.2 ∨ ∃ signer, e.2 = .claimYield signer) :
    let s' := run c h s
    s'.principalOf a = s.principalOf a ∧
    worth s' a = max (s.balance a) (s.principalOf a * s'.index / 10 ^ 12) := by
  induction h generalizing s with
  | nil => exact ⟨rfl, rfl⟩
  | cons e t ih =>
    obtain ⟨env, m⟩ := e
    have hm : m.SignedByUser c := hsig (env, m) List.mem_cons_self
    have hr1 : Reachable c (step c env m s) := Reachable.step hr hm
    have hc1 : (step c env m s).collector = s.collector := (C10_fixed_settings c [(env, m)] s).2
    have hsig1 : History.Signed c t := fun e he => hsig e (List.mem_cons_of_mem _ he)
    obtain ⟨h1, h2⟩ := claim_or_untouched hc hr env m hm hu hcol (hno _ List.mem_cons_self)
    obtain ⟨k1, k2⟩ := ih (s := step c env m s) hr1 hsig1
      (by rw [hc1]; exact hcol) (fun e he => hno e (List.mem_cons_of_mem _ he))
    have hmono := C02_index_monotone hc hr1 t hsig1
    refine ⟨k1.trans h1, k2.trans ?_⟩
    show _ = max (s.balance a) (s.principalOf a * (run c t (step c env m s)).index / 10 ^ 12)
    generalize (run c t (step c env m s)).index = I at *
    rw [h1]
    rcases h2 with e | ⟨hi, hlt, e⟩
    · rw [e]
    · have h0 := (hr.led hc).good.bal a
      have hle : s.principalOf a * s.index / 10 ^ 12 ≤ s.principalOf a * I / 10 ^ 12 := by
        refine Int.ediv_le_ediv (by decide) (mul_le_mul_of_nonneg_left (hi ▸ hmono) ?_)
        by_contra hn
        have : s.principalOf a * s.index < 0 :=
          mul_neg_of_neg_of_pos (by omega) (hr.led hc).good.index
        omega
      omega

/-- Two histories from the same state that end at the same index give the user the same, however
differently the user claimed in them. -/
theorem C56_schedule_independent {c : Cfg} (hc : c.WF) {s : State} (hr : Reachable c s) {h1 h2 : History}
    (hs1 : History.Signed c h1) (hs2 : History.Signed c h2) {a : Addr} (hu : c.IsUser a)
    (hcol : a ≠ s.collector)
    (hn1 : ∀ e ∈ h1, ¬ movesOf c e.1 a e.2 ∨ ∃ signer, e.2 = .claimYield signer)
    (hn2 : ∀ e ∈ h2, ¬ movesOf c e.1 a e.2 ∨ ∃ signer, e.2 = .claimYield signer)
    (hi : (run c h1 s).index = (run c h2 s).index) :
    worth (run c h1 s) a = worth (run c h2 s) a := by
  rw [(C56_history hc hr hs1 hu hcol hn1).2, (C56_history hc hr hs2 hu hcol hn2).2, hi]

namespace Demo

/-- Alice claims before and after the index rises, and once more. -/
def hist56a : History :=
  [(env 8, .claimYield aliceS), (env 9, .deliver [5]), (env 10, .claimYield aliceS), (env 11, .claimYield aliceS)]

/-- Alice never claims. -/
def hist56b : History := [(env 9, .deliver [5]), (env 10, .unlock bobS 1 (some 2000000))]

theorem hist56a_signed : History.Signed cfg hist56a := by
  intro e he
  simp only [hist56a, List.mem_cons, List.not_mem_nil, or_false] at he
  rcases he with rfl | rfl | rfl | rfl
  · exact aliceS_user
  · trivial
  · exact aliceS_user
  · exact aliceS_user

theorem hist56b_signed : History.Signed cfg hist56b := by
  intro e he
  simp only [hist56b, List.mem_cons, List.not_mem_nil, or_false] at he
  rcases he with rfl | rfl
  · trivial
  · exact bobS_user

end Demo

/-- Non-vacuity: the two histories end at the same index with different balances but the same worth. -/
example : let s := run Demo.cfg Demo.hist1 Demo.start
    let s1 := run Demo.cfg Demo.hist56a s
    let s2 := run Demo.cfg Demo.hist56b s
    Reachable Demo.cfg s ∧ History.Signed Demo.cfg Demo.hist56a ∧ History.Signed Demo.cfg Demo.hist56b ∧
    Demo.cfg.IsUser Demo.alice ∧ Demo.alice ≠ s.collector ∧
    (∀ e ∈ Demo.hist56a, ¬ movesOf Demo.cfg e.1 Demo.alice e.2 ∨ ∃ signer, e.2 = .claimYield signer) ∧
    (∀ e ∈ Demo.hist56b, ¬ movesOf Demo.cfg e.1 Demo.alice e.2 ∨ ∃ signer, e.2 = .claimYield signer) ∧
    s1.index = s2.index ∧ s.index < s1.index ∧ s2.balance Demo.alice < s1.balance Demo.alice ∧
    worth s1 Demo.alice = 5200000 ∧ worth s2 Demo.alice = 5200000 := by
  have hq : ∀ n i ch t, content (Demo.env 9) [5] ≠ some (.token n i Demo.alice ch t) := by
    have e : content (Demo.env 9) [5] = some (.index 1300000000000 4009) := by decide +kernel
    intro n i ch t h
    rw [e] at h
    cases h
  refine ⟨Demo.reach1, Demo.hist56a_signed, Demo.hist56b_signed, Demo.alice_user, by decide +kernel,
    ?_, ?_, by decide +kernel⟩
  · intro e he
    simp only [Demo.hist56a, List.mem_cons, List.not_mem_nil, or_false] at he
    rcases he with rfl | rfl | rfl | rfl
    · exact .inr ⟨_, rfl⟩
    · exact .inl fun ⟨n, i, ch, t, h⟩ => hq n i ch t h
    · exact .inr ⟨_, rfl⟩
    · exact .inr ⟨_, rfl⟩
  · intro e he
    simp only [Demo.hist56b, List.mem_cons, List.not_mem_nil, or_false] at he
    rcases he with rfl | rfl
    · exact .inl fun ⟨n, i, ch, t, h⟩ => hq n i ch t h
    · left
      show ¬ Demo.cfg.decode Demo.bobS = some Demo.alice
      decide +kernel

end Dollar
