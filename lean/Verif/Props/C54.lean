import Verif.Lemmas.Debt
import Verif.Lemmas.Yield
import Verif.Props.C53

/-
C54: rounding never takes more from a holder than one unit of principal per transaction in which
they pay or are minted to; apart from that every holder earns the growth of the index on their whole
balance.
-/
set_option maxRecDepth 100000
namespace Dollar
open MM Spec

/-- How many times a successful message may round against account `a`: once per payment by `a` and
once per portal delivery to `a`. -/
def Spec.roundsAgainst (c : Cfg) (env : Env) (a : Addr) : Msg → Nat
  | .bankSend x _ _ | .keeperSend x _ _ => if x = a then 1 else 0
  | .bankMultiSend x outs => if x = a then outs.length else 0
  | .ibcTransfer x _ _ _ => if x = a then 1 else 0
  | .warpTransfer x _ _ _ _ => if x = a then 1 else 0
  | .lock signer _ _ => if c.decode signer = some a then 1 else 0
  | .transfer signer _ _ _ _ => if c.decode signer = some a then 1 else 0
  | .deliver vaa => match content env vaa with
      | some (.token _ _ rcp _ _) => if rcp = a then 1 else 0
      | _ => 0
  | _ => 0

/-- The number of such roundings along a history; only successful messages count. -/
def Spec.roundings (c : Cfg) (a : Addr) : History → State → Nat
  | [], _ => 0
  | (env, m) :: t, s =>
    (if (exec c env m s).isOk then roundsAgainst c env a m else 0) + roundings c a t (step c env m s)

theorem OneOk.owed {c : Cfg} (hc : c.WF) {signer : String} {u a : Addr} {v : Int} {p : PosEntry}
    {amt n : Int} {s s' : State} (hd : c.decode signer = some u) (hu : c.IsUser a)
    (h : OneOk c signer u v p amt s s') (hs : Owed a n s) : Owed a n s' := by
  have hne : ∀ b w t, acctOf c b w t ≠ a := fun b w t => (hu.ne_acct _ _ _).symm
  cases h with
  | staked m hv ha hm e =>
    rw [posAddr_eq hc hd] at hm
    subst e
    exact (hs.moved hu hm ha (hne _ _ _) fun _ =>
      ⟨acctOf_ne_yield hc _ _ _, acctOf_ne_module hc _ _ _⟩).congr
  | flexible s1 m3 m4 owed y hv hr hy h3 hn h4 e =>
    rw [posAddr_eq hc hd] at h3 h4 hy
    subst e
    have q1 : Owed a n s1 := by
      rcases hr.run with ⟨_, _, rfl⟩ | ⟨_, _, _, m, hm, rfl⟩
      · exact hs.congr
      · exact (Owed.moved (s := { { s with totalFlexible := s.totalFlexible - roundedDown amt p.index } with
            rewards := rewardsAfter s.rewards p.index s.index (roundedDown amt p.index) }) hs.congr hu hm
            hr.nonneg hu.ne_flexible.symm fun _ => ⟨hc.flexible_ne_yield, hc.flexible_ne_module⟩).congr
    have hy0 : 0 ≤ y := by rw [hy]; exact claimable_nonneg _ _
    have q2 : Owed a n m3 := Owed.moved (s := { s1 with vstats := { s1.vstats with
      flexDistributed := s1.vstats.flexDistributed + owed } }) q1.congr hu h3 hy0 hu.ne_yield.symm
      fun e => absurd e (hne _ _ _)
    exact (q2.moved hu h4 hn (hne _ _ _) fun _ =>
      ⟨acctOf_ne_yield hc _ _ _, acctOf_ne_module hc _ _ _⟩).congr

theorem LoopOk.owed {c : Cfg} (hc : c.WF) {signer : String} {u a : Addr} {v : Int} {l : List PosEntry}
    {rem removed rem' removed' n : Int} {s s' : State} (hd : c.decode signer = some u)
    (hu : c.IsUser a) (h : LoopOk c signer u v l rem removed s rem' removed' s') (hs : Owed a n s) :
    Owed a n s' := by
  induction h with
  | nil => exact hs
  | stop => exact hs
  | step p t rem removed s m rem' removed' s' hne _ h1 _ ih => exact ih (h1.owed hc hd hu hs)

/-- The outputs of a multi-send, rounded one by one. -/
theorem outs_rounding {i : Int} (hi : 0 < i) (a : Addr) {outs : List (Addr × Int)}
    (h : ∀ o ∈ outs, 0 < o.2) :
    SCALE * outTo outs a ≤ i * (outs.map fun o => if o.1 = a then roundedUp o.2 i else 0).sum ∧
    i * ((outs.map fun o => roundedUp o.2 i).sum - outs.length) ≤ SCALE * (outs.map Prod.snd).sum := by
  unfold outTo
  induction outs with
  | nil => simp
  | cons o t ih =>
    obtain ⟨h1, h2⟩ := ih fun o ho => h o (List.mem_cons_of_mem _ ho)
    have hb := up_bounds (h o List.mem_cons_self).le hi
    simp only [List.map_cons, List.sum_cons, List.length_cons]
    generalize (t.map fun o => if o.1 = a then roundedUp o.2 i else 0).sum = V at *
    generalize (t.map fun o => roundedUp o.2 i).sum = U at *
    generalize (t.map Prod.snd).sum = T at *
    generalize (t.map fun o => if o.1 = a then o.2 else 0).sum = A at *
    generalize roundedUp o.2 i = r at *
    constructor
    · split
      · have e1 : SCALE * (o.2 + A) = o.2 * SCALE + SCALE * A := by ring
        have e2 : i * (r + V) = r * i + i * V := by ring
        omega
      · simpa using h1
    · have e1 : SCALE * (o.2 + T) = o.2 * SCALE + SCALE * T := by ring
      have e2 : i * (r + U - ((t.length + 1 : Nat) : Int)) = (r - 1) * i + i * (U - t.length) := by
        push_cast; ring
      omega

/-- Every message, on success. -/
theorem exec_owed {c : Cfg} (hc : c.WF) {env : Env} {m : Msg} {s s' : State} {a : Addr} {n : Int}
    (hu : c.IsUser a) (hn0 : 0 ≤ n) (hl : Led c s) (hm : m.SignedByUser c) (h : exec c env m s = .ok () s')
    (hs : Owed a n s) : Owed a (n + roundsAgainst c env a m) s' := by
  have up : ∀ {k : Nat} {t : State}, Owed a n t → Owed a (n + k) t := fun h => h.mono (by omega)
  have pay : ∀ {x y : Addr} {v : Int} {p : Prop} [Decidable p] {t t' : State}, Owed a n t → c.IsUser x →
      Moved c t x y v t' → 0 ≤ v → (x = a → p) → Owed a (n + ((if p then 1 else 0 : Nat) : Int)) t' := by
    intro x y v p _ t t' ho hx hmv h0 hp
    by_cases hxa : x = a
    · rw [if_pos (hp hxa)]
      subst hxa
      exact ho.paid hu hmv h0
    · exact (ho.moved hu hmv h0 hxa fun _ => ⟨hx.ne_yield, hx.ne_module⟩).mono (by omega)
  have packet : ∀ p b, packetFailed c p b s = .ok () s' → Owed a n s' := by
    intro p b h
    obtain ⟨hin, _, m1, hmv, rfl⟩ := packetFailed_ok h
    obtain ⟨h0, _⟩ := hl.good.infl p hin
    have q0 : Owed a n (if ownPacket c p then retryAdded s IBC p.channel p.amount else s) := by
      split <;> exact hs.congr
    exact (q0.moved hu hmv h0.le (hu.ne_escrow _).symm fun _ =>
      ⟨hc.escrow_ne_yield _, hc.escrow_ne_mod _ _⟩).congr
  cases m with
  | claimYield signer =>
    obtain ⟨_, b, m, hd, hb, hmv, rfl⟩ := claimYield_ok h
    refine up ?_
    by_cases hba : b = a
    · subst hba
      have h1 := hmv.bal b
      rw [if_neg hu.ne_yield, if_pos rfl] at h1
      have h2 : m.principalOf b = s.principalOf b := by
        unfold State.principalOf; rw [(hmv.skip (.inl rfl)).1]
      have hcl := claimable_eq_yieldAt (s := s) (a := b) hs.bal hs.index
      have hd := hs.debt
      have hi := hs.index
      have hb0 := hs.bal
      rw [hcl] at h1
      have hn1 : s.index * s.principalOf b ≤ s.index * (s.principalOf b + n) :=
        mul_le_mul_of_nonneg_left (by omega) hi.le
      have e1 : s.index * s.principalOf b = s.principalOf b * s.index := mul_comm _ _
      have hii : m.index = s.index := hmv.index
      have hSC : SCALE = 10 ^ 12 := rfl
      have q : Owed b n m := by
        refine ⟨hii ▸ hi, ?_, ?_⟩
        · rw [h1]; unfold yieldAt; split <;> omega
        · rw [h1, h2, hii]
          rw [hSC] at hd ⊢
          unfold yieldAt
          generalize s.principalOf b * s.index = z at *
          generalize s.index * (s.principalOf b + n) = w at *
          split <;> omega
      exact q.congr
    · exact (hs.moved hu hmv (claimable_nonneg s b) hu.ne_yield.symm fun e => absurd e hba).congr
  | setPaused signer p =>
    obtain ⟨_, rfl⟩ := setPaused_ok h
    exact up hs.congr
  | setYieldRecipient signer p i r =>
    obtain ⟨_, _, rfl⟩ := setYieldRecipient_ok h
    exact up hs.congr
  | deliver vaa =>
    obtain ⟨v, sA, _, _, rfl, hA, hR, hd⟩ := deliver_did hc hl h
    have er : roundsAgainst c env a (.deliver vaa) = match content env vaa with
      | some (.token _ _ rcp _ _) => if rcp = a then 1 else 0
      | _ => 0 := rfl
    rw [er]
    generalize hq : content env vaa = q at hd
    cases hd with
    | ignored _ hn _ _ _ _ _ _ e =>
      rw [e]; exact up hs.congr
    | token amount i rcp s1 hup hui hmk =>
      have h1 : Owed a n s1 := (Keeps.ignore (Owed.updateIndex hu env hc i)).ok hup hs.congr
      have h2 : Owed a n (minted s1 c.moduleAddr amount) :=
        h1.of_eq rfl (by rw [minted_balance, if_neg hu.ne_module]; omega) rfl
      have h3 : Owed a (n + ((if rcp = a then 1 else 0 : Nat) : Int)) { s' with events := s1.events } := by
        by_cases hra : rcp = a
        · rw [if_pos hra]
          subst hra
          have hmv := hmk.moved
          by_cases h0 : (amount : Int) = 0
          · rw [hmv.zero h0]; exact h2.mono (by omega)
          have hb := hmv.bal rcp
          have hp := hmv.prin h0 hc.yield_ne_module.symm hu.ne_yield rcp
          rw [if_neg hu.ne_module, if_pos rfl] at hb
          rw [if_neg (fun e => hu.ne_module e.1), if_pos ⟨rfl, hu.ne_module⟩, if_pos rfl] at hp
          have hi := hmv.index
          have hdn := (down_bounds hmk.nonneg h2.index).2
          have hde := h2.debt
          have := h2.bal
          have := hmk.nonneg
          refine ⟨hi ▸ h2.index, by omega, ?_⟩
          rw [hb, hp, hi]
          generalize minted s1 c.moduleAddr amount = M at *
          have e1 : SCALE * (M.balance rcp - 0 + amount) = SCALE * M.balance rcp + amount * SCALE := by ring
          have e2 : M.index * (M.principalOf rcp - 0 + roundedDown amount M.index + (n + (1 : Nat))) =
            M.index * (M.principalOf rcp + n) + (roundedDown amount M.index + 1) * M.index := by
            push_cast; ring
          omega
        · exact (h2.moved hu hmk.moved hmk.nonneg hu.ne_module.symm fun e => absurd e hra).mono (by omega)
      exact h3.congr
    | index i m hup e hui _ =>
      have h1 : Owed a n m := (Owed.updateIndex hu env hc i).ok hup hs.congr
      rw [e]; exact up h1.congr
  | transfer signer amt? ch t r =>
    obtain ⟨amt, _, hk⟩ := transfer_ok h
    obtain ⟨peer, sender, m, _, hd, _, _, hb, e⟩ := hk.run
    obtain ⟨m1, hm1, hle, rfl⟩ := hb.mid
    have h1 := pay (p := c.decode signer = some a) (t := { s with nonce := (s.nonce + 1) % 2 ^ 32 })
      hs.congr (hm sender hd) hm1 hb.nonneg (fun e => e ▸ hd)
    rw [e]
    refine Owed.of_eq h1 rfl ?_ rfl
    show (debit m1 c.moduleAddr amt).balance a = _
    rw [balance_debit, if_neg hu.ne_module]; omega
  | portalSetPaused signer p =>
    obtain ⟨_, _, rfl⟩ := portalSetPaused_ok h
    exact up hs.congr
  | setPeer signer ch t mg =>
    obtain ⟨_, _, _, _, _, _, _, _, rfl⟩ := setPeer_ok h
    exact up hs.congr
  | setBridgingPath signer ch t b =>
    obtain ⟨_, _, _, _, _, rfl⟩ := setBridgingPath_ok h
    exact up hs.congr
  | transferOwnership signer o =>
    obtain ⟨_, _, _, _, rfl⟩ := transferOwnership_ok h
    exact up hs.congr
  | lock signer v amt? =>
    obtain ⟨amt, b, _, hk⟩ := lock_ok h
    obtain ⟨m, hmv, rfl⟩ := hk.run
    exact (pay hs (hm b hk.dec) hmv hk.nonneg (fun e => e ▸ hk.dec)).congr
  | unlock signer v amt? =>
    obtain ⟨_, _, amt, b, _, hk⟩ := unlock_ok h
    obtain ⟨m, removed, hlp, rfl⟩ := hk.run
    exact up (hlp.owed hc hk.dec hu hs).congr
  | vaultsSetPaused signer p =>
    obtain ⟨_, _, _, rfl⟩ := vaultsSetPaused_ok h
    exact up hs.congr
  | bankSend x b amt =>
    obtain ⟨h0, hb, hmv⟩ := bankSend_ok h
    exact pay hs hm hmv h0.le (fun e => e)
  | keeperSend x b amt =>
    obtain ⟨h0, hmv⟩ := keeperSend_ok h
    exact pay hs hm.1 hmv h0 (fun e => e)
  | bankMultiSend x outs =>
    have hx : c.IsUser x := hm
    have mm := bankMultiSend_ok hc hx.ne_yield hx.ne_module hl.good.index.ne'
      (show bankMultiSend c x outs s = .ok () s' from h)
    obtain ⟨k1, k2⟩ := outs_rounding hs.index a mm.pos
    have hb := mm.bal a
    have hp := mm.prinEq a
    have hi : s'.index = s.index := (congrArg State.index mm.frame :)
    have hd := hs.debt
    have hb0 := hs.bal
    have ho := outTo_nonneg mm.pos a
    have er : roundsAgainst c env a (.bankMultiSend x outs) = if x = a then outs.length else 0 := rfl
    have hen := mm.enough
    generalize outTo outs a = A at *
    generalize (outs.map Prod.snd).sum = T at *
    generalize (outs.map fun o => roundedUp o.2 s.index).sum = U at *
    generalize (outs.map fun o => if o.1 = a then roundedUp o.2 s.index else 0).sum = V at *
    rw [er]
    by_cases hxa : x = a
    · subst hxa
      rw [if_pos rfl] at hb hp ⊢
      refine ⟨hi ▸ hs.index, by omega, ?_⟩
      rw [hb, hp, hi]
      have e1 : SCALE * (s.balance x - T + A) = SCALE * s.balance x - SCALE * T + SCALE * A := by ring
      have e2 : s.index * (s.principalOf x - U + V + (n + (outs.length : Int))) =
        s.index * (s.principalOf x + n) - s.index * (U - outs.length) + s.index * V := by ring
      omega
    · rw [if_neg (Ne.symm hxa)] at hb hp
      rw [if_neg hxa]
      refine ⟨hi ▸ hs.index, by omega, ?_⟩
      rw [hb, hp, hi]
      have e1 : SCALE * (s.balance a - 0 + A) = SCALE * s.balance a + SCALE * A := by ring
      have e2 : s.index * (s.principalOf a - 0 + V + (n + ((0 : Nat) : Int))) =
        s.index * (s.principalOf a + n) + s.index * V := by push_cast; ring
      omega
  | ibcTransfer x ch r amt =>
    obtain ⟨h0, _, m, hmv, rfl⟩ := userIbcTransfer_ok h
    exact (pay hs hm hmv h0.le (fun e => e)).congr
  | ibcReceive ch r amt =>
    obtain ⟨h0, _, hb, m, hmv, rfl⟩ := ibcReceive_ok h
    exact up (hs.moved hu hmv h0.le (hu.ne_escrow _).symm fun _ =>
      ⟨hc.escrow_ne_yield _, hc.escrow_ne_mod _ _⟩).congr
  | ibcTimeout p => exact up (packet p true h)
  | ibcAckError p => exact up (packet p false h)
  | ibcAckSuccess p =>
    obtain ⟨_, rfl⟩ := packetAcked_ok h
    exact up hs.congr
  | warpCreate t =>
    have h : warpCreate t s = .ok () s' := h
    unfold warpCreate at h
    have h := modify_ok.1 h
    subst h
    split <;> exact up hs.congr
  | warpTransfer x t d r amt =>
    obtain ⟨h0, col, m, hcol, hmv, rfl⟩ := warpSend_ok h
    exact (pay hs hm hmv h0.le (fun e => e)).congr
  | warpReceive t x amt =>
    obtain ⟨h0, hb, col, hcol, hle, hmv⟩ := warpReceive_ok h
    exact up (Owed.moved (s := { s with collateral := s.collateral.set t (col - amt) }) hs.congr hu hmv h0.le
      hu.ne_warp.symm fun _ => ⟨hc.warp_ne_yield, hc.mod_ne (by decide)⟩)

theorem run_owed {c : Cfg} (hc : c.WF) {a : Addr} (hu : c.IsUser a) (h : History) {s : State} {n : Int}
    (hn : 0 ≤ n) (hl : Led c s) (hsig : History.Signed c h) (hs : Owed a n s) :
    Owed a (n + roundings c a h s) (run c h s) := by
  induction h generalizing s n with
  | nil =>
    show Owed a (n + ((0 : Nat) : Int)) s
    exact hs.mono (by omega)
  | cons e t ih =>
    obtain ⟨env, m⟩ := e
    have hm : m.SignedByUser c := hsig (env, m) List.mem_cons_self
    have ht : History.Signed c t := fun e he => hsig e (List.mem_cons_of_mem _ he)
    have hl' : Led c (step c env m s) := hl.step hc hm
    have e1 : roundings c a ((env, m) :: t) s =
      (if (exec c env m s).isOk then roundsAgainst c env a m else 0) + roundings c a t (step c env m s) := rfl
    have h1 : Owed a (n + ((if (exec c env m s).isOk then roundsAgainst c env a m else 0 : Nat) : Int))
        (step c env m s) := by
      unfold step runTx
      cases hx : exec c env m s with
      | ok u s' => exact exec_owed hc hu hn hl hm hx hs
      | err => exact hs.mono (by omega)
      | panic => exact hs.mono (by omega)
    have := ih (n := n + ((if (exec c env m s).isOk then roundsAgainst c env a m else 0 : Nat) : Int))
      (by omega) hl' ht h1
    rw [e1]
    refine this.mono ?_
    push_cast
    omega

/-- After any history: the balance of a user is worth at most their principal plus one unit of
principal for each rounding against them.  Index updates, other accounts' transactions, claims and
unlocks cost nothing. -/
theorem C54_principal_covers {c : Cfg} (hc : c.WF) {a : Addr} (hu : c.IsUser a) {s0 : State}
    (h0 : Initial c s0) {h : History} (hsig : History.Signed c h) :
    let s := run c h s0
    10 ^ 12 * s.balance a ≤ s.index * (s.principalOf a + roundings c a h s0) := by
  intro s
  have hz : Owed a 0 s0 := by
    refine ⟨h0.index, ?_, ?_⟩ <;> unfold State.balance <;> (try unfold State.principalOf) <;>
      rw [h0.bal] <;> (try rw [h0.principal]) <;> simp [KV.get?]
  have := (run_owed hc hu h (le_refl 0) (Led.initial h0) hsig hz).debt
  rwa [zero_add] at this

/-- Hence a holder earns the growth of the index on their whole balance: whenever the index goes from
the current one to `i`, the yield they can claim is at least `balance * (i - index) / index`, minus
two units (the unit lost by rounding down and the claim threshold) and minus the value of one unit of
principal for each rounding against them. -/
theorem C54_earns_growth {c : Cfg} (hc : c.WF) {a : Addr} (hu : c.IsUser a) {s0 : State}
    (h0 : Initial c s0) {h : History} (hsig : History.Signed c h) (i : Int)
    (hi : (run c h s0).index ≤ i) :
    let s := run c h s0
    10 ^ 12 * (s.balance a * (i - s.index)) ≤
      s.index * (10 ^ 12 * (yieldAt s a i + 2) + i * roundings c a h s0) := by
  intro s
  have hd := C54_principal_covers hc hu h0 hsig
  have hp : 0 < s.index := Reachable.index_pos hc (.of_run h0 hsig)
  change 10 ^ 12 * s.balance a ≤ s.index * (s.principalOf a + roundings c a h s0) at hd
  change s.index ≤ i at hi
  generalize (roundings c a h s0 : Int) = n at *
  clear_value s
  have hy : s.principalOf a * i ≤ 10 ^ 12 * (yieldAt s a i + s.balance a + 2) := by
    unfold yieldAt
    generalize s.principalOf a * i = z at *
    split <;> omega
  have h1 : i * (10 ^ 12 * s.balance a) ≤ i * (s.index * (s.principalOf a + n)) :=
    mul_le_mul_of_nonneg_left hd (by omega)
  have h2 : s.index * (s.principalOf a * i) ≤ s.index * (10 ^ 12 * (yieldAt s a i + s.balance a + 2)) :=
    mul_le_mul_of_nonneg_left hy hp.le
  nlinarith

/-- Non-vacuity: in the demo history alice is rounded against four times (one delivery, one bridge
transfer, two locks); at index 1.3 they can claim what the theorem promises. -/
example : let s := run Demo.cfg Demo.hist1 Demo.start
    Initial Demo.cfg Demo.start ∧ History.Signed Demo.cfg Demo.hist1 ∧ Demo.cfg.IsUser Demo.alice ∧
    roundings Demo.cfg Demo.alice Demo.hist1 Demo.start = 4 ∧ s.balance Demo.alice = 4000000 ∧
    s.index = 1100000000000 ∧ yieldAt s Demo.alice 1300000000000 = 1200000 :=
  ⟨Demo.start_initial, Demo.hist1_signed, Demo.alice_user, by decide +kernel⟩

end Dollar
