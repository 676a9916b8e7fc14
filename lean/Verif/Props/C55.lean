import Verif.Lemmas.Kept
import Verif.Props.C54
import Verif.Props.C22
import Verif.Props.C41

/-
C55: nobody but the holder can lower what the holder owns: balance, principal, the value of both, and
vault positions with the coins behind them.
-/
set_option maxRecDepth 100000
namespace Dollar
open MM Spec

/-- The account that signs (and thereby authorises) a message; `none` for relayed messages that
anyone may submit. -/
def Spec.signedBy (c : Cfg) : Msg → Option Addr
  | .claimYield s | .setPaused s _ | .setYieldRecipient s .. | .transfer s .. | .portalSetPaused s _
  | .setPeer s .. | .setBridgingPath s .. | .transferOwnership s _ | .lock s .. | .unlock s ..
  | .vaultsSetPaused s _ => c.decode s
  | .bankSend a .. | .keeperSend a .. | .bankMultiSend a _ | .ibcTransfer a .. | .warpTransfer a .. => some a
  | .deliver _ | .ibcReceive .. | .ibcTimeout _ | .ibcAckError _ | .ibcAckSuccess _ | .warpCreate _
  | .warpReceive .. => none

/-- What an account is worth: its balance, or the value of its principal at the current index when
that is more (the difference is what it can claim as yield). -/
def Spec.worth (s : State) (a : Addr) : Int :=
  max (s.balance a) (s.principalOf a * s.index / 10 ^ 12)

/-- The signer of a message that can move coins of the signer. -/
def spender (c : Cfg) : Msg → Option Addr
  | .claimYield s | .transfer s .. | .lock s .. | .unlock s .. => c.decode s
  | .bankSend a .. | .keeperSend a .. | .bankMultiSend a _ | .ibcTransfer a .. | .warpTransfer a .. => some a
  | _ => none

theorem spender_signed {c : Cfg} {m : Msg} {u : Addr} (h : spender c m = some u) : signedBy c m = some u := by
  cases m <;> first | exact h | cases h

theorem spender_user {c : Cfg} {m : Msg} {u : Addr} (hm : m.SignedByUser c) (h : spender c m = some u) :
    c.IsUser u := by
  cases m <;> first
    | exact hm u h
    | (cases h; exact hm)
    | (cases h; exact hm.1)
    | cases h

theorem OneOk.kept {c : Cfg} (hc : c.WF) {signer : String} {u x : Addr} {v : Int} {p : PosEntry}
    {amt b q j : Int} {s s' : State} (hd : c.decode signer = some u) (hu : c.Apart x)
    (hne : ∀ w t, acctOf c u w t ≠ x) (h : OneOk c signer u v p amt s s') (hs : Kept x b q j s) :
    Kept x b q j s' := by
  cases h with
  | staked m hv ha hm e =>
    rw [posAddr_eq hc hd] at hm
    subst e
    exact (hs.moved hu hm ha (hne _ _)).congr
  | flexible s1 m3 m4 owed y hv hr hy h3 hn h4 e =>
    rw [posAddr_eq hc hd] at h3 h4 hy
    subst e
    have q1 : Kept x b q j s1 := by
      rcases hr.run with ⟨_, _, rfl⟩ | ⟨_, _, _, m, hm, rfl⟩
      · exact hs.congr
      · exact (Kept.moved (s := { { s with totalFlexible := s.totalFlexible - roundedDown amt p.index } with
            rewards := rewardsAfter s.rewards p.index s.index (roundedDown amt p.index) }) hs.congr hu hm
            hr.nonneg hu.ne_flexible.symm).congr
    have hy0 : 0 ≤ y := by rw [hy]; exact claimable_nonneg _ _
    have q2 : Kept x b q j m3 := Kept.moved (s := { s1 with vstats := { s1.vstats with
      flexDistributed := s1.vstats.flexDistributed + owed } }) q1.congr hu h3 hy0 hu.ne_yield.symm
    exact (q2.moved hu h4 hn (hne _ _)).congr

theorem LoopOk.kept {c : Cfg} (hc : c.WF) {signer : String} {u x : Addr} {v : Int} {l : List PosEntry}
    {rem removed rem' removed' b q j : Int} {s s' : State} (hd : c.decode signer = some u)
    (hu : c.Apart x) (hne : ∀ w t, acctOf c u w t ≠ x)
    (h : LoopOk c signer u v l rem removed s rem' removed' s') (hs : Kept x b q j s) :
    Kept x b q j s' := by
  induction h with
  | nil => exact hs
  | stop => exact hs
  | step p t rem removed s m rem' removed' s' _ _ h1 _ ih => exact ih (h1.kept hc hd hu hne hs)

/-- Every message, on success: an account that no signer of the message controls is not debited. -/
theorem exec_kept {c : Cfg} (hc : c.WF) {env : Env} {m : Msg} {s s' : State} {x : Addr} {b q j : Int}
    (hu : c.Apart x) (hne : ∀ u, spender c m = some u → u ≠ x ∧ ∀ w t, acctOf c u w t ≠ x)
    (hl : Led c s) (hm : m.SignedByUser c)
    (h : exec c env m s = .ok () s') (hs : Kept x b q j s) : Kept x b q j s' := by
  have packet : ∀ p f, packetFailed c p f s = .ok () s' → Kept x b q j s' := by
    intro p f h
    obtain ⟨hin, _, m1, hmv, rfl⟩ := packetFailed_ok h
    obtain ⟨h0, _⟩ := hl.good.infl p hin
    have q0 : Kept x b q j (if ownPacket c p then retryAdded s IBC p.channel p.amount else s) := by
      split <;> exact hs.congr
    exact (q0.moved hu hmv h0.le (hu.ne_escrow _).symm).congr
  cases m with
  | claimYield signer =>
    obtain ⟨_, d, m, hd, hb, hmv, rfl⟩ := claimYield_ok h
    exact (hs.moved hu hmv (claimable_nonneg s d) hu.ne_yield.symm).congr
  | setPaused signer p =>
    obtain ⟨_, rfl⟩ := setPaused_ok h
    exact hs.congr
  | setYieldRecipient signer p i r =>
    obtain ⟨_, _, rfl⟩ := setYieldRecipient_ok h
    exact hs.congr
  | deliver vaa =>
    obtain ⟨v, sA, _, _, rfl, hA, hR, hd⟩ := deliver_did hc hl h
    generalize hq : content env vaa = q at hd
    cases hd with
    | ignored _ hn _ _ _ _ _ _ e =>
      rw [e]; exact hs.congr
    | token amount i rcp s1 hup hui hmk =>
      have h1 := (Keeps.ignore (Kept.updateIndex hu env i)).ok hup hs.congr
      have h2 := h1.of_eq (s' := minted s1 c.moduleAddr amount) rfl
        (by rw [minted_balance, if_neg hu.ne_module]; omega) rfl
      exact (h2.moved hu hmk.moved hmk.nonneg hu.ne_module.symm).congr
    | index i m hup e hui _ =>
      have h1 := (Kept.updateIndex hu env i).ok hup hs.congr
      rw [e]; exact h1.congr
  | transfer signer amt? ch t r =>
    obtain ⟨amt, _, hk⟩ := transfer_ok h
    obtain ⟨peer, sender, m, _, hd, _, _, hb, e⟩ := hk.run
    obtain ⟨m1, hm1, hle, rfl⟩ := hb.mid
    have h1 := Kept.moved (s := { s with nonce := (s.nonce + 1) % 2 ^ 32 }) hs.congr hu hm1 hb.nonneg
      (hne sender hd).1
    rw [e]
    refine Kept.of_eq h1 rfl ?_ rfl
    show (debit m1 c.moduleAddr amt).balance x = _
    rw [balance_debit, if_neg hu.ne_module]; omega
  | portalSetPaused signer p =>
    obtain ⟨_, _, rfl⟩ := portalSetPaused_ok h
    exact hs.congr
  | setPeer signer ch t mg =>
    obtain ⟨_, _, _, _, _, _, _, _, rfl⟩ := setPeer_ok h
    exact hs.congr
  | setBridgingPath signer ch t b =>
    obtain ⟨_, _, _, _, _, rfl⟩ := setBridgingPath_ok h
    exact hs.congr
  | transferOwnership signer o =>
    obtain ⟨_, _, _, _, rfl⟩ := transferOwnership_ok h
    exact hs.congr
  | lock signer v amt? =>
    obtain ⟨amt, d, _, hk⟩ := lock_ok h
    obtain ⟨m, hmv, rfl⟩ := hk.run
    exact (hs.moved hu hmv hk.nonneg (hne d hk.dec).1).congr
  | unlock signer v amt? =>
    obtain ⟨_, _, amt, d, _, hk⟩ := unlock_ok h
    obtain ⟨m, removed, hlp, rfl⟩ := hk.run
    exact (hlp.kept hc hk.dec hu (hne d hk.dec).2 hs).congr
  | vaultsSetPaused signer p =>
    obtain ⟨_, _, _, rfl⟩ := vaultsSetPaused_ok h
    exact hs.congr
  | bankSend d b amt =>
    obtain ⟨h0, hb, hmv⟩ := bankSend_ok h
    exact hs.moved hu hmv h0.le (hne d rfl).1
  | keeperSend d b amt =>
    obtain ⟨h0, hmv⟩ := keeperSend_ok h
    exact hs.moved hu hmv h0 (hne d rfl).1
  | bankMultiSend d outs =>
    have hd : c.IsUser d := hm
    have mm := bankMultiSend_ok hc hd.ne_yield hd.ne_module hl.good.index.ne'
      (show bankMultiSend c d outs s = .ok () s' from h)
    have hb := mm.bal x
    have hp := mm.prinEq x
    have hi : s'.index = s.index := (congrArg State.index mm.frame :)
    have ho := outTo_nonneg mm.pos x
    have hx : x ≠ d := (hne d rfl).1.symm
    have hv : 0 ≤ (outs.map fun o => if o.1 = x then roundedUp o.2 s.index else 0).sum := by
      refine List.sum_nonneg ?_
      intro z hz
      obtain ⟨o, ho, rfl⟩ := List.mem_map.1 hz
      split
      · have h0 : 0 ≤ o.2 := (mm.pos o ho).le
        exact Int.tdiv_nonneg (by have := mul_SCALE_nonneg h0; have := hl.good.index; omega)
          hl.good.index.le
      · exact le_refl _
    rw [if_neg hx] at hb hp
    have := hs.bal
    have := hs.prin
    exact ⟨by omega, by omega, hi ▸ hs.index, hi ▸ hs.pos⟩
  | ibcTransfer d ch r amt =>
    obtain ⟨h0, _, m, hmv, rfl⟩ := userIbcTransfer_ok h
    exact (hs.moved hu hmv h0.le (hne d rfl).1).congr
  | ibcReceive ch r amt =>
    obtain ⟨h0, _, hb, m, hmv, rfl⟩ := ibcReceive_ok h
    exact (hs.moved hu hmv h0.le (hu.ne_escrow _).symm).congr
  | ibcTimeout p => exact packet p true h
  | ibcAckError p => exact packet p false h
  | ibcAckSuccess p =>
    obtain ⟨_, rfl⟩ := packetAcked_ok h
    exact hs.congr
  | warpCreate t =>
    have h : warpCreate t s = .ok () s' := h
    unfold warpCreate at h
    have h := modify_ok.1 h
    subst h
    split <;> exact hs.congr
  | warpTransfer d t dom r amt =>
    obtain ⟨h0, col, m, hcol, hmv, rfl⟩ := warpSend_ok h
    exact (hs.moved hu hmv h0.le (hne d rfl).1).congr
  | warpReceive t d amt =>
    obtain ⟨h0, hb, col, hcol, hle, hmv⟩ := warpReceive_ok h
    exact Kept.moved (s := { s with collateral := s.collateral.set t (col - amt) }) hs.congr hu hmv h0.le
      hu.ne_warp.symm

theorem exec_positions {c : Cfg} (hc : c.WF) {env : Env} {m : Msg} {s s' : State} {a : Addr}
    (hne : signedBy c m ≠ some a) (hr : Reachable c s) (hm : m.SignedByUser c)
    (h : exec c env m s = .ok () s') (v t : Int) :
    s'.positions.get? (a, v, t) = s.positions.get? (a, v, t) := by
  by_cases hno : m.noOther = true
  · have e := ((Other.msg c env m hno) (otherF s)).ok h rfl
    rw [show s'.positions = s.positions from congrArg (fun z => z.1.1) e]
  rw [Bool.not_eq_true] at hno
  by_cases hp : m.isPortal = true
  · cases m <;> first | exact Bool.noConfusion hp | exact Bool.noConfusion hno | skip
    case deliver vaa =>
      obtain ⟨w, sA, _, _, rfl, hA, hR, hd⟩ := deliver_did hc (hr.led hc) h
      generalize hq : content env vaa = q at hd
      cases hd with
      | ignored _ hn _ _ _ _ _ _ e => rw [e]
      | token amount i rcp s1 hup hui hmk =>
        have h1 : s1.positions = s.positions := hui.positions
        have h2 : s'.positions = s1.positions := hmk.moved.positions
        rw [h2, h1]
      | index i m hup e hui _ =>
        have h1 : m.positions = s.positions := hui.positions
        rw [e]; exact congrArg (KV.get? · (a, v, t)) h1
  rw [Bool.not_eq_true] at hp
  by_cases hlk : ∃ x y z, m = .lock x y z
  · obtain ⟨x, y, z, rfl⟩ := hlk
    obtain ⟨amt, d, _, hk⟩ := lock_ok h
    obtain ⟨m, hmv, rfl⟩ := hk.run
    have hda : d ≠ a := fun e => hne (e ▸ hk.dec)
    show (m.positions.set (d, y, env.time) _).get? (a, v, t) = _
    rw [KV.get?_set, if_neg (fun e => hda (congrArg Prod.fst e).symm),
      show m.positions = s.positions from hmv.positions]
  by_cases hul : ∃ x y z, m = .unlock x y z
  · obtain ⟨x, y, z, rfl⟩ := hul
    obtain ⟨_, _, amt, d, _, hk⟩ := unlock_ok h
    obtain ⟨m, removed, hlp, rfl⟩ := hk.run
    have hda : d ≠ a := fun e => hne (e ▸ hk.dec)
    have hv := (hr.vinv hc).toV0
    have hD := hlp.did hc hk.dec (hm d hk.dec) hv (pending_positionsOf hv d y) hk.pos.le
    exact hD.others (a, v, t) fun e => hda e.1.symm
  have e := ((VaultF.route c env m hno hp (fun x y z e => hlk ⟨x, y, z, e⟩)
    (fun x y z e => hul ⟨x, y, z, e⟩)) (vaultF s)).ok h rfl
  rw [show s'.positions = s.positions from congrArg (fun z => z.1) e]

theorem acctOf_ne_flexAcct {c : Cfg} (hc : c.WF) {u a : Addr} (h : u ≠ a) (w t t' : Int) :
    acctOf c u w t' ≠ flexAcct c a t := by
  unfold acctOf
  split
  · exact fun e => h (flexAcct_inj hc e).1
  · exact (flexAcct_ne_staked hc a t).symm

theorem worth_mono {s s' : State} {a : Addr} (h : Kept a (s.balance a) (s.principalOf a) s.index s')
    (h0 : 0 ≤ s.balance a) (hi : 0 < s.index) : worth s a ≤ worth s' a := by
  unfold worth
  rcases Int.lt_or_le (s.principalOf a) 0 with hp | hp
  · have : s.principalOf a * s.index < 0 := mul_neg_of_neg_of_pos hp hi
    have h1 : s.principalOf a * s.index / 10 ^ 12 ≤ 0 := by omega
    refine max_le ?_ ?_
    · exact h.bal.trans (le_max_left _ _)
    · exact h1.trans (h0.trans (h.bal.trans (le_max_left _ _)))
  · refine max_le_max h.bal ?_
    have h1 := h.prin
    have h2 : s.principalOf a * s.index ≤ s'.principalOf a * s'.index :=
      mul_le_mul h1 h.index hi.le (hp.trans h1)
    exact Int.ediv_le_ediv (by decide) h2

/-- One transaction that a user did not sign lowers neither their balance nor their principal nor the
worth of both, leaves their vault positions as they are, and takes nothing from the accounts that
hold their flexible positions. -/
theorem C55_others_cannot_take {c : Cfg} (hc : c.WF) {s : State} (hr : Reachable c s) (env : Env) (m : Msg)
    (hm : m.SignedByUser c) {a : Addr} (hu : c.IsUser a) (hne : signedBy c m ≠ some a) :
    let s' := step c env m s
    s.balance a ≤ s'.balance a ∧ s.principalOf a ≤ s'.principalOf a ∧ worth s a ≤ worth s' a ∧
    (∀ v t, s'.positions.get? (a, v, t) = s.positions.get? (a, v, t)) ∧
    (∀ t, s.balance (vaultAccount c a 2 t) ≤ s'.balance (vaultAccount c a 2 t)) := by
  intro s'
  have hl := hr.led hc
  rcases step_cases c env m s with h | h
  · have e : s' = s := h
    rw [e]; exact ⟨le_refl _, le_refl _, le_refl _, fun _ _ => rfl, fun _ => le_refl _⟩
  change exec c env m s = .ok () s' at h
  have key : ∀ x, c.Apart x → (∀ u, spender c m = some u → u ≠ x ∧ ∀ w t, acctOf c u w t ≠ x) →
      Kept x (s.balance x) (s.principalOf x) s.index s' := fun x hx hn =>
    exec_kept hc hx hn hl hm h ⟨le_refl _, le_refl _, le_refl _, hl.good.index⟩
  have hk := key a hu.apart fun u he => ⟨fun e => hne (e ▸ spender_signed he), fun w t => (hu.ne_acct _ _ _).symm⟩
  refine ⟨hk.bal, hk.prin, worth_mono hk (hl.good.bal a) hl.good.index,
    fun v t => exec_positions hc hne hr hm h v t, fun t => ?_⟩
  have e0 : vaultAccount c a 2 t = flexAcct c a t := by unfold vaultAccount flexAcct; rw [if_pos rfl]
  rw [e0]
  refine (key _ (hc.apart_flex a t) fun u he => ?_).bal
  have hua : u ≠ a := fun e => hne (e ▸ spender_signed he)
  refine ⟨fun e => ?_, fun w t' => acctOf_ne_flexAcct hc hua w t t'⟩
  exact (spender_user hm he).ne_flexAcct _ _ e

/-- The same over any history in which the user signs nothing. -/
theorem C55_history {c : Cfg} (hc : c.WF) {s : State} (hr : Reachable c s) {h : History}
    (hsig : History.Signed c h) {a : Addr} (hu : c.IsUser a)
    (hne : ∀ e ∈ h, signedBy c e.2 ≠ some a) :
    let s' := run c h s
    s.balance a ≤ s'.balance a ∧ s.principalOf a ≤ s'.principalOf a ∧ worth s a ≤ worth s' a ∧
    (∀ v t, s'.positions.get? (a, v, t) = s.positions.get? (a, v, t)) ∧
    (∀ t, s.balance (vaultAccount c a 2 t) ≤ s'.balance (vaultAccount c a 2 t)) := by
  induction h generalizing s with
  | nil => exact ⟨le_refl _, le_refl _, le_refl _, fun _ _ => rfl, fun _ => le_refl _⟩
  | cons e t ih =>
    obtain ⟨env, m⟩ := e
    have hm : m.SignedByUser c := hsig (env, m) List.mem_cons_self
    obtain ⟨h1, h2, h3, h4, h5⟩ := C55_others_cannot_take hc hr env m hm hu (hne _ List.mem_cons_self)
    obtain ⟨k1, k2, k3, k4, k5⟩ := ih (s := step c env m s) (Reachable.step hr hm)
      (fun e he => hsig e (List.mem_cons_of_mem _ he)) (fun e he => hne e (List.mem_cons_of_mem _ he))
    exact ⟨h1.trans k1, h2.trans k2, h3.trans k3, fun v t => (k4 v t).trans (h4 v t),
      fun t => (h5 t).trans (k5 t)⟩

namespace Demo

/-- After `hist1`: bob pays alice, a portal delivery raises the index, bob leaves the vault. -/
def hist55 : History :=
  [(env 8, .bankSend bob alice 1000), (env 9, .deliver [5]), (env 10, .unlock bobS 1 (some 2000000))]

theorem hist55_signed : History.Signed cfg hist55 := by
  intro e he
  simp only [hist55, List.mem_cons, List.not_mem_nil, or_false] at he
  rcases he with rfl | rfl | rfl
  · exact bob_user
  · trivial
  · exact bobS_user

end Demo

/-- Non-vacuity: alice signs nothing in this history, holds positions in both vaults and ends up with
strictly more. -/
example : let s := run Demo.cfg Demo.hist1 Demo.start
    let s' := run Demo.cfg Demo.hist55 s
    Reachable Demo.cfg s ∧ History.Signed Demo.cfg Demo.hist55 ∧ Demo.cfg.IsUser Demo.alice ∧
    (∀ e ∈ Demo.hist55, signedBy Demo.cfg e.2 ≠ some Demo.alice) ∧
    worth s Demo.alice = 4400000 ∧ worth s' Demo.alice = 5201183 ∧
    (s.positions.get? (Demo.alice, 1, 5)).isSome ∧ (s.positions.get? (Demo.alice, 2, 3)).isSome :=
  ⟨Demo.reach1, Demo.hist55_signed, Demo.alice_user, by decide +kernel⟩

end Dollar
