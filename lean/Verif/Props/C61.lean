import Verif.Lemmas.Log
import Verif.Spec.Indexer
import Verif.Spec.Demo
import Verif.Props.C41

/-
C61: the event log is complete: whoever follows it knows the settings, the index, the transfer
sequence and the vault statistics of the chain.
-/
set_option maxRecDepth 100000
set_option linter.unusedSimpArgs false
namespace Dollar
open MM Spec

theorem replay_cons (v : Indexer) (e : Event) (t : List Event) :
    v.replay (e :: t) = (v.follow e).bind fun w => w.replay t := by
  show (match v.follow e with | some v' => v'.replay t | none => none) = _
  cases v.follow e <;> rfl

theorem replay_append (v : Indexer) (l l' : List Event) :
    v.replay (l ++ l') = (v.replay l).bind fun w => w.replay l' := by
  induction l generalizing v with
  | nil => rfl
  | cons e t ih =>
    rw [List.cons_append, replay_cons, replay_cons]
    cases v.follow e with
    | none => rfl
    | some w => exact ih w

theorem yieldIn_append (l l' : List Event) : yieldIn (l ++ l') = yieldIn l + yieldIn l' := by
  induction l with
  | nil => exact (zero_add _).symm
  | cons e t ih =>
    cases e
    case indexUpdated a b c d =>
      show d + yieldIn (t ++ l') = d + yieldIn t + _
      omega
    all_goals exact ih

theorem caughtUp_cons (v : Indexer) (e : Event) (t : List Event) :
    v.caughtUp (e :: t) = (v.knows e && ((v.follow e).map fun w => w.caughtUp t).getD false) := by
  show (v.knows e && (match v.follow e with | some v' => v'.caughtUp t | none => false)) = _
  cases v.follow e <;> rfl

theorem caughtUp_append {v w : Indexer} {l l' : List Event} (hv : v.replay l = some w)
    (h : v.caughtUp (l ++ l') = true) : v.caughtUp l = true ∧ w.caughtUp l' = true := by
  induction l generalizing v with
  | nil => cases hv; exact ⟨rfl, h⟩
  | cons e t ih =>
    rw [replay_cons] at hv
    rw [List.cons_append, caughtUp_cons, Bool.and_eq_true] at h
    rw [caughtUp_cons, Bool.and_eq_true]
    cases hf : v.follow e with
    | none => rw [hf] at hv; cases hv
    | some v' =>
      rw [hf] at hv h
      obtain ⟨h1, h2⟩ := ih hv h.2
      exact ⟨⟨h.1, h1⟩, h2⟩

/-- The log grew by `new`, following `new` explains the change, and `new` does not speak of more yield
than was made; of exactly that, if every index a receipt quoted was announced. -/
def Logged (s s' : State) : Prop :=
  ∃ new, s'.events = s.events ++ new ∧ (onChain s).replay new = some (onChain s') ∧
    yieldIn new ≤ s'.totalYield - s.totalYield ∧
    ((onChain s).caughtUp new = true → yieldIn new = s'.totalYield - s.totalYield)

namespace Logged
variable {s s1 s2 s' : State}

/-- A log that explains the yield exactly. -/
theorem exact {new : List Event} (h1 : s'.events = s.events ++ new)
    (h2 : (onChain s).replay new = some (onChain s'))
    (h3 : yieldIn new = s'.totalYield - s.totalYield) : Logged s s' :=
  ⟨new, h1, h2, h3.le, fun _ => h3⟩

theorem refl (s : State) : Logged s s := ⟨[], by simp, rfl, by simp [yieldIn], by simp [yieldIn]⟩

theorem trans (h1 : Logged s s1) (h2 : Logged s1 s2) : Logged s s2 := by
  obtain ⟨l1, e1, r1, y1, z1⟩ := h1
  obtain ⟨l2, e2, r2, y2, z2⟩ := h2
  refine ⟨l1 ++ l2, by rw [e2, e1, List.append_assoc], ?_, ?_, ?_⟩
  · rw [replay_append, r1]; exact r2
  · rw [yieldIn_append]; omega
  · intro h
    obtain ⟨g1, g2⟩ := caughtUp_append r1 h
    rw [yieldIn_append, z1 g1, z2 g2]; omega

theorem silent (h1 : s'.events = s.events) (h2 : onChain s' = onChain s)
    (h3 : s'.totalYield = s.totalYield := by rfl) : Logged s s' :=
  .exact (new := []) (by simp [h1]) (by rw [h2]; rfl) (by rw [h3, sub_self]; rfl)

theorem one {e : Event} (h1 : s'.events = s.events ++ [e]) (h2 : (onChain s).follow e = some (onChain s'))
    (h3 : s'.totalYield = s.totalYield := by rfl) (h4 : yieldIn [e] = 0 := by rfl) :
    Logged s s' :=
  .exact h1 (by unfold Indexer.replay; rw [h2]; rfl) (by rw [h4, h3, sub_self])

theorem moved {c : Cfg} {a b : Addr} {v : Int} (h : Moved c s a b v s') : Logged s s' :=
  silent h.events (congrArg onChain h.frame :) (congrArg State.totalYield h.frame :)

end Logged

/-- The indexer with `d` less principal in a vault. -/
def lessP (v d : Int) (w : Indexer) : Indexer :=
  if v = STAKED then { w with stakedPrincipal := w.stakedPrincipal - d }
  else { w with flexiblePrincipal := w.flexiblePrincipal - d }

theorem lessP_index (v d : Int) (w : Indexer) : (lessP v d w).index = w.index := by
  unfold lessP; split <;> rfl

theorem follow_unlocked {v : Int} (hv : v = STAKED ∨ v = FLEXIBLE) (d p : Int) (w : Indexer) (x : String)
    (i a : Int) :
    (lessP v d w).follow (.positionUnlocked x v i a p) = some (lessP v (d + p) w) := by
  rcases hv with rfl | rfl
  · show some _ = some _
    congr 1
    show Indexer.mk _ _ _ _ _ _ _ _ _ (w.stakedPrincipal - d - p) _ _ _ =
      Indexer.mk _ _ _ _ _ _ _ _ _ (w.stakedPrincipal - (d + p)) _ _ _
    rw [sub_sub]; rfl
  · show some _ = some _
    congr 1
    show Indexer.mk _ _ _ _ _ _ _ _ _ _ (w.flexiblePrincipal - d - p) _ _ =
      Indexer.mk _ _ _ _ _ _ _ _ _ _ (w.flexiblePrincipal - (d + p)) _ _
    rw [sub_sub]; rfl

theorem follow_reward (v d : Int) (w : Indexer) (x : Addr) {a : Int} (h : 0 ≤ a) :
    (lessP v d w).follow (.rewardClaimed x a) =
      some (lessP v d { w with distributed := w.distributed + a }) := by
  show (if 0 ≤ a then _ else _) = _
  rw [if_pos h]
  unfold lessP
  split <;> rfl

/-- One position of `Unlock`. -/
theorem OneOk.log {c : Cfg} {signer : String} {a : Addr} {v : Int} {p : PosEntry} {amt : Int}
    {s s' : State} (hv : v = STAKED ∨ v = FLEXIBLE) (h : OneOk c signer a v p amt s s') (d : Int) :
    ∃ new, s'.events = s.events ++ new ∧ (lessP v d (onChain s)).replay new =
      some (lessP v (d + roundedDown amt p.index) (onChain s')) ∧ yieldIn new = 0 ∧
      s'.totalYield = s.totalYield := by
  cases h with
  | staked m _ _ hm e =>
    have e1 : m.events = s.events := hm.events
    have e2 : onChain s' = onChain s := by rw [e]; exact (congrArg onChain hm.frame :)
    have y1 : m.totalYield = s.totalYield := (congrArg State.totalYield hm.frame :)
    refine ⟨[.positionUnlocked signer v p.index amt (roundedDown amt p.index)], by rw [e, ← e1], ?_, rfl,
      by rw [e]; exact y1⟩
    rw [e2]
    unfold Indexer.replay
    rw [follow_unlocked hv]; rfl
  | flexible s1 m3 m4 owed y _ hr _ hm3 _ hm4 e =>
    have e3 : m3.events = s1.events := hm3.events
    have e4 : m4.events = m3.events := hm4.events
    have y3 : m3.totalYield = s1.totalYield := (congrArg State.totalYield hm3.frame :)
    have y4 : m4.totalYield = m3.totalYield := (congrArg State.totalYield hm4.frame :)
    have y' : s'.totalYield = s1.totalYield := by rw [e, ← y3, ← y4]
    have o4 : onChain m4 = onChain m3 := (congrArg onChain hm4.frame :)
    have o3 : onChain m3 = { onChain s1 with distributed := s1.vstats.flexDistributed + owed } :=
      (congrArg onChain hm3.frame :)
    have o' : onChain s' = { onChain s1 with distributed := s1.vstats.flexDistributed + owed } := by
      rw [e, ← o3, ← o4]; rfl
    have hlast : ∀ w : Indexer, (lessP v d w).replay
        [.positionUnlocked signer v p.index (amt + y) (roundedDown amt p.index)] =
        some (lessP v (d + roundedDown amt p.index) w) := by
      intro w
      unfold Indexer.replay
      rw [follow_unlocked hv]; rfl
    rcases hr.run with ⟨_, h0, rfl⟩ | ⟨_, _, _, m, hm, rfl⟩
    · refine ⟨[.positionUnlocked signer v p.index (amt + y) (roundedDown amt p.index)], ?_, ?_, rfl, y'⟩
      · rw [e]; show m4.events ++ _ = _; rw [e4, e3]
      · rw [hlast, o', h0, add_zero]; rfl
    · have e1 : m.events = s.events := hm.events
      have o1 : onChain m = onChain s := (congrArg onChain hm.frame :)
      refine ⟨[.rewardClaimed p.address owed,
        .positionUnlocked signer v p.index (amt + y) (roundedDown amt p.index)], ?_, ?_, rfl,
        y'.trans (congrArg State.totalYield hm.frame :)⟩
      · rw [e]; show m4.events ++ _ = _; rw [e4, e3]
        show m.events ++ _ ++ _ = _
        rw [e1, List.append_assoc]; rfl
      · unfold Indexer.replay
        rw [follow_reward _ _ _ _ hr.nonneg]
        show (lessP v d _).replay _ = _
        rw [hlast, o']
        show some (lessP v _ { onChain s with distributed := (onChain s).distributed + owed }) =
          some (lessP v _ { onChain m with distributed := (onChain m).distributed + owed })
        rw [o1]

theorem LoopOk.log {c : Cfg} {signer : String} {a : Addr} {v : Int} (hv : v = STAKED ∨ v = FLEXIBLE)
    {l : List PosEntry} {rem removed rem' removed' : Int} {s s' : State}
    (h : LoopOk c signer a v l rem removed s rem' removed' s') :
    ∃ new, s'.events = s.events ++ new ∧ (lessP v removed (onChain s)).replay new =
      some (lessP v removed' (onChain s')) ∧ yieldIn new = 0 ∧ s'.totalYield = s.totalYield := by
  induction h with
  | nil => exact ⟨[], by simp, rfl, rfl, rfl⟩
  | stop => exact ⟨[], by simp, rfl, rfl, rfl⟩
  | step p t rem removed s m rem' removed' s' _ _ h1 _ ih =>
    obtain ⟨n1, e1, r1, y1, z1⟩ := h1.log hv removed
    obtain ⟨n2, e2, r2, y2, z2⟩ := ih
    refine ⟨n1 ++ n2, by rw [e2, e1, List.append_assoc], ?_, by rw [yieldIn_append, y1, y2]; rfl,
      z2.trans z1⟩
    rw [replay_append, r1]
    exact r2

theorem onChain_unlocked (m : State) (a : Addr) {v : Int} (hv : v = STAKED ∨ v = FLEXIBLE) (d : Int) :
    onChain (unlockedState m a v d) = lessP v d (onChain m) := by
  unfold unlockedState
  rcases hv with rfl | rfl <;> (dsimp only; split <;> rfl)

theorem onChain_locked (m : State) (x : String) (a : Addr) {v : Int} (hv : v = STAKED ∨ v = FLEXIBLE)
    (amt t : Int) : (onChain m).follow (.positionLocked x v m.index amt (roundedDown amt m.index)) =
      some (onChain (lockedState m x a v amt t)) := by
  have hs : ∀ (b : Prop) [Decidable b] (x y : VStats) (f : VStats → Int), f x = f y → f (if b then x else y) = f y := by
    intro b _ x y f h; split
    · exact h
    · rfl
  have e1 : m.index = (onChain m).index := rfl
  rcases hv with rfl | rfl
  · unfold Indexer.follow lockedState
    dsimp only
    rw [if_pos (⟨e1, rfl⟩ : m.index = (onChain m).index ∧ STAKED = 1), if_neg (by decide)]
    congr 1
    ext <;> first | rfl | skip
    · show m.vstats.stakedPrincipal + _ = (if _ then _ else m.vstats).stakedPrincipal + _
      congr 1
      exact (hs _ (vUsers STAKED u64inc m.vstats) m.vstats VStats.stakedPrincipal rfl).symm
    · exact (hs _ (vUsers STAKED u64inc m.vstats) m.vstats VStats.flexPrincipal rfl).symm
    · exact (hs _ (vUsers STAKED u64inc m.vstats) m.vstats VStats.flexDistributed rfl).symm
  · unfold Indexer.follow lockedState
    dsimp only
    rw [if_neg (fun h : m.index = (onChain m).index ∧ FLEXIBLE = 1 => absurd h.2 (by decide)),
      if_pos (⟨e1, rfl⟩ : m.index = (onChain m).index ∧ FLEXIBLE = 2), if_pos rfl]
    congr 1
    ext <;> first | rfl | skip
    · exact (hs _ (vUsers FLEXIBLE u64inc m.vstats) m.vstats VStats.stakedPrincipal rfl).symm
    · show m.vstats.flexPrincipal + _ = (if _ then _ else m.vstats).flexPrincipal + _
      congr 1
      exact (hs _ (vUsers FLEXIBLE u64inc m.vstats) m.vstats VStats.flexPrincipal rfl).symm
    · exact (hs _ (vUsers FLEXIBLE u64inc m.vstats) m.vstats VStats.flexDistributed rfl).symm

/-- An index update, successful or not: the log, followed by the report of a receipt, explains it. -/
theorem onChain_ui {c : Cfg} {s s' : State} {i : Int} (h : UI c s i s') :
    onChain s' = { onChain s with index := s'.index } := by
  have : onChain (updCore s') = onChain (updCore s) := congrArg onChain h.frame
  have e : ∀ x : State, onChain (updCore x) = { onChain x with index := 0, bridged := 0 } := fun _ => rfl
  rw [e, e] at this
  have e' : onChain s' = { { onChain s' with index := 0, bridged := 0 } with
    index := s'.index, bridged := s'.supply - s'.totalYield } := rfl
  have e2 : s'.supply - s'.totalYield = s.supply - s.totalYield := by have := h.yield; omega
  rw [e', this, e2]
  rfl

theorem Updated.logged {c : Cfg} {s s' : State} {i : Int} (h : UI c s i s') (hu : Updated s i s') :
    Logged s s' := by
  have h1 := hu.covered
  have h2 := hu.supply
  have h3 := h.yield
  refine Logged.exact hu.events ?_ ?_
  · rw [onChain_ui h, hu.index]
    rw [replay_cons]
    have e : (onChain s).follow (.indexUpdated s.index i s.totalPrincipal
        (present s.totalPrincipal i - s.supply)) = some { onChain s with index := i } :=
      if_pos ⟨rfl, hu.greater, by omega⟩
    rw [e]
    rfl
  · show present s.totalPrincipal i - s.supply + 0 = _
    omega

theorem replay_receipt (v : Indexer) (ch : Nat) (tok : Bytes) (x : Bytes) (r : Addr) (amt i : Int)
    (id : Bytes) (id' : Bytes) (h : 0 ≤ amt) :
    v.replay [.mTokenReceived ch tok x r amt i id, .transferRedeemed id'] =
      some { v with index := max v.index i, bridged := v.bridged + amt } := by
  rw [replay_cons]
  have e : v.follow (.mTokenReceived ch tok x r amt i id) =
    some { v with index := max v.index i, bridged := v.bridged + amt } := if_pos h
  rw [e]
  rfl

/-- Every accepted message is explained by what it logged. -/
theorem exec_logged {c : Cfg} (hc : c.WF) {env : Env} {m : Msg} {s s' : State} (hr : Reachable c s)
    (hm : m.SignedByUser c) (h : exec c env m s = .ok () s') : Logged s s' := by
  have failed : ∀ p b, packetFailed c p b s = .ok () s' → Logged s s' := by
    intro p b hp
    obtain ⟨_, _, n, hmv, rfl⟩ := packetFailed_ok hp
    have e1 : n.events = s.events := by rw [hmv.events]; split <;> rfl
    have e2 : onChain n = onChain s := by
      have : onChain n = onChain (if ownPacket c p then retryAdded s IBC p.channel p.amount else s) :=
        (congrArg onChain hmv.frame :)
      rw [this]; split <;> rfl
    have e3 : n.totalYield = s.totalYield := by
      have : n.totalYield = (if ownPacket c p then retryAdded s IBC p.channel p.amount else s).totalYield :=
        (congrArg State.totalYield hmv.frame :)
      rw [this]; split <;> rfl
    exact .silent e1 e2 e3
  cases m with
  | claimYield signer =>
    obtain ⟨_, a, n, hd, hb, hmv, rfl⟩ := claimYield_ok h
    exact (Logged.moved hmv).trans (.one rfl rfl)
  | setPaused signer p =>
    obtain ⟨_, rfl⟩ := setPaused_ok h
    exact .one rfl rfl
  | setYieldRecipient signer p i r =>
    obtain ⟨_, _, rfl⟩ := setYieldRecipient_ok h
    refine .one rfl ?_
    show some _ = some _
    congr 1
    ext <;> first | rfl | skip
    show _ ↔ (s.recipients.set (p, i) r).get? _ = _
    rw [KV.get?_set]
    simp only [Prod.mk.injEq]
    rfl
  | deliver vaa =>
    obtain ⟨_, v, peer, t, mm, n, h1, h2, h3, h4, h5, h6, h7, h8, h9, rfl⟩ := (deliver_ok h).run
    refine Logged.trans ?_ (Logged.one (s := n) rfl rfl)
    have hg : Good c { s with archive := s.archive ++ [v.digest] } := (hr.led hc).good.congr
    refine Logged.trans (s1 := { s with archive := s.archive ++ [v.digest] }) (.silent rfl rfl) ?_
    generalize { s with archive := s.archive ++ [v.digest] } = sA at h9 hg
    cases h9 with
    | ignored _ e => rw [e]; exact .refl _
    | token p m1 _ _ _ _ hmint e =>
      obtain ⟨s1, hi, hu, hmk⟩ := mint_ok hc hg hmint
      have hn0 := hmk.nonneg
      have e1 : m1.events = s1.events := hmk.moved.events
      have y1 : m1.totalYield = s1.totalYield := (congrArg State.totalYield hmk.moved.frame :)
      have o1 : onChain m1 = { onChain s1 with bridged := (onChain s1).bridged + p.amount } := by
        have : onChain m1 = { onChain s1 with bridged := s1.supply + p.amount - s1.totalYield } :=
          (congrArg onChain hmk.moved.frame :)
        rw [this]
        have e2 : s1.supply + p.amount - s1.totalYield = (onChain s1).bridged + p.amount := by
          show _ = s1.supply - s1.totalYield + _; omega
        rw [e2]
      have on : onChain n = onChain m1 := by rw [e]; rfl
      have yn : n.totalYield = s1.totalYield := by rw [e]; exact y1
      by_cases hok : (updateIndex c env p.index sA).isOk = true
      · have hup : updateIndex c env p.index sA = .ok () s1 := by
          rw [ignore_apply] at hi
          cases hx : updateIndex c env p.index sA with
          | ok _ s2 => rw [hx] at hi; cases hi; rfl
          | err => rw [hx] at hok; cases hok
          | panic => rw [hx] at hok; cases hok
        obtain ⟨_, hU⟩ := (updateIndex_wp hc env p.index hg).of_ok hup
        refine (hU.logged hu).trans (.exact (by rw [e, ← e1]; exact List.append_assoc ..) ?_
          (by rw [yn, sub_self]; rfl))
        refine (replay_receipt _ _ _ _ _ _ _ _ _ hn0).trans ?_
        rw [on, o1]
        have : max (onChain s1).index p.index = (onChain s1).index := by
          show max s1.index _ = s1.index
          rw [hU.index, max_self]
        rw [this]
      · have hup : ∃ er, updateIndex c env p.index sA = .err er s1 := by
          rw [ignore_apply] at hi
          cases hx : updateIndex c env p.index sA with
          | ok _ s2 => rw [hx] at hok; exact absurd rfl hok
          | err er s2 => rw [hx] at hi; cases hi; exact ⟨er, rfl⟩
          | panic => rw [hx] at hi; cases hi
        obtain ⟨er, hup⟩ := hup
        obtain ⟨hev, hidx⟩ := EvF.updateIndex_err c env hup
        have hy := hu.yield
        have hs := hu.supply_mono
        refine ⟨_, by rw [e, ← hev, ← e1]; exact List.append_assoc .., ?_, ?_, ?_⟩
        · refine (replay_receipt _ _ _ _ _ _ _ _ _ hn0).trans ?_
          rw [on, o1, onChain_ui hu, hidx]
          rfl
        · rw [yn]; show (0 : Int) ≤ _; omega
        · intro hcu
          rw [List.singleton_append, caughtUp_cons, Bool.and_eq_true] at hcu
          have hle : p.index ≤ sA.index := of_decide_eq_true hcu.1
          have := hu.issued
          rw [yn]; show (0 : Int) = _; omega
    | index i _ _ hx =>
      obtain ⟨hu, hU⟩ := (updateIndex_wp hc env i hg).of_ok hx
      exact hU.logged hu
  | transfer signer amt? ch tok r =>
    obtain ⟨amt, _, ht⟩ := transfer_ok h
    obtain ⟨d, hev⟩ := ht.log
    obtain ⟨peer, a, n, _, _, _, _, hb, e⟩ := ht.run
    obtain ⟨n2, hmv, _, rfl⟩ := hb.mid
    have e2 : onChain s' = { onChain s with
        nonce := (s.nonce + 1) % 2 ^ 32, bridged := (onChain s).bridged - amt } := by
      have : onChain s' = { onChain s with
          nonce := (s.nonce + 1) % 2 ^ 32, bridged := s.supply - amt - s.totalYield } := by
        rw [e]
        exact (congrArg (fun x => { onChain x with bridged := x.supply - amt - x.totalYield })
          hmv.frame :)
      rw [this]
      have e3 : s.supply - amt - s.totalYield = (onChain s).bridged - amt := by
        show _ = s.supply - s.totalYield - _; omega
      rw [e3]
    refine .exact hev ?_ ?_
    · rw [e2, replay_cons]
      have f1 : (onChain s).follow (.usdnTokenSent ch tok signer r amt s.index d) =
        some { onChain s with bridged := (onChain s).bridged - amt } := if_pos ⟨rfl, ht.nonneg⟩
      rw [f1]
      show Indexer.replay _ _ = _
      rw [replay_cons]
      have f2 : Indexer.follow { onChain s with bridged := (onChain s).bridged - amt }
          (.transferSent r amt ch s.nonce) = some { onChain s with
            nonce := (s.nonce + 1) % 2 ^ 32, bridged := (onChain s).bridged - amt } := if_pos rfl
      rw [f2]
      rfl
    · have : s'.totalYield = s.totalYield := by
        rw [e]; exact (congrArg State.totalYield hmv.frame :)
      rw [this, sub_self]; rfl
  | portalSetPaused signer p =>
    obtain ⟨_, _, rfl⟩ := portalSetPaused_ok h
    exact .one rfl rfl
  | setPeer signer ch t mg =>
    obtain ⟨_, _, _, _, _, _, _, _, rfl⟩ := setPeer_ok h
    refine .one rfl ?_
    show (if s.peers.get? ch = s.peers.get? ch then _ else _) = _
    rw [if_pos rfl]
    congr 1
    ext <;> first | rfl | skip
    show _ ↔ (s.peers.set ch _).get? _ = _
    rw [KV.get?_set]
    rfl
  | setBridgingPath signer ch t b =>
    obtain ⟨_, _, _, _, _, rfl⟩ := setBridgingPath_ok h
    refine .one rfl ?_
    show some _ = some _
    congr 1
    ext <;> first | rfl | skip
    show _ ↔ (s.paths.set (ch, t) _).get? _ = _
    rw [KV.get?_set]
    simp only [Prod.mk.injEq]
    rfl
  | transferOwnership signer o =>
    obtain ⟨_, h1, h2, _, rfl⟩ := transferOwnership_ok h
    exact .one rfl (if_pos ⟨h1, h2⟩)
  | lock signer v amt? =>
    obtain ⟨amt, a, _, hk⟩ := lock_ok h
    obtain ⟨n, hmv, rfl⟩ := hk.run
    exact (Logged.moved hmv).trans (.one rfl (onChain_locked n signer a hk.vault amt _))
  | unlock signer v amt? =>
    obtain ⟨_, _, amt, a, _, hk⟩ := unlock_ok h
    obtain ⟨n, removed, hlp, rfl⟩ := hk.run
    obtain ⟨new, e1, e2, y1, y2⟩ := hlp.log hk.vault
    refine .exact (new := new) e1 ?_ (by rw [y1, ← y2]; exact (sub_self n.totalYield).symm)
    rw [onChain_unlocked n a hk.vault, ← e2]
    congr 1
    unfold lessP
    rcases hk.vault with e | e
    · rw [if_pos e, sub_zero]
    · rw [if_neg (by rw [e]; decide), sub_zero]
  | vaultsSetPaused signer p =>
    obtain ⟨_, _, _, rfl⟩ := vaultsSetPaused_ok h
    exact .one rfl rfl
  | bankSend a b amt =>
    obtain ⟨_, _, hmv⟩ := bankSend_ok h
    exact .moved hmv
  | keeperSend a b amt =>
    obtain ⟨_, hmv⟩ := keeperSend_ok h
    exact .moved hmv
  | bankMultiSend a outs =>
    have hu : c.IsUser a := hm
    have hmm := bankMultiSend_ok hc hu.ne_yield hu.ne_module (hr.led hc).good.index.ne' h
    exact .silent (congrArg State.events hmm.frame :) (congrArg onChain hmm.frame :)
      (congrArg State.totalYield hmm.frame :)
  | ibcTransfer a ch r amt =>
    obtain ⟨_, _, n, hmv, rfl⟩ := userIbcTransfer_ok h
    exact (Logged.moved hmv).trans (.silent rfl rfl)
  | ibcReceive ch r amt =>
    obtain ⟨_, _, _, n, hmv, rfl⟩ := ibcReceive_ok h
    exact (Logged.moved hmv).trans (.silent rfl rfl)
  | ibcTimeout p => exact failed p true h
  | ibcAckError p => exact failed p false h
  | ibcAckSuccess p =>
    obtain ⟨_, rfl⟩ := packetAcked_ok h
    exact .silent rfl rfl
  | warpCreate t =>
    have h : warpCreate t s = .ok () s' := h
    unfold warpCreate at h
    have h := modify_ok.1 h
    subst h
    split
    · exact .refl _
    · exact .silent rfl rfl
  | warpTransfer a t d r amt =>
    obtain ⟨_, col, n, _, hmv, rfl⟩ := warpSend_ok h
    exact (Logged.moved hmv).trans (.silent rfl rfl)
  | warpReceive t a amt =>
    obtain ⟨_, _, col, _, _, hmv⟩ := warpReceive_ok h
    exact Logged.trans (s1 := { s with collateral := s.collateral.set t (col - amt) }) (.silent rfl rfl)
      (.moved hmv)

theorem run_logged {c : Cfg} (hc : c.WF) {s : State} (hr : Reachable c s) (h : History)
    (hsig : History.Signed c h) : Logged s (run c h s) := by
  induction h generalizing s with
  | nil => exact .refl _
  | cons e t ih =>
    obtain ⟨env, m⟩ := e
    have hm : m.SignedByUser c := hsig (env, m) List.mem_cons_self
    refine Logged.trans (s1 := step c env m s) ?_
      (ih (Reachable.step hr hm) fun e he => hsig e (List.mem_cons_of_mem _ he))
    unfold step runTx
    cases hx : exec c env m s with
    | ok u s' => exact exec_logged hc hr hm hx
    | err => exact .refl _
    | panic => exact .refl _

/-- The event log is complete and consistent: whatever happens on the chain, the log only grows, and
an indexer that knew the state before and follows the new events (never meeting one that contradicts
what it knows) ends up with the settings, the index, the sequence number of transfers, the vault statistics and the
bridged part of the supply the chain has. -/
theorem C61_log_complete {c : Cfg} (hc : c.WF) {s : State} (hr : Reachable c s) (h : History)
    (hsig : History.Signed c h) :
    ∃ new, (run c h s).events = s.events ++ new ∧
      (onChain s).replay new = some (onChain (run c h s)) := by
  obtain ⟨new, h1, h2, _⟩ := run_logged hc hr h hsig
  exact ⟨new, h1, h2⟩

/-- Two executions that left the same log agree on everything the indexer follows: nothing in it
changes silently. -/
theorem C61_same_log_same_chain {c : Cfg} (hc : c.WF) {s : State} (hr : Reachable c s) (h h' : History)
    (hsig : History.Signed c h) (hsig' : History.Signed c h')
    (hev : (run c h s).events = (run c h' s).events) :
    onChain (run c h s) = onChain (run c h' s) := by
  obtain ⟨n, e, r⟩ := C61_log_complete hc hr h hsig
  obtain ⟨n', e', r'⟩ := C61_log_complete hc hr h' hsig'
  rw [e, e'] at hev
  rw [List.append_cancel_left hev, r'] at r
  exact (Option.some.inj r).symm

/-- Non-vacuity: the demo history logs 22 events that move the index, the nonce and the vaults, and
an indexer that follows them arrives at these numbers. -/
example : Initial Demo.cfg Demo.start ∧ History.Signed Demo.cfg Demo.hist2 ∧
    (run Demo.cfg Demo.hist2 Demo.start).events.length = 22 ∧
    (((onChain Demo.start).replay (run Demo.cfg Demo.hist2 Demo.start).events).map fun v =>
      (v.index, v.nonce, v.stakedPrincipal, v.flexiblePrincipal, v.distributed)) =
      some (1200000000000, 1, 3000000, 1000000, 250000) :=
  ⟨Demo.start_initial, Demo.hist2_signed, by decide +kernel, by decide +kernel⟩

/-- A log with a hole does not replay: without the events of the first index update the demo log is
rejected at the second. -/
example : ((onChain Demo.start).replay ((run Demo.cfg Demo.hist2 Demo.start).events.take 9 ++
      (run Demo.cfg Demo.hist2 Demo.start).events.drop 12)).isNone = true := by
  decide +kernel

end Dollar
