import Verif.Lemmas.NoPanic2
import Verif.Props.C19
import Verif.Props.C41
import Verif.Props.C52
import Verif.Props.C72
import Verif.Lemmas.VInv2

/-
C76: which messages can panic, and for what causes.
-/
set_option maxRecDepth 100000
namespace Dollar
open MM Spec

/-- Everything that can make a message panic.  `Transfer`: no amount, a negative amount or one of 2^63 and
more, or a signer whose address is longer than 32 bytes.  `Lock`: no amount, or a negative one where the
configured minimum is negative.  `Deliver`: an authenticated message that is malformed, or an index at
which the principal is worth less than the supply.  Nothing else. -/
def Spec.PanicCause (c : Cfg) (env : Env) (s : State) : Msg → Prop
  | .transfer signer amount _ _ _ => amount = none ∨ (∃ a, amount = some a ∧ (a < 0 ∨ 2 ^ 63 ≤ a)) ∨
      ∃ x, c.decode signer = some x ∧ 32 < x.length
  | .lock _ _ amount => amount = none ∨ ∃ a, amount = some a ∧ a < 0 ∧ c.minLock ≤ a
  | .deliver vaa => ∃ v, env.verify vaa = some v ∧
      ((v.payload.arr.length < 4 ∨ (v.payload.arr.take 4 = [0x99, 0x45, 0xff, 0x10] ∧
          ¬ ∃ m rest, TransceiverMessage.Sized m ∧ v.payload.arr = encodeTransceiver m ++ rest)) ∨
        (∃ p, innerPayload v = some p ∧ p.bytes.take 4 = [0x99, 0x4e, 0x54, 0x54] ∧ parseNtt p = .err) ∨
        (∃ p, innerPayload v = some p ∧ p.bytes.take 4 = [0x4d, 0x30, 0x49, 0x54] ∧ p.arr.length < 14) ∨
        ∃ q, content env vaa = some q ∧ s.index < q.announced ∧
          (s.totalPrincipal * q.announced).tdiv (10 ^ 12) < s.supply)
  | _ => False

/-- A portal transfer panics exactly when it passes the checks on pause, peer, bridging path and recipient
and then has no amount, a negative one or one of 2^64 and more, or is signed by an address of more
than 32 bytes, or moves 2^63 and more out of a balance that covers it. -/
theorem C76_transfer_panics_iff {c : Cfg} (hc : c.WF) {s : State} (hr : Reachable c s) (env : Env)
    (signer : String) (amount : Option Int) (chain : Nat) (token recipient : Bytes) :
    exec c env (.transfer signer amount chain token recipient) s = .panic ↔
      s.portalPaused = false ∧ (∃ peer, s.peers.get? chain = some peer) ∧
      (∃ b, s.paths.get? (chain, token) = some b) ∧ recipient.length = 32 ∧
      (amount = none ∨ ∃ amt, amount = some amt ∧ (amt < 0 ∨ 2 ^ 64 ≤ amt ∨
        ∃ a, c.decode signer = some a ∧
          (32 < a.length ∨ (2 ^ 63 ≤ amt ∧ amt ≤ s.balance a ∧ env.postOk = true)))) := by
  have hl := hr.led hc
  have hi := hl.good.index.ne'
  show transfer c env signer amount chain token recipient s = .panic ↔ _
  unfold transfer
  rw [bind_apply, get_apply]
  simp only
  by_cases hp : s.portalPaused = true
  · rw [if_pos hp]
    exact ⟨nofun, fun h => by rw [hp] at h; cases h.1⟩
  rw [if_neg hp]
  have hp : s.portalPaused = false := by cases h : s.portalPaused <;> simp_all
  cases hpe : s.peers.get? chain with
  | none => exact ⟨nofun, fun h => by obtain ⟨_, ⟨p, h⟩, _⟩ := h; cases h⟩
  | some peer =>
  simp only
  by_cases hpa : s.paths.has (chain, token) = false
  · rw [if_pos hpa]
    refine ⟨nofun, fun h => ?_⟩
    obtain ⟨_, _, ⟨b, h⟩, _⟩ := h
    unfold KV.has at hpa
    rw [h] at hpa; cases hpa
  rw [if_neg hpa]
  have hb : ∃ b, s.paths.get? (chain, token) = some b := by
    unfold KV.has at hpa
    cases h : s.paths.get? (chain, token) with
    | none => rw [h] at hpa; exact absurd rfl hpa
    | some b => exact ⟨b, rfl⟩
  by_cases hlen : recipient.length ≠ 32
  · rw [if_pos hlen]
    exact ⟨nofun, fun h => absurd h.2.2.2.1 hlen⟩
  rw [if_neg hlen]
  have hlen : recipient.length = 32 := by omega
  cases amount with
  | none => exact ⟨fun _ => ⟨hp, ⟨_, rfl⟩, hb, hlen, .inl rfl⟩, fun _ => rfl⟩
  | some amt =>
  simp only
  by_cases hr : amt < 0 ∨ 2 ^ 64 ≤ amt
  · rw [if_pos hr]
    refine ⟨fun _ => ⟨hp, ⟨_, rfl⟩, hb, hlen, .inr ⟨amt, rfl, ?_⟩⟩, fun _ => rfl⟩
    tauto
  rw [if_neg hr]
  push Not at hr
  have hred : ∀ {P : Prop}, (P ↔ ∃ a, c.decode signer = some a ∧
      (32 < a.length ∨ (2 ^ 63 ≤ amt ∧ amt ≤ s.balance a ∧ env.postOk = true))) →
      (P ↔ s.portalPaused = false ∧ (∃ p, some peer = some p) ∧
        (∃ b, s.paths.get? (chain, token) = some b) ∧ recipient.length = 32 ∧
        (some amt = none ∨ ∃ x, some amt = some x ∧ (x < 0 ∨ 2 ^ 64 ≤ x ∨ ∃ a, c.decode signer = some a ∧
          (32 < a.length ∨ (2 ^ 63 ≤ x ∧ x ≤ s.balance a ∧ env.postOk = true))))) := by
    intro P h
    rw [h]
    constructor
    · intro h'
      exact ⟨hp, ⟨_, rfl⟩, hb, hlen, .inr ⟨amt, rfl, .inr (.inr h')⟩⟩
    · rintro ⟨_, _, _, _, h' | ⟨x, hx, h' | h' | h'⟩⟩
      · cases h'
      · cases hx; omega
      · cases hx; omega
      · cases hx; exact h'
  apply hred
  unfold transferSend
  rw [bind_apply, get_apply]
  simp only
  cases hd : c.decode signer with
  | none => exact ⟨nofun, fun ⟨_, h, _⟩ => by cases h⟩
  | some a =>
  simp only
  by_cases ha : a.length ≤ 32
  swap
  · refine ⟨fun _ => ⟨a, rfl, .inl (by omega)⟩, fun _ => ?_⟩
    unfold leftPad32
    rw [if_neg ha]
    rfl
  have hpad : leftPad32 a = .ok (word a) := by unfold leftPad32; rw [if_pos ha]; rfl
  rw [hpad]
  by_cases he : amt ≤ s.balance a
  · obtain ⟨m, hbn, hpo, hev⟩ := burn_progress (c := c) (a := a) (amt := amt)
      (s := { s with nonce := (s.nonce + 1) % 2 ^ 32 }) (by omega) he hi (hl.good.bal _)
      hc.yield_ne_module.symm
    show ((burn c a amt >>= fun _ => postMessage env _ _ >>= fun _ => _ >>= fun _ => _)
      { s with nonce := (s.nonce + 1) % 2 ^ 32 } = .panic) ↔ _
    rw [bind_apply, hbn]
    simp only
    unfold postMessage
    by_cases ho : env.postOk = true
    · rw [if_pos ho]
      show ((if 2 ^ 63 ≤ amt then crash else _ : M Unit) _ = .panic) ↔ _
      by_cases h63 : 2 ^ 63 ≤ amt
      · rw [if_pos h63]
        exact ⟨fun _ => ⟨a, rfl, .inr ⟨h63, he, ho⟩⟩, fun _ => rfl⟩
      · rw [if_neg h63]
        refine ⟨nofun, ?_⟩
        rintro ⟨x, hx, h | h⟩
        · cases hx; omega
        · exact absurd h.1 h63
    · rw [if_neg ho]
      refine ⟨nofun, ?_⟩
      rintro ⟨x, hx, h | h⟩
      · cases hx; omega
      · exact absurd h.2.2 ho
  · constructor
    · intro h
      exfalso
      have h : ((burn c a amt >>= fun _ => postMessage env _ _ >>= fun _ => _ >>= fun _ => _)
        { s with nonce := (s.nonce + 1) % 2 ^ 32 } = .panic) := h
      have hn : burn c a amt { s with nonce := (s.nonce + 1) % 2 ^ 32 } =
          .err .insufficientFunds { s with nonce := (s.nonce + 1) % 2 ^ 32 } := by
        have h0 : 0 < amt := by
          have := hl.good.bal a
          omega
        unfold burn newCoin
        rw [if_neg (by omega), bind_apply, pure_apply]
        simp only
        rw [bind_apply]
        unfold sendCoins
        rw [if_neg (by omega), bind_apply, subCoins_eq, if_pos (by show s.balance a < amt; omega)]
      rw [bind_apply, hn] at h
      cases h
    · rintro ⟨x, hx, h | h⟩
      · cases hx; omega
      · cases hx; exact absurd h.2.1 he

/-- A lock panics exactly when the vaults are open for it, the signer is an address and the amount is
missing; or when the configured minimum is negative, so is the amount, and no other check refuses it. -/
theorem C76_lock_panics_iff {c : Cfg} (hc : c.WF) {s : State} (hr : Reachable c s) (env : Env)
    (signer : String) (vault : Int) (amount : Option Int) :
    exec c env (.lock signer vault amount) s = .panic ↔
      ¬ (vault = FLEXIBLE ∧ s.seasonOneEnded = true) ∧ s.vPaused ≠ PAUSE_ALL ∧ s.vPaused ≠ PAUSE_LOCK ∧
      ∃ a, c.decode signer = some a ∧ (amount = none ∨
        ∃ x, amount = some x ∧ x < 0 ∧ c.minLock ≤ x ∧ (vault = STAKED ∨ vault = FLEXIBLE) ∧
          s.positions.get? (a, vault, env.time) = none) := by
  have hl := hr.led hc
  have hi := hl.good.index.ne'
  show lock c env signer vault amount s = .panic ↔ _
  unfold lock
  rw [bind_apply, get_apply]
  simp only
  by_cases h1 : vault = FLEXIBLE ∧ s.seasonOneEnded = true
  · rw [if_pos h1]; exact ⟨nofun, fun h => absurd h1 h.1⟩
  rw [if_neg h1]
  by_cases h2 : s.vPaused = PAUSE_ALL ∨ s.vPaused = PAUSE_LOCK
  · rw [if_pos h2]; exact ⟨nofun, fun h => by rcases h2 with h2 | h2; exacts [absurd h2 h.2.1, absurd h2 h.2.2.1]⟩
  rw [if_neg h2]
  push Not at h2
  cases hd : c.decode signer with
  | none => exact ⟨nofun, fun ⟨_, _, _, _, h, _⟩ => by cases h⟩
  | some a =>
  simp only
  cases amount with
  | none => exact ⟨fun _ => ⟨h1, h2.1, h2.2, a, rfl, .inl rfl⟩, fun _ => rfl⟩
  | some x =>
  simp only
  have hred : ∀ {P : Prop}, (P ↔ x < 0 ∧ c.minLock ≤ x ∧ (vault = STAKED ∨ vault = FLEXIBLE) ∧
        s.positions.get? (a, vault, env.time) = none) →
      (P ↔ ¬ (vault = FLEXIBLE ∧ s.seasonOneEnded = true) ∧ s.vPaused ≠ PAUSE_ALL ∧ s.vPaused ≠ PAUSE_LOCK ∧
        ∃ b, some a = some b ∧ (some x = none ∨ ∃ y, some x = some y ∧ y < 0 ∧ c.minLock ≤ y ∧
          (vault = STAKED ∨ vault = FLEXIBLE) ∧ s.positions.get? (b, vault, env.time) = none)) := by
    intro P h
    rw [h]
    constructor
    · intro h'; exact ⟨h1, h2.1, h2.2, a, rfl, .inr ⟨x, rfl, h'⟩⟩
    · rintro ⟨_, _, _, b, hb, h' | ⟨y, hy, h'⟩⟩
      · cases h'
      · cases hb; cases hy; exact h'
  apply hred
  by_cases h3 : x < c.minLock
  · rw [if_pos h3]; exact ⟨nofun, fun h => by omega⟩
  rw [if_neg h3]
  by_cases h4 : validVault vault = false
  · rw [if_pos h4]
    refine ⟨nofun, fun h => ?_⟩
    unfold validVault at h4
    rw [decide_eq_false_iff_not] at h4
    exact absurd h.2.2.1 h4
  rw [if_neg h4]
  have h4 : vault = STAKED ∨ vault = FLEXIBLE := by
    unfold validVault at h4
    rw [decide_eq_false_iff_not, not_not] at h4
    exact h4
  by_cases h5 : s.positions.has (a, vault, env.time) = true
  · rw [if_pos h5]
    refine ⟨nofun, fun h => ?_⟩
    unfold KV.has at h5
    rw [h.2.2.2] at h5; cases h5
  rw [if_neg h5]
  have h5 : s.positions.get? (a, vault, env.time) = none := by
    unfold KV.has at h5
    cases h : s.positions.get? (a, vault, env.time) with
    | none => rfl
    | some _ => rw [h] at h5; exact absurd rfl h5
  by_cases h6 : s.balance a < x
  · rw [if_pos h6]
    exact ⟨nofun, fun h => by have := hl.good.bal a; omega⟩
  rw [if_neg h6]
  by_cases h7 : x < 0
  · refine ⟨fun _ => ⟨h7, by omega, h4, h5⟩, fun _ => ?_⟩
    unfold newCoin
    rw [bind_apply, if_pos h7]
    rfl
  · refine ⟨fun h => ?_, fun h => absurd h.1 h7⟩
    exfalso
    revert h
    refine And.left (Safe.bind (.newCoin (by omega)) fun _ s1 e1 => .bind (sendCoins_safe ?_) fun _ s2 e2 =>
      lockBook_safe ?_)
    · rw [e1]; exact hi
    · rw [e2, e1]; exact hi

/-- In a reachable state a message panics only for one of the listed causes.  In particular claims,
unlocks, administrative messages, transfers by x/bank (also those other modules make, for instance for
fees), and every callback of IBC and of the warp routes never panic, whatever their arguments. -/
theorem C76_panic_census {c : Cfg} (hc : c.WF) {s : State} (hr : Reachable c s) (env : Env) (m : Msg)
    (h : exec c env m s = .panic) : PanicCause c env s m := by
  have hl := hr.led hc
  have hi := hl.good.index.ne'
  have no : ∀ {x : M Unit}, Safe x s → x s = .panic → False := fun hs hx => hs.1 hx
  cases m with
  | deliver vaa => exact C19_panic_causes_partial hc hr env vaa h
  | transfer signer amount chain token recipient =>
    obtain ⟨_, _, _, _, h | ⟨x, hx, h | h | ⟨a, ha, h | h⟩⟩⟩ := (C76_transfer_panics_iff hc hr ..).1 h
    · exact .inl h
    · exact .inr (.inl ⟨x, hx, .inl h⟩)
    · exact .inr (.inl ⟨x, hx, .inr (by omega)⟩)
    · exact .inr (.inr ⟨a, ha, h⟩)
    · exact .inr (.inl ⟨x, hx, .inr h.1⟩)
  | lock signer vault amount =>
    obtain ⟨_, _, _, a, _, h | ⟨x, hx, h0, h1, _⟩⟩ := (C76_lock_panics_iff hc hr ..).1 h
    · exact .inl h
    · exact .inr ⟨x, hx, h0, h1⟩
  | claimYield signer => exact no (claimYield_safe hi) h
  | unlock signer v a =>
    refine no (unlock_safe hi fun e he => ?_) h
    have := (hr.vinv hc).entry e he
    exact ⟨this.idx, this.amount⟩
  | setPaused signer p =>
    refine no (x := setPaused c signer p) ?_ h
    exact .ite (fun _ => .fail _) fun _ => .bind (.modify rfl) fun _ _ _ => .modify rfl
  | setYieldRecipient signer p i r =>
    refine no (x := setYieldRecipient c env signer p i r) ?_ h
    refine .ite (fun _ => .fail _) fun _ => .bind ?_ fun _ _ _ => .bind (.modify rfl) fun _ _ _ => .modify rfl
    unfold checkRoute
    refine .ite (fun _ => .ite (fun _ => .pure _) fun _ => .fail _) fun _ => .ite (fun _ => ?_) fun _ => .pure _
    split
    · exact .fail _
    · refine .get_bind (.ite (fun _ => .bind ?_ fun _ _ _ => .pure _) fun _ => .fail _)
      unfold hypRouter
      split
      · exact .pure _
      · exact .fail _
  | portalSetPaused signer p =>
    refine no (x := portalSetPaused signer p) ?_ h
    exact .bind ensureOwner_safe fun _ _ _ => .bind (.modify rfl) fun _ _ _ => .modify rfl
  | setPeer signer chain t m =>
    refine no (x := setPeer c signer chain t m) ?_ h
    refine .bind ensureOwner_safe fun _ _ _ => .get_bind (.ite (fun _ => .fail _) fun _ => .ite (fun _ => .fail _)
      fun _ => .ite (fun _ => .fail _) fun _ => .ite (fun _ => .fail _) fun _ => .ite (fun _ => .fail _)
      fun _ => .ite (fun _ => .fail _) fun _ => .bind (.modify rfl) fun _ _ _ => .modify rfl)
  | setBridgingPath signer chain token b =>
    refine no (x := setBridgingPath c signer chain token b) ?_ h
    exact .bind ensureOwner_safe fun _ _ _ => .ite (fun _ => .fail _) fun _ => .ite (fun _ => .fail _)
      fun _ => .ite (fun _ => .fail _) fun _ => .bind (.modify rfl) fun _ _ _ => .modify rfl
  | transferOwnership signer o =>
    refine no (x := transferOwnership c signer o) ?_ h
    refine .bind ensureOwner_safe fun _ _ _ => ?_
    split
    · exact .fail _
    · exact .ite (fun _ => .fail _) fun _ => .bind (.modify rfl) fun _ _ _ => .modify rfl
  | vaultsSetPaused signer p =>
    refine no (x := vaultsSetPaused c signer p) ?_ h
    exact .ite (fun _ => .fail _) fun _ => .ite (fun _ => .fail _) fun _ =>
      .bind (.modify rfl) fun _ _ _ => .modify rfl
  | bankSend a b x =>
    refine no (x := bankSend c a b x) ?_ h
    exact .ite (fun _ => .fail _) fun _ => .ite (fun _ => .fail _) fun _ => sendCoins_safe hi
  | bankMultiSend a outs => exact no (bankMultiSend_safe hi) h
  | keeperSend a b x =>
    refine no (x := keeperSend c a b x) ?_ h
    exact .ite (fun _ => .fail _) fun _ => sendCoins_safe hi
  | ibcTransfer a ch r x =>
    refine no (x := userIbcTransfer c env a ch r x) ?_ h
    exact .ite (fun _ => .fail _) fun _ => ibcTransfer_safe hi
  | ibcReceive ch r x =>
    refine no (x := ibcReceive c ch r x) ?_ h
    exact .get_bind (.ite (fun _ => .fail _) fun _ => .ite (fun _ => .fail _) fun _ =>
      .bind (sendCoins_safe hi) fun _ _ _ => .modify rfl)
  | ibcTimeout p => exact no (packetFailed_safe hi) h
  | ibcAckError p => exact no (packetFailed_safe hi) h
  | ibcAckSuccess p =>
    refine no (x := packetAcked c p) ?_ h
    exact .get_bind (.ite (fun _ => .fail _) fun _ => .modify rfl)
  | warpCreate t =>
    refine no (x := warpCreate t) ?_ h
    refine .modify ?_
    split <;> rfl
  | warpTransfer a t d r x =>
    refine no (x := warpSend c t d a r x) ?_ h
    refine .get_bind ?_
    split
    · exact .fail _
    · exact .ite (fun _ => .fail _) fun _ => .bind (sendCoins_safe hi) fun _ _ _ => .modify rfl
  | warpReceive t r x =>
    refine no (x := warpReceive c t r x) ?_ h
    refine .get_bind ?_
    split
    · exact .fail _
    · exact .ite (fun _ => .fail _) fun _ => .bind (.modify rfl) fun _ s1 h1 =>
        sendModuleToAccount_safe (by rw [h1]; exact hi)

/-- Paying a fee in USDN never panics, and a transaction of several messages panics only when one of
its messages, run in the reachable state the ones before it left, does for a listed cause. -/
theorem C76_transactions {c : Cfg} (hc : c.WF) {s : State} (hr : Reachable c s) (tx : Tx) (hs : tx.Signed c) :
    deductFee c tx.fee s ≠ .panic ∧
      (runMsgs c tx.msgs s = .panic → ∃ pre env m post, tx.msgs = pre ++ (env, m) :: post ∧
        runMsgs c pre s = .ok () (run c pre s) ∧ Reachable c (run c pre s) ∧
        PanicCause c env (run c pre s) m) := by
  constructor
  · cases hf : tx.fee with
    | none => exact nofun
    | some f =>
      obtain ⟨env, p, a, x⟩ := f
      exact fun h => C76_panic_census hc hr env (.keeperSend p a x) h
  · obtain ⟨_, msgs⟩ := tx
    have hs : ∀ e ∈ msgs, e.2.SignedByUser c := hs.2
    show runMsgs c msgs s = .panic → _
    clear * - hs hr hc
    induction msgs generalizing s with
    | nil => exact nofun
    | cons e t ih =>
      obtain ⟨env, m⟩ := e
      intro h
      have h : (exec c env m >>= fun _ => runMsgs c t) s = .panic := h
      rw [bind_panic] at h
      rcases h with h | ⟨u, s1, h1, h⟩
      · exact ⟨[], env, m, t, rfl, rfl, hr, C76_panic_census hc hr env m h⟩
      · have e1 : step c env m s = s1 := step_of_exec h1
        have hr1 : Reachable c s1 := by
          rw [← e1]
          exact hr.step (hs _ List.mem_cons_self)
        obtain ⟨pre, env', m', post, ht, hp, hr', hq⟩ :=
          ih hr1 (fun e he => hs e (List.mem_cons_of_mem _ he)) h
        have er : run c ((env, m) :: pre) s = run c pre s1 := by
          show run c pre (step c env m s) = _
          rw [e1]
        refine ⟨(env, m) :: pre, env', m', post, ?_, ?_, ?_, ?_⟩
        · show (env, m) :: t = _
          rw [show t = _ from ht]
          rfl
        · show (exec c env m >>= fun _ => runMsgs c pre) s = _
          rw [bind_apply, h1, er]
          exact hp
        · rw [er]; exact hr'
        · rw [er]; exact hq

/-! ### The causes occur -/

/-- Did the computation panic? -/
def panicked {α : Type} : Res State α → Bool
  | .panic => true
  | _ => false

namespace Demo

/-- Wormhole: a delivery of 2^63 to alice. -/
def envBig (time : Int) : Env :=
  { env time with verify := fun bz => if bz = [1] then some (vaaToken 1 alice (2 ^ 63) 1000000000000) else none }

def histBig : History := [(envBig 1, .deliver [1])]

theorem reachBig : Reachable cfg (run cfg histBig start) :=
  .of_run start_initial fun e he => by
    simp only [histBig, List.mem_cons, List.not_mem_nil, or_false] at he
    subst he; trivial

end Demo

/-- In reachable states: a transfer without amount, a negative transfer, a transfer of 2^63 by a user who
owns that much, a lock without amount and an index update (C41) panic; the same transfer of 2^63 - 1
does not. -/
example :
    panicked (exec Demo.cfg (Demo.env 8) (.transfer Demo.aliceS none 2 (List.replicate 32 8)
      (List.replicate 32 1)) (run Demo.cfg Demo.hist1 Demo.start)) = true ∧
    panicked (exec Demo.cfg (Demo.env 8) (.transfer Demo.aliceS (some (-1)) 2 (List.replicate 32 8)
      (List.replicate 32 1)) (run Demo.cfg Demo.hist1 Demo.start)) = true ∧
    panicked (exec Demo.cfg (Demo.envBig 8) (.transfer Demo.aliceS (some (2 ^ 63)) 2 (List.replicate 32 8)
      (List.replicate 32 1)) (run Demo.cfg Demo.histBig Demo.start)) = true ∧
    panicked (exec Demo.cfg (Demo.envBig 8) (.transfer Demo.aliceS (some (2 ^ 63 - 1)) 2 (List.replicate 32 8)
      (List.replicate 32 1)) (run Demo.cfg Demo.histBig Demo.start)) = false ∧
    panicked (exec Demo.cfg (Demo.env 8) (.lock Demo.aliceS 1 none)
      (run Demo.cfg Demo.hist1 Demo.start)) = true ∧
    panicked (exec Demo.cfg (Demo.env11 3) (.deliver [2]) (run Demo.cfg Demo.hist11 Demo.start11)) = true := by
  decide +kernel

end Dollar
