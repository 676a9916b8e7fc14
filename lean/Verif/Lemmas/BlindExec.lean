import Verif.Lemmas.Blind

/-
The rest of the messages: those that read or write settings, and all of them together.
-/
set_option linter.unusedSimpArgs false
set_option linter.unnecessarySeqFocus false
namespace Dollar
open MM Spec

/-! ### Two related runs of possibly different code -/

/-- From related states `x` and `y` give related results. -/
structure Same2 (R : State → State → Prop) {α : Type} (x y : M α) : Prop where
  rel : ∀ s t, R s t → ResRel R (x s) (y t)

namespace Same2
variable {R : State → State → Prop} {α β : Type}

theorem of_same {x : M α} (h : Same R x) : Same2 R x x := ⟨h.rel⟩
theorem pure (a : α) : Same2 R (Pure.pure a : M α) (Pure.pure a) := ⟨fun _ _ h => ⟨rfl, h⟩⟩
theorem fail (e : Err) : Same2 R (MM.fail e : M α) (MM.fail e) := ⟨fun _ _ h => ⟨rfl, h⟩⟩
theorem crash : Same2 R (MM.crash : M α) MM.crash := ⟨fun _ _ _ => trivial⟩
theorem modify {f g : State → State} (h : ∀ s t, R s t → R (f s) (g t)) :
    Same2 R (MM.modify f : M Unit) (MM.modify g) := ⟨fun s t hr => ⟨rfl, h s t hr⟩⟩
theorem bind {x y : M α} {f g : α → M β} (hx : Same2 R x y) (hf : ∀ a, Same2 R (f a) (g a)) :
    Same2 R (x >>= f) (y >>= g) := by
  refine ⟨fun s t h => ?_⟩
  have h1 := hx.rel s t h
  rw [bind_apply, bind_apply]
  revert h1
  cases x s <;> cases y t <;> intro h1 <;> first | exact (h1 : False).elim | exact h1 | skip
  · obtain ⟨rfl, h1⟩ := h1
    exact (hf _).rel _ _ h1
theorem getBind {f g : State → M β} (h : ∀ s t, R s t → Same2 R (f s) (g t)) :
    Same2 R (MM.get >>= f) (MM.get >>= g) := ⟨fun s t hr => (h s t hr).rel s t hr⟩
theorem ite {p : Prop} [Decidable p] {x y x' y' : M α} (hx : Same2 R x x') (hy : Same2 R y y') :
    Same2 R (if p then x else y) (if p then x' else y') := by split <;> assumption
theorem same {x : M α} (h : Same2 R x x) : Same R x := ⟨h.rel⟩

end Same2

namespace Agree
variable {X : Type} {q : Knobs → X} {s t : State}

theorem events (h : Agree q s t) (e f : List Event) : Agree q { s with events := e } { t with events := f } := h
theorem posted (h : Agree q s t) (e f : List (Bytes × Nat)) : Agree q { s with posted := e } { t with posted := f } := h

end Agree

theorem Same2.emit {X : Type} {q : Knobs → X} (e f : Event) :
    Same2 (Agree q) (Dollar.emit e) (Dollar.emit f) := ⟨fun _ _ h => ⟨rfl, h.events _ _⟩⟩

/-! ### The portal and the settings -/

section
variable {X : Type} {q : Knobs → X}

theorem Same.ensureOwner (hq : ∀ a b, q a = q b → a.owner = b.owner) (g : String) :
    Same (Agree q) (ensureOwner g) := by
  unfold Dollar.ensureOwner
  refine .getBind (fun s t h => ?_) fun s => ?_
  · rw [show t.owner = s.owner from (hq _ _ h.2).symm]
  · same

theorem Same.setPaused (hq : ∀ a b, q a = q b → ∀ v, q { a with paused := v } = q { b with paused := v })
    (c : Cfg) (g : String) (p : Bool) : Same (Agree q) (setPaused c g p) := by
  unfold Dollar.setPaused
  refine .ite (.fail _) (.bind (.modify fun s t h => ⟨h.1, hq _ _ h.2 p⟩) fun _ => .emit _)

theorem Same.vaultsSetPaused (hq : ∀ a b, q a = q b → ∀ v, q { a with vPaused := v } = q { b with vPaused := v })
    (c : Cfg) (g : String) (p : Int) : Same (Agree q) (vaultsSetPaused c g p) := by
  unfold Dollar.vaultsSetPaused
  refine .ite (.fail _) (.ite (.fail _) (.bind (.modify fun s t h => ⟨h.1, hq _ _ h.2 p⟩) fun _ => .emit _))

theorem Same.portalSetPaused (ho : ∀ a b, q a = q b → a.owner = b.owner)
    (hq : ∀ a b, q a = q b → ∀ v, q { a with portalPaused := v } = q { b with portalPaused := v })
    (g : String) (p : Bool) : Same (Agree q) (portalSetPaused g p) := by
  unfold Dollar.portalSetPaused
  exact .bind (ensureOwner ho g) fun _ => .bind (.modify fun s t h => ⟨h.1, hq _ _ h.2 p⟩) fun _ => .emit _

/-- The peers after `SetPeer` need not agree, only `q` of them. -/
theorem Same.setPeer (ho : ∀ a b, q a = q b → a.owner = b.owner)
    (hq : ∀ a b, q a = q b → ∀ k v, q { a with peers := a.peers.set k v } = q { b with peers := b.peers.set k v })
    (c : Cfg) (g : String) (ch : Nat) (t m : Bytes) : Same (Agree q) (setPeer c g ch t m) := by
  unfold Dollar.setPeer
  refine .bind (ensureOwner ho g) fun _ => Same2.same (.getBind fun s t h => ?_)
  refine .ite (.fail _) (.ite (.fail _) (.ite (.fail _) (.ite (.fail _) (.ite (.fail _) (.ite (.fail _) ?_)))))
  exact .bind (.modify fun s t h => ⟨h.1, hq _ _ h.2 _ _⟩) fun _ => .emit _ _

theorem Same.setBridgingPath (ho : ∀ a b, q a = q b → a.owner = b.owner)
    (hq : ∀ a b, q a = q b → ∀ k v, q { a with paths := a.paths.set k v } = q { b with paths := b.paths.set k v })
    (c : Cfg) (g : String) (ch : Nat) (t : Bytes) (b : Bool) : Same (Agree q) (setBridgingPath c g ch t b) := by
  unfold Dollar.setBridgingPath
  refine .bind (ensureOwner ho g) fun _ => .ite (.fail _) (.ite (.fail _) (.ite (.fail _) ?_))
  exact .bind (.modify fun s t h => ⟨h.1, hq _ _ h.2 _ _⟩) fun _ => .emit _

theorem Same.transferOwnership (ho : ∀ a b, q a = q b → a.owner = b.owner)
    (hq : ∀ a b, q a = q b → ∀ v, q { a with owner := v } = q { b with owner := v })
    (c : Cfg) (g o : String) : Same (Agree q) (transferOwnership c g o) := by
  unfold Dollar.transferOwnership
  refine .bind (ensureOwner ho g) fun _ => ?_
  split
  · exact .fail _
  · exact .ite (.fail _) (.bind (.modify fun s t h => ⟨h.1, hq _ _ h.2 _⟩) fun _ => .emit _)

theorem Same.claimYield (hq : ∀ a b, q a = q b → a.paused = b.paused) (c : Cfg) (g : String) :
    Same (Agree q) (claimYield c g) := by
  unfold Dollar.claimYield
  refine .getBind (fun s t h => ?_) fun s => ?_
  · rw [show t.paused = s.paused from (hq _ _ h.2).symm]
  · same <;> first | exact Same.getYield _ _ | exact Same.sendModuleToAccount _ _ _ _ | exact Same.emit _

theorem Same.lock (hq : ∀ a b, q a = q b → a.vPaused = b.vPaused) (c : Cfg) (env : Env) (g : String) (v : Int)
    (x : Option Int) : Same (Agree q) (lock c env g v x) := by
  unfold Dollar.lock
  refine .getBind (fun s t h => ?_) fun s => ?_
  · rw [show t.vPaused = s.vPaused from (hq _ _ h.2).symm]
    agreed h
  · same <;> first | exact Same.sendCoins _ _ _ _ | exact Same.lockBook _ _ _ _ _

theorem Same.unlock (hq : ∀ a b, q a = q b → a.vPaused = b.vPaused) (c : Cfg) (g : String) (v : Int)
    (x : Option Int) : Same (Agree q) (unlock c g v x) := by
  unfold Dollar.unlock
  refine .getBind (fun s t h => ?_) fun s => ?_
  · rw [show t.vPaused = s.vPaused from (hq _ _ h.2).symm]
    agreed h
  · same <;> exact Same.unlockInner _ _ _ _

theorem Same.handlePayload (c : Cfg) (env : Env) (p : Sl) (ev : EventsPayload) :
    Same (Agree q) (handlePayload c env p ev) := by
  unfold Dollar.handlePayload
  refine .bind (.parse _) fun t => ?_
  cases t with
  | unknown => exact .pure _
  | token =>
    simp only
    unfold handleToken
    same <;> first | exact Same.mint _ _ _ _ _ | exact Same.emit _
  | index =>
    simp only
    unfold handleIndex
    same <;> exact Same.updateIndex _ _ _

theorem Same.deliver (hp : ∀ a b, q a = q b → a.portalPaused = b.portalPaused)
    (hpe : ∀ a b, q a = q b → a.peers = b.peers) (ha : ∀ a b, q a = q b → a.archive = b.archive)
    (hq : ∀ a b, q a = q b → ∀ v, q { a with archive := v } = q { b with archive := v })
    (c : Cfg) (env : Env) (bz : Bytes) : Same (Agree q) (deliver c env bz) := by
  unfold Dollar.deliver
  refine .bind ?_ fun _ => .emit _
  unfold deliverInner
  refine .getBind (fun s t h => ?_) fun s => ?_
  · rw [show t.portalPaused = s.portalPaused from (hp _ _ h.2).symm, show t.peers = s.peers from (hpe _ _ h.2).symm]
  refine .ite (.fail _) (.bind ?_ fun v => ?_)
  · unfold verifyVAA
    split
    · exact .fail _
    · refine .getBind (fun s t h => ?_) fun s => ?_
      · rw [show t.archive = s.archive from (ha _ _ h.2).symm]
      · refine .ite (.fail _) (.bind (.modify fun s t h => ⟨h.1, ?_⟩) fun _ => .pure _)
        have e : t.archive = s.archive := (ha _ _ h.2).symm
        rw [e]
        exact hq _ _ h.2 _
  · split
    · exact .fail _
    · refine .ite (.fail _) ?_
      unfold deliverPayload
      exact .bind (.parse _) fun _ => .ite (.fail _) (.ite (.fail _) (.bind (.parse _) fun _ => handlePayload _ _ _ _))

theorem Same2.nonce {β : Type} {f g : Nat → M β}
    (hq : ∀ a b, q a = q b → q { a with nonce := (a.nonce + 1) % 2 ^ 32 } = q { b with nonce := (b.nonce + 1) % 2 ^ 32 })
    (h : ∀ m n, Same2 (Agree q) (f m) (g n)) : Same2 (Agree q) (incrementNonce >>= f) (incrementNonce >>= g) :=
  ⟨fun s t hr => (h s.nonce t.nonce).rel { s with nonce := (s.nonce + 1) % 2 ^ 32 }
    { t with nonce := (t.nonce + 1) % 2 ^ 32 } ⟨hr.1, hq _ _ hr.2⟩⟩

/-- The nonce only goes into the message, the events and its successor. -/
theorem Same.transfer (hp : ∀ a b, q a = q b → a.portalPaused = b.portalPaused)
    (hpe : ∀ a b, q a = q b → a.peers = b.peers) (hpa : ∀ a b, q a = q b → a.paths = b.paths)
    (hq : ∀ a b, q a = q b → q { a with nonce := (a.nonce + 1) % 2 ^ 32 } = q { b with nonce := (b.nonce + 1) % 2 ^ 32 })
    (c : Cfg) (env : Env) (g : String) (x : Option Int) (ch : Nat) (token r : Bytes) :
    Same (Agree q) (transfer c env g x ch token r) := by
  unfold Dollar.transfer
  refine .getBind (fun s t h => ?_) fun s => ?_
  · rw [show t.portalPaused = s.portalPaused from (hp _ _ h.2).symm, show t.peers = s.peers from (hpe _ _ h.2).symm,
      show t.paths = s.paths from (hpa _ _ h.2).symm]
  refine .ite (.fail _) ?_
  split
  · exact .fail _
  refine .ite (.fail _) (.ite (.fail _) ?_)
  split
  · exact .crash
  refine .ite .crash ?_
  unfold transferSend
  refine .getBind (fun s t h => by agreed h) fun s => ?_
  split
  · exact .fail _
  refine .bind (.parse _) fun raw => Same2.same ?_
  refine .nonce hq fun m n => ?_
  refine .bind (.of_same (Same.burn _ _ _)) fun _ => .bind ?_ fun _ => .bind (.emit _ _) fun _ => .ite .crash
    (.bind (.emit _ _) fun _ => .emit _ _)
  unfold postMessage
  exact .ite (.modify fun s t h => h.posted _ _) (.fail _)

end

/-! ### All messages -/

theorem agree_id {s t : State} : Agree id s t ↔ unrecorded s = unrecorded t := by
  constructor
  · intro h
    have e : ∀ s : State, unrecorded s =
        { funds s with
          paused := (knobs s).paused, vPaused := (knobs s).vPaused, owner := (knobs s).owner,
          portalPaused := (knobs s).portalPaused, peers := (knobs s).peers, paths := (knobs s).paths,
          nonce := (knobs s).nonce, archive := (knobs s).archive } := fun _ => rfl
    rw [e s, e t, h.1, show knobs s = knobs t from h.2]
  · intro h
    have e1 : ∀ s : State, funds s = funds (unrecorded s) := fun _ => rfl
    have e2 : ∀ s : State, knobs s = knobs (unrecorded s) := fun _ => rfl
    exact ⟨by rw [e1 s, e1 t, h], by rw [id, id, e2 s, e2 t, h]⟩

/-- The messages that neither read nor write a setting. -/
theorem Same.bankSend {X : Type} {q : Knobs → X} (c : Cfg) (a b : Addr) (x : Int) : Same (Agree q) (bankSend c a b x) := by
  unfold Dollar.bankSend
  same <;> first | exact Same.sendCoins _ _ _ _

theorem Same.keeperSend {X : Type} {q : Knobs → X} (c : Cfg) (a b : Addr) (x : Int) : Same (Agree q) (keeperSend c a b x) := by
  unfold Dollar.keeperSend
  same <;> first | exact Same.sendCoins _ _ _ _

theorem Same.bankMultiSend {X : Type} {q : Knobs → X} (c : Cfg) (a : Addr) (l : List (Addr × Int)) :
    Same (Agree q) (bankMultiSend c a l) := by
  unfold Dollar.bankMultiSend
  same <;> exact Same.multiSend _ _ _

theorem Same.userIbcTransfer {X : Type} {q : Knobs → X} (c : Cfg) (env : Env) (a : Addr) (ch r : String) (x : Int) :
    Same (Agree q) (userIbcTransfer c env a ch r x) := by
  unfold Dollar.userIbcTransfer
  same <;> exact Same.ibcTransfer _ _ _ _ _ _

theorem Same.exec_id (c : Cfg) (env : Env) (m : Msg) : Same (Agree id) (exec c env m) := by
  have w : ∀ {Y : Type} (f : Knobs → Y) (a b : Knobs), id a = id b → f a = f b := fun f a b h => congrArg f h
  cases m with
  | claimYield g => exact Same.claimYield (w _) _ _
  | setPaused g p => exact Same.setPaused (fun a b h v => by rw [show a = b from h]) _ _ _
  | setYieldRecipient g p i r => exact Same.setYieldRecipient _ _ _ _ _ _
  | deliver v => exact Same.deliver (w _) (w _) (w _) (fun a b h v => by rw [show a = b from h]) _ _ _
  | transfer g a ch k r => exact Same.transfer (w _) (w _) (w _) (fun a b h => by rw [show a = b from h]) _ _ _ _ _ _ _
  | portalSetPaused g p => exact Same.portalSetPaused (w _) (fun a b h v => by rw [show a = b from h]) _ _
  | setPeer g ch t m => exact Same.setPeer (w _) (fun a b h k v => by rw [show a = b from h]) _ _ _ _ _
  | setBridgingPath g ch t b => exact Same.setBridgingPath (w _) (fun a b h k v => by rw [show a = b from h]) _ _ _ _ _
  | transferOwnership g o => exact Same.transferOwnership (w _) (fun a b h v => by rw [show a = b from h]) _ _ _
  | lock g v a => exact Same.lock (w _) _ _ _ _ _
  | unlock g v a => exact Same.unlock (w _) _ _ _ _
  | vaultsSetPaused g p => exact Same.vaultsSetPaused (fun a b h v => by rw [show a = b from h]) _ _ _
  | bankSend a b x => exact Same.bankSend _ _ _ _
  | bankMultiSend a l => exact Same.bankMultiSend _ _ _
  | keeperSend a b x => exact Same.keeperSend _ _ _ _
  | ibcTransfer s ch r a => exact Same.userIbcTransfer _ _ _ _ _ _
  | ibcReceive ch r a => exact Same.ibcReceive _ _ _ _
  | ibcTimeout p => exact Same.packetFailed _ _ _
  | ibcAckError p => exact Same.packetFailed _ _ _
  | ibcAckSuccess p => exact Same.packetAcked _ _
  | warpCreate t => exact Same.warpCreate _
  | warpTransfer s t d r a => exact Same.warpSend _ _ _ _ _ _
  | warpReceive t r a => exact Same.warpReceive _ _ _ _

/-- The settings a message reads. -/
def knobsRead : Msg → Knobs → Knobs
  | .claimYield _, k => { (default : Knobs) with paused := k.paused }
  | .lock .., k | .unlock .., k => { (default : Knobs) with vPaused := k.vPaused }
  | .deliver _, k =>
    { (default : Knobs) with
      portalPaused := k.portalPaused, peers := k.peers, archive := k.archive }
  | .transfer .., k =>
    { (default : Knobs) with
      portalPaused := k.portalPaused, peers := k.peers, paths := k.paths }
  | .portalSetPaused .., k | .setPeer .., k | .setBridgingPath .., k | .transferOwnership .., k =>
    { (default : Knobs) with owner := k.owner }
  | _, _ => default

theorem agree_read {m : Msg} {s t : State} (h : looksAt m s = looksAt m t) : Agree (knobsRead m) s t := by
  have e1 : ∀ s : State, funds s = funds (looksAt m s) := fun s => by cases m <;> rfl
  have e2 : ∀ s : State, knobsRead m (knobs s) = knobsRead m (knobs (looksAt m s)) := fun s => by cases m <;> rfl
  exact ⟨by rw [e1 s, e1 t, h], by rw [e2 s, e2 t, h]⟩

theorem Same.exec_read (c : Cfg) (env : Env) (m : Msg) : Same (Agree (knobsRead m)) (exec c env m) := by
  cases m with
  | claimYield g => exact Same.claimYield (q := knobsRead (.claimYield g)) (fun a b h => (congrArg Knobs.paused h :)) _ _
  | setPaused g p => exact Same.setPaused (q := knobsRead (.setPaused g p)) (fun a b h v => rfl) _ _ _
  | setYieldRecipient g p i r => exact Same.setYieldRecipient _ _ _ _ _ _
  | deliver v =>
    refine Same.deliver (q := knobsRead (.deliver v)) (fun a b h => (congrArg Knobs.portalPaused h :)) (fun a b h => (congrArg Knobs.peers h :))
      (fun a b h => (congrArg Knobs.archive h :)) (fun a b h v => ?_) _ _ _
    have h1 : a.portalPaused = b.portalPaused := (congrArg Knobs.portalPaused h :)
    have h2 : a.peers = b.peers := (congrArg Knobs.peers h :)
    show ({ (default : Knobs) with portalPaused := a.portalPaused, peers := a.peers, archive := v } : Knobs) =
      { (default : Knobs) with portalPaused := b.portalPaused, peers := b.peers, archive := v }
    rw [h1, h2]
  | transfer g a ch k r =>
    exact Same.transfer (q := knobsRead (.transfer g a ch k r)) (fun a b h => (congrArg Knobs.portalPaused h :)) (fun a b h => (congrArg Knobs.peers h :))
      (fun a b h => (congrArg Knobs.paths h :)) (fun a b h => h) _ _ _ _ _ _ _
  | portalSetPaused g p => exact Same.portalSetPaused (q := knobsRead (.portalSetPaused g p)) (fun a b h => (congrArg Knobs.owner h :)) (fun a b h v => h) _ _
  | setPeer g ch t m => exact Same.setPeer (q := knobsRead (.setPeer g ch t m)) (fun a b h => (congrArg Knobs.owner h :)) (fun a b h k v => h) _ _ _ _ _
  | setBridgingPath g ch t b =>
    exact Same.setBridgingPath (q := knobsRead (.setBridgingPath g ch t b)) (fun a b h => (congrArg Knobs.owner h :)) (fun a b h k v => h) _ _ _ _ _
  | transferOwnership g o =>
    exact Same.transferOwnership (q := knobsRead (.transferOwnership g o)) (fun a b h => (congrArg Knobs.owner h :)) (fun a b h v => rfl) _ _ _
  | lock g v a => exact Same.lock (q := knobsRead (.lock g v a)) (fun a b h => (congrArg Knobs.vPaused h :)) _ _ _ _ _
  | unlock g v a => exact Same.unlock (q := knobsRead (.unlock g v a)) (fun a b h => (congrArg Knobs.vPaused h :)) _ _ _ _
  | vaultsSetPaused g p => exact Same.vaultsSetPaused (q := knobsRead (.vaultsSetPaused g p)) (fun a b h v => rfl) _ _ _
  | bankSend a b x => exact Same.bankSend _ _ _ _
  | bankMultiSend a l => exact Same.bankMultiSend _ _ _
  | keeperSend a b x => exact Same.keeperSend _ _ _ _
  | ibcTransfer s ch r a => exact Same.userIbcTransfer _ _ _ _ _ _
  | ibcReceive ch r a => exact Same.ibcReceive _ _ _ _
  | ibcTimeout p => exact Same.packetFailed _ _ _
  | ibcAckError p => exact Same.packetFailed _ _ _
  | ibcAckSuccess p => exact Same.packetAcked _ _
  | warpCreate t => exact Same.warpCreate _
  | warpTransfer s t d r a => exact Same.warpSend _ _ _ _ _ _
  | warpReceive t r a => exact Same.warpReceive _ _ _ _

/-- Related results mean the same outcome and related states after the transaction. -/
theorem outcome_of_rel {R : State → State → Prop} {c : Cfg} {env : Env} {m : Msg} {s t : State} (hR : R s t)
    (h : ResRel R (exec c env m s) (exec c env m t)) :
    outcome c env m s = outcome c env m t ∧ R (step c env m s) (step c env m t) := by
  unfold outcome step runTx
  revert h
  cases exec c env m s <;> cases exec c env m t <;> intro h <;>
    first | exact (h : False).elim | exact ⟨rfl, h.2⟩ | exact ⟨by rw [h.1], hR⟩ | exact ⟨rfl, hR⟩

end Dollar
