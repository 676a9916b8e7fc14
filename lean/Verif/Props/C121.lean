import Verif.Lemmas.Codes
import Verif.Spec.Codes
import Verif.Spec.Demo

/-
C121: the error code of a failed message tells why it failed.
-/
namespace Dollar
open MM Spec Codes

namespace Codes

/-- The registered error in a result. -/
def regRes (m : Msg) : Res State Unit → Option Reg
  | .ok _ _ => none
  | .err e _ => regOf m e
  | .panic => none

theorem answerOf_code {m : Msg} {r : Res State Unit} {cs : String} {n : Nat} :
    answerOf m r = .code cs n ↔ ∃ g, regRes m r = some g ∧ registered g = (cs, n) := by
  cases r with
  | ok a s => simp [answerOf, regRes]
  | panic => simp [answerOf, regRes]
  | err e s =>
    simp only [answerOf, regRes]
    cases h : regOf m e with
    | none => simp
    | some g =>
      simp only [Answer.code.injEq, Option.some.injEq, exists_eq_left', Prod.ext_iff]

theorem regRes_quiet {m : Msg} {x : M Unit} (h : Quiet x) (s : State) : regRes m (x s) = none := by
  cases hx : x s with
  | ok a t => rfl
  | panic => rfl
  | err e t => exact foreign_reg (h.out s e t hx)

theorem regRes_bind {α : Type} {m : Msg} {x : M α} (f : α → M Unit) (h : Quiet x) (s : State) :
    regRes m ((x >>= f) s) = match x s with
      | .ok a t => regRes m (f a t)
      | _ => none := by
  rw [MM.bind_apply]
  cases hx : x s with
  | ok a t => rfl
  | panic => rfl
  | err e t => exact foreign_reg (h.out s e t hx)

/-- A failing first part hides what comes after it, when that is quiet. -/
theorem regRes_then {m : Msg} {x y : M Unit} (h : Quiet y) (s : State) :
    regRes m ((x >>= fun _ => y) s) = regRes m (x s) := by
  rw [MM.bind_apply]
  cases hx : x s with
  | ok a t => exact regRes_quiet h t
  | panic => rfl
  | err e t => rfl

variable (c : Cfg) (env : Env) (s : State)

theorem reg_claimYield (x : String) : regRes (.claimYield x) (exec c env (.claimYield x) s) =
    if s.paused = true then some .dPaused else none := by
  show regRes _ (claimYield c x s) = _
  unfold claimYield
  simp only [MM.bind_apply, get_apply]
  split
  · rfl
  · exact regRes_quiet (Quiet.claimTail c x) s

theorem reg_setPaused (x : String) (b : Bool) : regRes (.setPaused x b) (exec c env (.setPaused x b) s) =
    if x ≠ c.authority then some .vInvalidAuthority else none := by
  show regRes _ (setPaused c x b s) = _
  unfold setPaused
  split <;> rfl

theorem reg_setYieldRecipient (x : String) (p : Int) (i r : String) :
    regRes (.setYieldRecipient x p i r) (exec c env (.setYieldRecipient x p i r) s) =
    if x ≠ c.authority then some .dInvalidAuthority else none := by
  show regRes _ (setYieldRecipient c env x p i r s) = _
  unfold setYieldRecipient
  split
  · rfl
  · exact regRes_quiet (Quiet.bind (Quiet.checkRoute c env p i) fun _ =>
      Quiet.bind (Quiet.modify _) fun _ => Quiet.emit _) s

theorem reg_vaultsSetPaused (x : String) (k : Int) :
    regRes (.vaultsSetPaused x k) (exec c env (.vaultsSetPaused x k) s) =
    if x ≠ c.authority then some .vInvalidAuthority
    else if ¬(0 ≤ k ∧ k ≤ 3) then some .vInvalidPauseType else none := by
  show regRes _ (vaultsSetPaused c x k s) = _
  unfold vaultsSetPaused
  split
  · rfl
  · split <;> rfl

/-- The owner check in front of a message. -/
theorem reg_owner {m : Msg} (hm : regOf m = portalErr) (x : String) (f : Unit → M Unit) :
    regRes m ((ensureOwner x >>= f) s) =
    if s.owner = "" then some .pNoOwner else if x ≠ s.owner then some .pNotOwner
    else regRes m (f () s) := by
  unfold ensureOwner
  simp only [MM.bind_apply, get_apply]
  by_cases h : s.owner = ""
  · simp only [if_pos h, fail_apply, regRes, hm]; rfl
  · simp only [if_neg h]
    by_cases h1 : x ≠ s.owner
    · simp only [if_pos h1, fail_apply, regRes, hm]; rfl
    · simp only [if_neg h1, pure_apply]

theorem reg_portalSetPaused (x : String) (b : Bool) :
    regRes (.portalSetPaused x b) (exec c env (.portalSetPaused x b) s) =
    if s.owner = "" then some .pNoOwner else if x ≠ s.owner then some .pNotOwner else none :=
  reg_owner s rfl x _

theorem reg_setPeer (x : String) (n : Nat) (t g : Bytes) :
    regRes (.setPeer x n t g) (exec c env (.setPeer x n t g) s) =
    if s.owner = "" then some .pNoOwner else if x ≠ s.owner then some .pNotOwner
    else if n = 0 ∨ n = c.chain ∨ t.length ≠ 32 ∨ t = zero32 ∨ g.length ≠ 32 ∨ g = zero32 then
      some .pInvalidPeer else none := by
  refine (reg_owner (m := .setPeer x n t g) s rfl x _).trans ?_
  congr 2
  simp only [MM.bind_apply, get_apply]
  by_cases h1 : n = 0
  · simp [h1, regRes, regOf, portalErr]
  by_cases h2 : n = c.chain
  · simp [h2, regRes, regOf, portalErr]
  by_cases h3 : t.length ≠ 32
  · simp [h1, h2, h3, regRes, regOf, portalErr]
  by_cases h4 : t = zero32
  · simp [h1, h2, h4, regRes, regOf, portalErr]
  by_cases h5 : g.length ≠ 32
  · simp [h1, h2, h3, h4, h5, regRes, regOf, portalErr]
  by_cases h6 : g = zero32
  · simp [h1, h2, h3, h4, h6, regRes, regOf, portalErr]
  simp only [h1, h2, h3, h4, h5, h6, or_self, if_false]
  rfl

theorem reg_setBridgingPath (x : String) (n : Nat) (t : Bytes) (b : Bool) :
    regRes (.setBridgingPath x n t b) (exec c env (.setBridgingPath x n t b) s) =
    if s.owner = "" then some .pNoOwner else if x ≠ s.owner then some .pNotOwner
    else if n = c.chain ∨ t.length ≠ 32 ∨ t = zero32 then some .pInvalidBridgePath else none := by
  refine (reg_owner (m := .setBridgingPath x n t b) s rfl x _).trans ?_
  congr 2
  by_cases h2 : n = c.chain
  · simp [h2, regRes, regOf, portalErr]
  by_cases h3 : t.length ≠ 32
  · simp [h2, h3, regRes, regOf, portalErr]
  by_cases h4 : t = zero32
  · simp [h2, h4, regRes, regOf, portalErr]
  simp only [h2, h3, h4, or_self, if_false]
  rfl

theorem reg_transferOwnership (x o : String) :
    regRes (.transferOwnership x o) (exec c env (.transferOwnership x o) s) =
    if s.owner = "" then some .pNoOwner else if x ≠ s.owner then some .pNotOwner
    else if c.decode o ≠ none ∧ o = x then some .pSameOwner else none := by
  refine (reg_owner (m := .transferOwnership x o) s rfl x _).trans ?_
  congr 2
  cases h : c.decode o with
  | none => simp [regRes, regOf, portalErr]
  | some a =>
    by_cases h1 : o = x
    · simp [h1, regRes, regOf, portalErr]
    · simp only [h1, and_false, if_false]; rfl

theorem reg_transfer (x : String) (a : Option Int) (n : Nat) (t r : Bytes) :
    regRes (.transfer x a n t r) (exec c env (.transfer x a n t r) s) =
    if s.portalPaused = true then some .pPaused
    else if s.peers.get? n = none then some .pInvalidPeer
    else if s.paths.get? (n, t) = none then some .pInvalidBridgePath
    else if r.length ≠ 32 then some .pInvalidRecipient else none := by
  show regRes _ (transfer c env x a n t r s) = _
  unfold transfer
  simp only [MM.bind_apply, get_apply]
  by_cases h1 : s.portalPaused = true
  · simp [h1, regRes, regOf, portalErr]
  cases h2 : s.peers.get? n with
  | none => simp [h1, regRes, regOf, portalErr]
  | some peer =>
    by_cases h3 : s.paths.get? (n, t) = none
    · simp [h1, h3, KV.has, regRes, regOf, portalErr]
    by_cases h4 : r.length ≠ 32
    · simp [h1, h3, h4, KV.has, regRes, regOf, portalErr]
    have h3' : s.paths.has (n, t) ≠ false := by
      unfold KV.has
      cases hg : s.paths.get? (n, t) with
      | none => exact absurd hg h3
      | some p => simp
    simp only [h1, h3, h4, h3', if_false, reduceCtorEq]
    cases a with
    | none => rfl
    | some v =>
      simp only
      split
      · rfl
      · exact regRes_quiet (Quiet.transferSend c env x v n t r peer) s

theorem reg_lock (x : String) (v : Int) (a : Option Int) :
    regRes (.lock x v a) (exec c env (.lock x v a) s) =
    if (v = 2 ∧ s.seasonOneEnded = true) ∨ s.vPaused = 3 ∨ s.vPaused = 1 then some .vActionPaused
    else match c.decode x, a with
      | some u, some y =>
        if y < c.minLock then some .vInvalidAmount
        else if ¬(v = 1 ∨ v = 2) ∨ s.positions.get? (u, v, env.time) ≠ none then some .vInvalidVaultType
        else if s.balance u < y then some .vInvalidAmount else none
      | _, _ => none := by
  show regRes _ (lock c env x v a s) = _
  unfold lock FLEXIBLE PAUSE_ALL PAUSE_LOCK
  simp only [MM.bind_apply, get_apply]
  by_cases h1 : v = 2 ∧ s.seasonOneEnded = true
  · rw [if_pos h1, if_pos (Or.inl h1)]; rfl
  by_cases h2 : s.vPaused = 3 ∨ s.vPaused = 1
  · rw [if_neg h1, if_pos h2, if_pos (Or.inr h2)]; rfl
  rw [if_neg h1, if_neg h2, if_neg (not_or.2 ⟨h1, h2⟩)]
  cases c.decode x with
  | none => rfl
  | some u =>
    cases a with
    | none => rfl
    | some y =>
      simp only
      by_cases h3 : y < c.minLock
      · rw [if_pos h3, if_pos h3]; rfl
      by_cases h4 : v = 1 ∨ v = 2
      · have h4' : validVault v ≠ false := by
          unfold validVault STAKED FLEXIBLE
          rw [decide_eq_true h4]
          decide
        by_cases h5 : s.positions.get? (u, v, env.time) = none
        · have h5' : s.positions.has (u, v, env.time) ≠ true := by unfold KV.has; rw [h5]; decide
          by_cases h6 : s.balance u < y
          · simp only [h3, h4, h4', h5, h5', h6, not_true_eq_false, false_or, ne_eq, if_false, if_true]; rfl
          · simp only [h3, h4, h4', h5, h5', h6, not_true_eq_false, false_or, ne_eq, if_false]
            exact regRes_quiet (Quiet.bind (Quiet.newCoin _) fun _ => Quiet.bind (Quiet.sendCoins _ _ _ _)
              fun _ => Quiet.lockBook _ _ _ _ _) s
        · have h5' : s.positions.has (u, v, env.time) = true := by
            unfold KV.has
            cases hg : s.positions.get? (u, v, env.time) with
            | none => exact absurd hg h5
            | some p => rfl
          simp only [h3, h4, h4', h5, h5', not_false_eq_true, or_true, ne_eq, if_false, if_true]; rfl
      · have h4' : validVault v = false := by
          unfold validVault STAKED FLEXIBLE
          simpa using h4
        simp only [h3, h4, h4', not_false_eq_true, true_or, if_false, if_true]; rfl

theorem lockedBy_sum (u : Addr) (v : Int) :
    ((positionsOf s u v).map PosEntry.amount).sum = lockedBy s u v := lockedTotal_eq s u v

theorem reg_unlock (x : String) (v : Int) (a : Option Int) :
    regRes (.unlock x v a) (exec c env (.unlock x v a) s) =
    if (v = 2 ∧ s.seasonOneEnded = true) ∨ s.vPaused = 3 ∨ s.vPaused = 2 then some .vActionPaused
    else match c.decode x, a with
      | some _, none => some .vInvalidAmount
      | some u, some y =>
        if y ≤ 0 then some .vInvalidAmount
        else if ¬(v = 1 ∨ v = 2) then some .vInvalidVaultType
        else if lockedBy s u v < y ∨ (y < c.minUnlock ∧ y ≠ lockedBy s u v) then some .vInvalidAmount
        else none
      | none, _ => none := by
  show regRes _ (unlock c x v a s) = _
  unfold unlock unlockInner FLEXIBLE PAUSE_ALL PAUSE_UNLOCK
  simp only [MM.bind_apply, get_apply]
  by_cases h1 : v = 2 ∧ s.seasonOneEnded = true
  · rw [if_pos h1, if_pos (Or.inl h1)]; rfl
  by_cases h2 : s.vPaused = 3 ∨ s.vPaused = 2
  · rw [if_neg h1, if_pos h2, if_pos (Or.inr h2)]; rfl
  rw [if_neg h1, if_neg h2, if_neg (not_or.2 ⟨h1, h2⟩)]
  cases c.decode x with
  | none => rfl
  | some u =>
    cases a with
    | none => rfl
    | some y =>
      simp only
      by_cases h3 : y ≤ 0
      · rw [if_pos h3, if_pos h3]; rfl
      rw [if_neg h3, if_neg h3]
      by_cases h4 : v = 1 ∨ v = 2
      · have h4' : validVault v ≠ false := by
          unfold validVault STAKED FLEXIBLE
          rw [decide_eq_true h4]
          decide
        rw [if_neg h4', if_neg (not_not.2 h4)]
        simp only [MM.bind_apply, get_apply, lockedBy_sum]
        by_cases h5 : lockedBy s u v < y
        · rw [if_pos h5, if_pos (Or.inl h5)]; rfl
        by_cases h6 : y < c.minUnlock ∧ lockedBy s u v ≠ y
        · rw [if_neg h5, if_pos h6, if_pos (Or.inr ⟨h6.1, fun e => h6.2 e.symm⟩)]; rfl
        rw [if_neg h5, if_neg h6, if_neg (not_or.2 ⟨h5, fun h => h6 ⟨h.1, fun e => h.2 e.symm⟩⟩)]
        refine (regRes_bind _ (Quiet.unlockLoop c x u v _ y 0) s).trans ?_
        cases hl : unlockLoop c x u v (positionsOf s u v) y 0 s with
        | panic => rfl
        | err e t => rfl
        | ok r t =>
          have h0 : r.1 = 0 := unlockLoop_left hl (by omega) (by rw [lockedBy_sum]; omega)
          simp only [h0, ne_eq, not_true_eq_false, if_false]
          refine regRes_quiet ?_ t
          unfold countGoneUser addVaultPrincipal decrementVaultUsers
          quiet
      · have h4' : validVault v = false := by
          unfold validVault STAKED FLEXIBLE
          simpa using h4
        rw [if_pos h4', if_pos h4]; rfl

theorem reg_updateIndex {bz : Bytes} (i : Int) :
    regRes (.deliver bz) (updateIndex c env i s) = if i ≤ s.index then some .dDecreasingIndex else none := by
  unfold updateIndex
  simp only [MM.bind_apply, get_apply]
  split
  · rfl
  · exact regRes_quiet (Quiet.bind (Quiet.modify _) fun _ => Quiet.bind (Quiet.accrueYield _ _) fun _ =>
      Quiet.bind (Quiet.handleVaults _ _) fun _ => Quiet.bind (Quiet.claimExternalIBC _ _) fun _ =>
      Quiet.bind (Quiet.claimExternalHyperlane _ _) fun _ => Quiet.emit _) s

/-- Parsing changes nothing. -/
theorem parse_apply {α : Type} (r : PRes α) (s : State) : parse r s = match r with
    | .ok a => .ok a s
    | .err => .err .malformed s
    | .panic => .panic := by
  unfold parse
  cases r <;> rfl

theorem reg_deliverPayload {bz : Bytes} (peer : Peer) (v : VAA) :
    regRes (.deliver bz) (deliverPayload c env peer v s) =
    match parseTransceiver v.payload with
    | .ok t =>
      if peer.manager ≠ t.sourceManager.bytes then some .pInvalidPeer
      else if c.paddedManager ≠ t.recipientManager.bytes then some .pInvalidMessage
      else match parseManager t.managerPayload with
        | .ok m =>
          match payloadType m.payload, decodeIndex m.payload with
          | .ok .index, .ok (i, n) => if c.chain = n ∧ i ≤ s.index then some .dDecreasingIndex else none
          | _, _ => none
        | _ => none
    | _ => none := by
  unfold deliverPayload
  simp only [MM.bind_apply, parse_apply]
  cases parseTransceiver v.payload with
  | err => rfl
  | panic => rfl
  | ok t =>
    simp only
    by_cases h1 : peer.manager ≠ t.sourceManager.bytes
    · rw [if_pos h1, if_pos h1]; rfl
    rw [if_neg h1, if_neg h1]
    by_cases h2 : c.paddedManager ≠ t.recipientManager.bytes
    · rw [if_pos h2, if_pos h2]; rfl
    rw [if_neg h2, if_neg h2]
    simp only [MM.bind_apply, parse_apply]
    cases parseManager t.managerPayload with
    | err => rfl
    | panic => rfl
    | ok m =>
      simp only
      unfold handlePayload
      simp only [MM.bind_apply, parse_apply]
      cases payloadType m.payload with
      | err => rfl
      | panic => rfl
      | ok k =>
        cases k with
        | unknown => rfl
        | token => exact regRes_quiet (Quiet.handleToken _ _ _ _) s
        | index =>
          simp only
          unfold handleIndex
          simp only [MM.bind_apply, parse_apply]
          cases decodeIndex m.payload with
          | err => rfl
          | panic => rfl
          | ok p =>
            simp only
            by_cases h3 : c.chain = p.2
            · rw [if_neg (not_not.2 h3), reg_updateIndex]
              simp only [h3, true_and]
            · rw [if_pos h3, if_neg (fun h => h3 h.1)]; rfl

theorem reg_deliver (bz : Bytes) :
    regRes (.deliver bz) (exec c env (.deliver bz) s) =
    if s.portalPaused = true then some .pPaused
    else match env.verify bz with
      | none => none
      | some v =>
        if v.digest ∈ s.archive then none
        else match s.peers.get? v.emitterChain with
          | none => some .pInvalidPeer
          | some peer =>
            if peer.transceiver ≠ v.emitterAddress then some .pInvalidPeer
            else match parseTransceiver v.payload with
              | .ok t =>
                if peer.manager ≠ t.sourceManager.bytes then some .pInvalidPeer
                else if c.paddedManager ≠ t.recipientManager.bytes then some .pInvalidMessage
                else match parseManager t.managerPayload with
                  | .ok m =>
                    match payloadType m.payload, decodeIndex m.payload with
                    | .ok .index, .ok (i, n) =>
                      if c.chain = n ∧ i ≤ s.index then some .dDecreasingIndex else none
                    | _, _ => none
                  | _ => none
              | _ => none := by
  refine (regRes_then (m := .deliver bz) (x := deliverInner c env bz) (Quiet.emit (.delivered bz)) s).trans ?_
  unfold deliverInner
  simp only [MM.bind_apply, get_apply]
  by_cases h1 : s.portalPaused = true
  · rw [if_pos h1, if_pos h1]; rfl
  rw [if_neg h1, if_neg h1]
  simp only [MM.bind_apply]
  unfold verifyVAA
  cases env.verify bz with
  | none => rfl
  | some v =>
    simp only [MM.bind_apply, get_apply]
    by_cases h2 : v.digest ∈ s.archive
    · rw [if_pos h2, if_pos h2]; rfl
    rw [if_neg h2, if_neg h2]
    simp only [MM.bind_apply, modify_apply, pure_apply]
    cases s.peers.get? v.emitterChain with
    | none => rfl
    | some peer =>
      simp only
      by_cases h3 : peer.transceiver ≠ v.emitterAddress
      · rw [if_pos h3, if_pos h3]; rfl
      rw [if_neg h3, if_neg h3]
      exact reg_deliverPayload _ _ _ _ _

theorem proper_iff (b : Bytes) : Proper b ↔ ¬(b.length ≠ 32 ∨ b = zero32) := by
  unfold Proper zero32
  constructor
  · rintro ⟨h, x, hx, h0⟩ (h1 | h1)
    · exact h1 h
    · rw [h1] at hx
      exact h0 (List.eq_of_mem_replicate hx)
  · intro h
    have hl : b.length = 32 := by
      by_contra hc
      exact h (Or.inl hc)
    refine ⟨hl, ?_⟩
    by_contra hc
    refine h (Or.inr (List.eq_replicate_iff.2 ⟨hl, fun x hx => ?_⟩))
    by_contra h0
    exact hc ⟨x, hx, h0⟩

theorem registered_injective : ∀ a b : Reg, registered a = registered b → a = b := by
  intro a b h
  revert h
  cases a <;> cases b <;> decide

/-- A registered error and its cause. -/
def Because (g : Reg) (m : Msg) : Prop :=
  match g with
  | .dInvalidRequest => False
  | g => Cause (registered g).1 (registered g).2 c env m s

attribute [local simp] Because Cause registered GovernedBy OwnerMessage vaultSigner VaultClosed WrongAmount WrongVault

theorem because_claimYield (g : Reg) {x : _} : regRes (.claimYield x) (exec c env (.claimYield x) s) = some g ↔
    Because c env s g (.claimYield x) := by
  rw [reg_claimYield]
  split_ifs <;> cases g <;> simp_all [proper_iff]

theorem because_setPaused (g : Reg) {x b : _} : regRes (.setPaused x b) (exec c env (.setPaused x b) s) = some g ↔
    Because c env s g (.setPaused x b) := by
  rw [reg_setPaused]
  split_ifs <;> cases g <;> simp_all [proper_iff]

theorem because_setYieldRecipient (g : Reg) {x p i r : _} : regRes (.setYieldRecipient x p i r) (exec c env (.setYieldRecipient x p i r) s) = some g ↔
    Because c env s g (.setYieldRecipient x p i r) := by
  rw [reg_setYieldRecipient]
  split_ifs <;> cases g <;> simp_all [proper_iff]

theorem because_vaultsSetPaused (g : Reg) {x k : _} : regRes (.vaultsSetPaused x k) (exec c env (.vaultsSetPaused x k) s) = some g ↔
    Because c env s g (.vaultsSetPaused x k) := by
  rw [reg_vaultsSetPaused]
  split_ifs <;> cases g <;> simp_all [proper_iff]
  all_goals omega

theorem because_portalSetPaused (g : Reg) {x b : _} : regRes (.portalSetPaused x b) (exec c env (.portalSetPaused x b) s) = some g ↔
    Because c env s g (.portalSetPaused x b) := by
  rw [reg_portalSetPaused]
  split_ifs <;> cases g <;> simp_all [proper_iff]

theorem because_setPeer (g : Reg) {x n t g' : _} : regRes (.setPeer x n t g') (exec c env (.setPeer x n t g') s) = some g ↔
    Because c env s g (.setPeer x n t g') := by
  rw [reg_setPeer]
  split_ifs <;> cases g <;> simp_all [proper_iff]
  tauto

theorem because_setBridgingPath (g : Reg) {x n t b : _} : regRes (.setBridgingPath x n t b) (exec c env (.setBridgingPath x n t b) s) = some g ↔
    Because c env s g (.setBridgingPath x n t b) := by
  rw [reg_setBridgingPath]
  split_ifs <;> cases g <;> simp_all [proper_iff]
  tauto

theorem because_transferOwnership (g : Reg) {x o : _} : regRes (.transferOwnership x o) (exec c env (.transferOwnership x o) s) = some g ↔
    Because c env s g (.transferOwnership x o) := by
  rw [reg_transferOwnership]
  cases hd : c.decode o with
  | none =>
    split_ifs <;> cases g <;> simp_all
    intro ho
    rw [← ho, hd]
    simp
  | some u => split_ifs <;> cases g <;> simp_all

theorem because_transfer (g : Reg) {x a n t r : _} : regRes (.transfer x a n t r) (exec c env (.transfer x a n t r) s) = some g ↔
    Because c env s g (.transfer x a n t r) := by
  rw [reg_transfer]
  split_ifs <;> cases g <;> simp_all [proper_iff]

theorem because_lock (g : Reg) {x v a : _} : regRes (.lock x v a) (exec c env (.lock x v a) s) = some g ↔
    Because c env s g (.lock x v a) := by
  rw [reg_lock]
  by_cases h0 : (v = 2 ∧ s.seasonOneEnded = true) ∨ s.vPaused = 3 ∨ s.vPaused = 1
  · rw [if_pos h0]
    cases g <;> simp [h0]
  rw [if_neg h0]
  cases hd : c.decode x with
  | none => cases g <;> simp [h0, hd]
  | some u =>
    cases a with
    | none => cases g <;> simp [h0]
    | some y =>
      simp only
      by_cases h1 : y < c.minLock
      · rw [if_pos h1]
        cases g <;> simp [h0, hd, h1]
      rw [if_neg h1]
      by_cases h2 : ¬(v = 1 ∨ v = 2) ∨ s.positions.get? (u, v, env.time) ≠ none
      · rw [if_pos h2]
        cases g <;> simp [h0, hd, h1]
        all_goals grind
      · rw [if_neg h2]
        split_ifs <;> cases g <;> simp [h0, hd, h1]
        all_goals grind

theorem because_unlock (g : Reg) {x v a : _} : regRes (.unlock x v a) (exec c env (.unlock x v a) s) = some g ↔
    Because c env s g (.unlock x v a) := by
  rw [reg_unlock]
  by_cases h0 : (v = 2 ∧ s.seasonOneEnded = true) ∨ s.vPaused = 3 ∨ s.vPaused = 2
  · rw [if_pos h0]
    cases g <;> simp [h0]
  rw [if_neg h0]
  cases hd : c.decode x with
  | none => cases g <;> simp [h0, hd]
  | some u =>
    cases a with
    | none => cases g <;> simp [h0, hd]
    | some y =>
      simp only
      by_cases h1 : y ≤ 0
      · rw [if_pos h1]
        cases g <;> simp [h0, hd, h1]
      rw [if_neg h1]
      by_cases h2 : ¬(v = 1 ∨ v = 2)
      · rw [if_pos h2]
        cases g <;> simp [h0, hd, h1, h2]
        all_goals grind
      · rw [if_neg h2]
        split_ifs <;> cases g <;> simp [h0, hd, h1, h2]
        all_goals grind

theorem because_deliver (g : Reg) {bz : Bytes} : regRes (.deliver bz) (exec c env (.deliver bz) s) = some g ↔
    Because c env s g (.deliver bz) := by
  rw [reg_deliver]
  by_cases h0 : s.portalPaused = true
  · rw [if_pos h0]
    cases g <;> simp [h0]
  rw [if_neg h0]
  replace h0 : s.portalPaused = false := by simpa using h0
  cases hv : env.verify bz with
  | none => cases g <;> simp [h0, NewlySigned, hv]
  | some v =>
    simp only
    by_cases h1 : v.digest ∈ s.archive
    · rw [if_pos h1]
      cases g <;> simp [h0, NewlySigned, hv, h1]
    rw [if_neg h1]
    cases hp : s.peers.get? v.emitterChain with
    | none => cases g <;> simp [h0, NewlySigned, hv, h1, Stranger, FromPeer, CarriesOldIndex, Addressed, hp]
    | some peer =>
      simp only
      by_cases h2 : peer.transceiver = v.emitterAddress
      · rw [if_neg (not_not.2 h2)]
        cases ht : parseTransceiver v.payload with
        | err =>
          cases g <;> simp [h0, NewlySigned, hv, h1, Stranger, FromPeer, CarriesOldIndex, Addressed, hp, h2, ht]
        | panic =>
          cases g <;> simp [h0, NewlySigned, hv, h1, Stranger, FromPeer, CarriesOldIndex, Addressed, hp, h2, ht]
        | ok t =>
          simp only
          by_cases h3 : peer.manager = t.sourceManager.bytes
          · rw [if_neg (not_not.2 h3)]
            by_cases h4 : t.recipientManager.bytes = c.paddedManager
            · rw [if_neg (not_not.2 h4.symm)]
              cases hm : parseManager t.managerPayload with
              | err =>
                cases g <;> simp [h0, NewlySigned, hv, h1, Stranger, FromPeer, CarriesOldIndex, Addressed, hp,
                  h2, ht, h3, h4, hm]
              | panic =>
                cases g <;> simp [h0, NewlySigned, hv, h1, Stranger, FromPeer, CarriesOldIndex, Addressed, hp,
                  h2, ht, h3, h4, hm]
              | ok m =>
                simp only
                split
                · rename_i i n hk hx
                  split_ifs with h5
                  · obtain ⟨rfl, h5⟩ := h5
                    cases g <;> simp [h0, NewlySigned, hv, h1, Stranger, FromPeer, CarriesOldIndex, Addressed, hp,
                      h2, ht, h3, h4, hm, hk, hx, h5]
                  · cases g <;> simp [h0, NewlySigned, hv, h1, Stranger, FromPeer, CarriesOldIndex, Addressed, hp,
                      h2, ht, h3, h4, hm, hk, hx]
                    intro j
                    by_contra hlt
                    exact h5 ⟨j.symm, not_lt.1 hlt⟩
                · rename_i hk
                  cases g <;> simp [h0, NewlySigned, hv, h1, Stranger, FromPeer, CarriesOldIndex, Addressed, hp,
                    h2, ht, h3, h4, hm]
                  intro e1 j e2
                  exact absurd e2 (hk _ _ e1)
            · rw [if_pos (fun e => h4 e.symm)]
              cases g <;> simp [h0, NewlySigned, hv, h1, Stranger, FromPeer, CarriesOldIndex, Addressed, hp,
                h2, ht, h3, h4]
          · rw [if_pos h3]
            cases g <;> simp [h0, NewlySigned, hv, h1, Stranger, FromPeer, CarriesOldIndex, Addressed, hp,
              h2, ht, h3]
      · rw [if_pos h2]
        cases g <;> simp [h0, NewlySigned, hv, h1, Stranger, FromPeer, CarriesOldIndex, Addressed, hp, h2]

/-- Messages without a registered error. -/
theorem because_other (g : Reg) {m : Msg} (hm : ∀ e, regOf m e = none) (hb : ¬Because c env s g m) :
    regRes m (exec c env m s) = some g ↔ Because c env s g m := by
  have h : regRes m (exec c env m s) = none := by
    cases exec c env m s with
    | ok a t => rfl
    | err e t => exact hm e
    | panic => rfl
  rw [h]
  simp only [reduceCtorEq, false_iff]
  exact hb

theorem because_iff (g : Reg) (m : Msg) : regRes m (exec c env m s) = some g ↔ Because c env s g m := by
  cases m with
  | claimYield => exact because_claimYield c env s g
  | setPaused => exact because_setPaused c env s g
  | setYieldRecipient => exact because_setYieldRecipient c env s g
  | vaultsSetPaused => exact because_vaultsSetPaused c env s g
  | portalSetPaused => exact because_portalSetPaused c env s g
  | setPeer => exact because_setPeer c env s g
  | setBridgingPath => exact because_setBridgingPath c env s g
  | transferOwnership => exact because_transferOwnership c env s g
  | transfer => exact because_transfer c env s g
  | lock => exact because_lock c env s g
  | unlock => exact because_unlock c env s g
  | deliver => exact because_deliver c env s g
  | _ => exact because_other c env s g (fun _ => rfl) (by cases g <;> simp)

theorem cause_registered {cs : String} {n : Nat} {m : Msg} (h : Cause cs n c env m s) :
    ∃ g, registered g = (cs, n) ∧ g ≠ .dInvalidRequest := by
  unfold Cause at h
  split at h
  · exact ⟨.dInvalidAuthority, rfl, by decide⟩
  · exact ⟨.dPaused, rfl, by decide⟩
  · exact ⟨.dDecreasingIndex, rfl, by decide⟩
  · exact ⟨.vInvalidAuthority, rfl, by decide⟩
  · exact ⟨.vInvalidAmount, rfl, by decide⟩
  · exact ⟨.vInvalidVaultType, rfl, by decide⟩
  · exact ⟨.vInvalidPauseType, rfl, by decide⟩
  · exact ⟨.vActionPaused, rfl, by decide⟩
  · exact ⟨.pNoOwner, rfl, by decide⟩
  · exact ⟨.pNotOwner, rfl, by decide⟩
  · exact ⟨.pSameOwner, rfl, by decide⟩
  · exact ⟨.pPaused, rfl, by decide⟩
  · exact ⟨.pInvalidPeer, rfl, by decide⟩
  · exact ⟨.pInvalidBridgePath, rfl, by decide⟩
  · exact ⟨.pInvalidMessage, rfl, by decide⟩
  · exact ⟨.pInvalidRecipient, rfl, by decide⟩
  · exact h.elim

theorem because_cause {g : Reg} {m : Msg} : Because c env s g m ↔ Cause (registered g).1 (registered g).2 c env m s := by
  cases g with
  | dInvalidRequest => simp
  | _ => exact Iff.rfl

end Codes

/-- The code a failed message is answered with tells its cause, and every cause is answered with its
code: for every message, configuration and state. -/
theorem C121_cause (c : Cfg) (env : Env) (m : Msg) (s : State) (codespace : String) (code : Nat) :
    answer c env m s = .code codespace code ↔ Cause codespace code c env m s := by
  unfold answer
  rw [answerOf_code]
  constructor
  · rintro ⟨g, h, hg⟩
    have := (because_cause c env s).1 ((because_iff c env s g m).1 h)
    rwa [hg] at this
  · intro h
    obtain ⟨g, hg, _⟩ := cause_registered c env s h
    refine ⟨g, (because_iff c env s g m).2 ((because_cause c env s).2 ?_), hg⟩
    rw [hg]
    exact h

/-- No two registered errors share codespace and number (`errors.Register` panics when they do, and the
binary would not start). -/
theorem C121_distinct (a b : Reg) (h : registered a = registered b) : a = b := registered_injective a b h

/-- No transaction that failed is reported with number 0, which means success, although an error with
this number is registered. -/
theorem C121_never_zero (c : Cfg) (env : Env) (m : Msg) (s : State) (codespace : String) (code : Nat)
    (h : answer c env m s = .code codespace code) : code ≠ 0 := by
  rintro rfl
  have := (C121_cause c env m s codespace 0).1 h
  unfold Cause at this
  split at this <;> simp_all

/-- A message answered with a code changed nothing. -/
theorem C121_nothing_happened (c : Cfg) (env : Env) (m : Msg) (s : State) (h : answer c env m s ≠ .success) :
    step c env m s = s := by
  unfold answer at h
  unfold step runTx
  cases hx : exec c env m s with
  | ok a t => rw [hx] at h; exact absurd rfl h
  | err e t => rfl
  | panic => rfl

/-- In a transaction with several messages the code is that of the first message that fails, in the state
the messages before it led to. -/
theorem C121_transaction (c : Cfg) (msgs : List (Env × Msg)) (s : State) (codespace : String) (code : Nat) :
    answerMsgs c msgs s = .code codespace code ↔
      ∃ before env m after s1, msgs = before ++ (env, m) :: after ∧ runMsgs c before s = .ok () s1 ∧
        Cause codespace code c env m s1 := by
  induction msgs generalizing s with
  | nil => simp [answerMsgs]
  | cons e t ih =>
    obtain ⟨env, m⟩ := e
    unfold answerMsgs
    cases hx : exec c env m s with
    | ok a s' =>
      simp only [ih]
      constructor
      · rintro ⟨pre, env1, m1, post, s1, rfl, hr, hc⟩
        refine ⟨(env, m) :: pre, env1, m1, post, s1, rfl, ?_, hc⟩
        unfold runMsgs
        rw [bind_ok]
        exact ⟨a, s', hx, hr⟩
      · rintro ⟨pre, env1, m1, post, s1, he, hr, hc⟩
        cases pre with
        | nil =>
          simp only [List.nil_append, List.cons.injEq, Prod.mk.injEq] at he
          obtain ⟨⟨rfl, rfl⟩, rfl⟩ := he
          cases hr
          have := (C121_cause c env m s codespace code).2 hc
          unfold answer at this
          rw [hx] at this
          cases this
        | cons f pre =>
          simp only [List.cons_append, List.cons.injEq] at he
          obtain ⟨rfl, rfl⟩ := he
          unfold runMsgs at hr
          rw [bind_ok] at hr
          obtain ⟨a1, s2, h1, h2⟩ := hr
          rw [hx] at h1
          cases h1
          exact ⟨pre, env1, m1, post, s1, rfl, h2, hc⟩
    | _ =>
      have key : answerOf m (exec c env m s) = .code codespace code ↔ Cause codespace code c env m s :=
        C121_cause c env m s codespace code
      simp only [← hx, key]
      constructor
      · intro hc
        exact ⟨[], env, m, t, s, rfl, rfl, hc⟩
      · rintro ⟨pre, env1, m1, post, s1, he, hr, hc⟩
        cases pre with
        | nil =>
          simp only [List.nil_append, List.cons.injEq, Prod.mk.injEq] at he
          obtain ⟨⟨rfl, rfl⟩, rfl⟩ := he
          cases hr
          exact hc
        | cons f pre =>
          simp only [List.cons_append, List.cons.injEq] at he
          obtain ⟨rfl, rfl⟩ := he
          unfold runMsgs at hr
          rw [bind_ok] at hr
          obtain ⟨a1, s2, h1, h2⟩ := hr
          rw [hx] at h1
          cases h1

/-- The two meanings of ("dollar/vaults", 3) can be told apart: a lock of enough coins in an existing vault
gets it exactly when the user has already locked in the same vault in this second, while the vault is
open. -/
theorem C121_same_block (c : Cfg) (env : Env) (s : State) (signer : String) (user : Addr) (vault amount : Int)
    (hu : c.decode signer = some user) (hv : vault = 1 ∨ vault = 2) (ha : c.minLock ≤ amount)
    (ho : ¬VaultClosed s (.lock signer vault (some amount))) :
    answer c env (.lock signer vault (some amount)) s = .code "dollar/vaults" 3 ↔
      s.positions.get? (user, vault, env.time) ≠ none := by
  rw [C121_cause]
  constructor
  · rintro ⟨x, u, h1, _, h2, _, h3⟩
    simp only [vaultSigner, Option.some.injEq] at h1
    subst h1
    rw [hu] at h2
    cases h2
    rcases h3 with h3 | h3
    · exact absurd hv h3
    · exact h3
  · intro h
    exact ⟨signer, user, rfl, ho, hu, ha, Or.inr h⟩

/-- A Wormhole that also accepts an old index, a message of an unknown chain, one with a wrong manager and one for
another manager. -/
def Demo.codeEnv : Env := { Demo.env 5 with
  verify := fun bz =>
    if bz = [9] then some (Demo.vaaIndex 9 1000000000000)
    else if bz = [10] then some { Demo.vaaIndex 10 1 with emitterChain := 3 }
    else if bz = [11] then some ⟨2, List.replicate 32 5, Sl.ofBytes (encodeTransceiver
      ⟨List.replicate 32 7, Demo.cfg.paddedManager, [], []⟩) [], [11]⟩
    else if bz = [12] then some ⟨2, List.replicate 32 5, Sl.ofBytes (encodeTransceiver
      ⟨List.replicate 32 6, List.replicate 32 1, [], []⟩) [], [12]⟩
    else none }

/-- Non-vacuity: in a reachable state every code is answered by some message, and the others by a
state that differs from it in one switch. -/
example : let s := run Demo.cfg Demo.hist1 Demo.start
    let ans := fun m s => answer Demo.cfg Demo.codeEnv m s
    Reachable Demo.cfg s ∧
    ans (.setYieldRecipient "alice" 0 "channel-0" "x") s = .code "dollar" 1 ∧
    ans (.claimYield Demo.aliceS) { s with paused := true } = .code "dollar" 2 ∧
    ans (.deliver [9]) s = .code "dollar" 3 ∧
    ans (.setPaused "alice" true) s = .code "dollar/vaults" 1 ∧
    ans (.lock Demo.aliceS 2 (some 1)) s = .code "dollar/vaults" 2 ∧
    ans (.unlock Demo.bobS 1 (some 2000001)) s = .code "dollar/vaults" 2 := by
  refine ⟨Demo.reach1, ?_⟩
  decide +kernel

example : let s := run Demo.cfg Demo.hist1 Demo.start
    let ans := fun m s => answer Demo.cfg Demo.codeEnv m s
    ans (.lock Demo.aliceS 1 (some 1000000)) s = .code "dollar/vaults" 3 ∧
    ans (.lock Demo.aliceS 3 (some 1000000)) s = .code "dollar/vaults" 3 ∧
    ans (.lock Demo.aliceS 2 (some 1000000)) s = .success ∧
    ans (.vaultsSetPaused "authority" 4) s = .code "dollar/vaults" 4 ∧
    ans (.lock Demo.aliceS 1 (some 1000000)) { s with vPaused := 1 } = .code "dollar/vaults" 5 ∧
    ans (.setPeer "owner" 3 (List.replicate 32 1) (List.replicate 32 1)) { s with owner := "" } =
      .code "dollar/portal" 1 ∧
    ans (.setPeer "alice" 3 (List.replicate 32 1) (List.replicate 32 1)) s = .code "dollar/portal" 2 ∧
    ans (.transferOwnership Demo.aliceS Demo.aliceS) { s with owner := Demo.aliceS } = .code "dollar/portal" 3 := by
  decide +kernel

example : let s := run Demo.cfg Demo.hist1 Demo.start
    let ans := fun m s => answer Demo.cfg Demo.codeEnv m s
    ans (.deliver [9]) { s with portalPaused := true } = .code "dollar/portal" 4 ∧
    ans (.deliver [10]) s = .code "dollar/portal" 5 ∧
    ans (.deliver [11]) s = .code "dollar/portal" 5 ∧
    ans (.setPeer "owner" 3 (List.replicate 32 0) (List.replicate 32 1)) s = .code "dollar/portal" 5 ∧
    ans (.transfer Demo.bobS (some 1) 2 (List.replicate 32 9) (List.replicate 32 1)) s = .code "dollar/portal" 6 ∧
    ans (.deliver [12]) s = .code "dollar/portal" 7 ∧
    ans (.transfer Demo.bobS (some 1) 2 (List.replicate 32 8) (List.replicate 31 1)) s = .code "dollar/portal" 8 ∧
    ans (.transfer Demo.bobS none 2 (List.replicate 32 8) (List.replicate 32 1)) s = .crash ∧
    ans (.deliver [13]) s = .other := by
  decide +kernel

/-- Non-vacuity of the claim about transactions: the second message fails, in the state the first one
led to. -/
example : answerMsgs Demo.cfg
    [(Demo.env 8, .lock Demo.aliceS 2 (some 1000000)), (Demo.env 8, .lock Demo.aliceS 2 (some 1000000))]
    (run Demo.cfg Demo.hist1 Demo.start) = .code "dollar/vaults" 3 := by
  decide +kernel

end Dollar
