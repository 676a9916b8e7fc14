import Verif.Lemmas.BlindExec

/-
Two spellings of the same address: the messages that users sign do the same with either, except for what the log says.
-/
set_option linter.unusedSimpArgs false
set_option linter.unnecessarySeqFocus false
namespace Dollar
open MM

/-- The states differ in nothing but the log. -/
def Retold (s t : State) : Prop := ∃ l, t = { s with events := l }

theorem Same.reads {β : Type} {f : State → M β} (hf : ∀ s l, f { s with events := l } = f s)
    (h : ∀ s, Same Retold (f s)) : Same Retold (MM.get >>= f) :=
  .getBind (fun s _ hr => by obtain ⟨l, rfl⟩ := hr; exact hf s l) h

theorem Same.writes {f : State → State} (h : ∀ s l, f { s with events := l } = { f s with events := l }) :
    Same Retold (MM.modify f) :=
  .modify fun s _ hr => by obtain ⟨l, rfl⟩ := hr; exact ⟨l, h s l⟩

/-- Break a computation into its steps; whatever it reads or writes is not the log. -/
macro "logged" : tactic => `(tactic| repeat' (with_reducible first
  | assumption
  | exact Same.pure _ | exact Same.fail _ | exact Same.crash
  | exact Same.newCoin _ | exact Same.principalUp _ _ | exact Same.principalDown _ _
  | exact Same.parse _
  | (refine Same.reads (fun s l => by with_unfolding_all rfl) ?_)
  | refine Same.bind ?_ ?_ | refine Same.ite ?_ ?_
  | (refine Same.writes fun s l => by with_unfolding_all rfl)
  | intro _ | split))

namespace Retold

theorem refl (s : State) : Retold s s := ⟨s.events, rfl⟩

theorem emit2 (e f : Event) : Same2 Retold (emit e) (emit f) :=
  ⟨fun s t h => by obtain ⟨l, rfl⟩ := h; exact ⟨rfl, _, rfl⟩⟩
theorem emit (e : Event) : Same Retold (emit e) := (emit2 e e).same
theorem setBalance (a : Addr) (v : Int) : Same Retold (setBalance a v) := by
  unfold Dollar.setBalance; logged
theorem subCoins (a : Addr) (v : Int) : Same Retold (subCoins a v) := by
  unfold Dollar.subCoins; logged <;> exact setBalance _ _
theorem addCoins (a : Addr) (v : Int) : Same Retold (addCoins a v) := by
  unfold Dollar.addCoins; logged <;> exact setBalance _ _
theorem decrementHolders : Same Retold decrementHolders := by
  unfold Dollar.decrementHolders; logged
theorem incrementHolders : Same Retold incrementHolders := by
  unfold Dollar.incrementHolders; logged
theorem addPrincipal (a : Addr) (v : Int) : Same Retold (addPrincipal a v) := by
  unfold Dollar.addPrincipal; logged
theorem restrictSender (c : Cfg) (a : Addr) (p : Int) : Same Retold (restrictSender c a p) := by
  unfold Dollar.restrictSender incrementTotalPrincipal
  logged <;> first | exact addPrincipal _ _ | exact decrementHolders
theorem restrictRecipient (c : Cfg) (a b : Addr) (x i p : Int) : Same Retold (restrictRecipient c a b x i p) := by
  unfold Dollar.restrictRecipient decrementTotalPrincipal
  logged <;> first | exact addPrincipal _ _ | exact incrementHolders
theorem sendRestriction (c : Cfg) (a b : Addr) (x : Int) : Same Retold (sendRestriction c a b x) := by
  unfold Dollar.sendRestriction
  logged <;> first | exact restrictSender _ _ _ | exact restrictRecipient _ _ _ _ _ _
theorem sendCoins (c : Cfg) (a b : Addr) (x : Int) : Same Retold (sendCoins c a b x) := by
  unfold Dollar.sendCoins
  logged <;> first | exact subCoins _ _ | exact sendRestriction _ _ _ _ | exact addCoins _ _
theorem sendModuleToAccount (c : Cfg) (a b : Addr) (x : Int) : Same Retold (sendModuleToAccount c a b x) := by
  unfold Dollar.sendModuleToAccount
  logged <;> exact sendCoins _ _ _ _
theorem burnCoins (c : Cfg) (x : Int) : Same Retold (burnCoins c x) := by
  unfold Dollar.burnCoins
  logged <;> exact subCoins _ _
theorem burn (c : Cfg) (a : Addr) (x : Int) : Same Retold (burn c a x) := by
  unfold Dollar.burn
  logged <;> first | exact burnCoins _ _ | exact sendCoins _ _ _ _
theorem claimModuleYield (c : Cfg) (a : Addr) : Same Retold (claimModuleYield c a) := by
  unfold Dollar.claimModuleYield
  logged <;> exact sendModuleToAccount _ _ _ _
theorem incrementVaultUsers (v : Int) : Same Retold (incrementVaultUsers v) := by
  unfold Dollar.incrementVaultUsers
  refine .modify fun s t h => ?_
  obtain ⟨l, rfl⟩ := h
  split
  · exact ⟨l, rfl⟩
  · split <;> exact ⟨l, rfl⟩
theorem decrementVaultUsers (v : Int) : Same Retold (decrementVaultUsers v) := by
  unfold Dollar.decrementVaultUsers
  refine .modify fun s t h => ?_
  obtain ⟨l, rfl⟩ := h
  split
  · exact ⟨l, rfl⟩
  · split <;> exact ⟨l, rfl⟩
theorem addVaultPrincipal (v d : Int) : Same Retold (addVaultPrincipal v d) := by
  unfold Dollar.addVaultPrincipal
  refine .modify fun s t h => ?_
  obtain ⟨l, rfl⟩ := h
  split
  · exact ⟨l, rfl⟩
  · split <;> exact ⟨l, rfl⟩
theorem incrementDistributed (x : Int) : Same Retold (incrementDistributed x) := by
  unfold Dollar.incrementDistributed; logged
theorem addTotalFlexible (x : Int) : Same Retold (addTotalFlexible x) := by
  unfold Dollar.addTotalFlexible; logged
theorem lockTotal (v x : Int) : Same Retold (lockTotal v x) := by
  unfold Dollar.lockTotal
  logged <;> exact addTotalFlexible _
theorem countNewUser (a : Addr) (v : Int) : Same Retold (countNewUser a v) := by
  unfold Dollar.countNewUser
  logged <;> exact incrementVaultUsers _
theorem countGoneUser (a : Addr) (v : Int) : Same Retold (countGoneUser a v) := by
  unfold Dollar.countGoneUser
  logged <;> exact decrementVaultUsers _
theorem claimRewards (c : Cfg) (p : PosEntry) (x : Int) : Same Retold (claimRewards c p x) := by
  unfold Dollar.claimRewards
  logged <;> first | exact sendCoins _ _ _ _ | exact emit _
theorem updatePosition (p : PosEntry) (x y : Int) : Same Retold (updatePosition p x y) := by
  unfold Dollar.updatePosition
  refine .modify fun s t h => ?_
  obtain ⟨l, rfl⟩ := h
  split <;> exact ⟨l, rfl⟩
theorem incrementNonce : Same Retold incrementNonce := by
  unfold Dollar.incrementNonce; logged
theorem postMessage (env : Env) (r : Bytes) (n : Nat) : Same Retold (postMessage env r n) := by
  unfold Dollar.postMessage; logged

/-! ### The messages of users, with two spellings of the signer -/

section
variable {c : Cfg} {p q : String}

theorem posAddr_eq (h : lowerStr p = lowerStr q) (v t : Int) : posAddr c p v t = posAddr c q v t := by
  unfold posAddr posAccountName; rw [h]

theorem claimYield (hd : c.decode p = c.decode q) : Same2 Retold (claimYield c p) (claimYield c q) := by
  unfold Dollar.claimYield getYield
  rw [hd]
  refine .getBind fun s t h => ?_
  obtain ⟨l, rfl⟩ := h
  refine .ite (.fail _) (.bind ?_ fun r => .bind (.of_same (.newCoin _)) fun _ =>
    .bind (.of_same (sendModuleToAccount _ _ _ _)) fun _ => emit2 _ _)
  refine .of_same ?_
  logged

theorem lockBook (a : Addr) (v x t : Int) : Same2 Retold (lockBook p a v x t) (lockBook q a v x t) := by
  unfold Dollar.lockBook
  refine .getBind fun s t h => ?_
  obtain ⟨l, rfl⟩ := h
  refine .bind (.of_same (.principalDown _ _)) fun r => .bind (.of_same ?_) fun _ => .bind (.of_same (lockTotal _ _)) fun _ =>
    .bind (.of_same (countNewUser _ _)) fun _ => .bind (.of_same (addVaultPrincipal _ _)) fun _ => emit2 _ _
  logged

theorem lock (env : Env) (hd : c.decode p = c.decode q) (hl : lowerStr p = lowerStr q) (v : Int) (x : Option Int) :
    Same2 Retold (lock c env p v x) (lock c env q v x) := by
  unfold Dollar.lock
  rw [hd]
  refine .getBind fun s t h => ?_
  obtain ⟨l, rfl⟩ := h
  refine .ite (.fail _) (.ite (.fail _) ?_)
  split
  · exact .fail _
  · split
    · exact .crash
    · rw [posAddr_eq hl]
      exact .ite (.fail _) (.ite (.fail _) (.ite (.fail _) (.ite (.fail _)
        (.bind (.of_same (.newCoin _)) fun _ => .bind (.of_same (sendCoins _ _ _ _)) fun _ => lockBook _ _ _ _))))

theorem unlockPayout (hl : lowerStr p = lowerStr q) (v : Int) (e : PosEntry) (x y : Int) :
    Same2 Retold (unlockPayout c p v e x y) (unlockPayout c q v e x y) := by
  unfold Dollar.unlockPayout unlockFlexible
  rw [posAddr_eq hl]
  refine .of_same ?_
  logged <;> first | exact addTotalFlexible _ | exact claimRewards _ _ _ | exact incrementDistributed _ |
    exact claimModuleYield _ _

theorem unlockOne (hl : lowerStr p = lowerStr q) (a : Addr) (v : Int) (e : PosEntry) (x : Int) :
    Same2 Retold (unlockOne c p a v e x) (unlockOne c q a v e x) := by
  unfold Dollar.unlockOne
  rw [posAddr_eq hl]
  exact .bind (.of_same (.principalDown _ _)) fun _ => .bind (unlockPayout hl _ _ _ _) fun _ =>
    .bind (.of_same (.newCoin _)) fun _ => .bind (.of_same (sendCoins _ _ _ _)) fun _ =>
    .bind (.of_same (updatePosition _ _ _)) fun _ => .bind (emit2 _ _) fun _ => .pure _

theorem unlockLoop (hl : lowerStr p = lowerStr q) (a : Addr) (v : Int) (l : List PosEntry) (x y : Int) :
    Same2 Retold (unlockLoop c p a v l x y) (unlockLoop c q a v l x y) := by
  induction l generalizing x y with
  | nil => exact .pure _
  | cons e t ih =>
    unfold Dollar.unlockLoop
    exact .ite (.pure _) (.bind (unlockOne hl _ _ _ _) fun _ => ih _ _)

theorem unlock (hd : c.decode p = c.decode q) (hl : lowerStr p = lowerStr q) (v : Int) (x : Option Int) :
    Same2 Retold (unlock c p v x) (unlock c q v x) := by
  unfold Dollar.unlock unlockInner
  rw [hd]
  refine .getBind fun s t h => ?_
  obtain ⟨l, rfl⟩ := h
  refine .ite (.fail _) (.ite (.fail _) ?_)
  split
  · exact .fail _
  · split
    · exact .fail _
    · refine .ite (.fail _) (.ite (.fail _) (.getBind fun s t h => ?_))
      obtain ⟨l, rfl⟩ := h
      exact .ite (.fail _) (.ite (.fail _) (.bind (unlockLoop hl _ _ _ _ _) fun _ => .ite (.fail _)
        (.bind (.of_same (countGoneUser _ _)) fun _ => .of_same (addVaultPrincipal _ _))))

theorem transferSend (env : Env) (hd : c.decode p = c.decode q) (x : Int) (ch : Nat) (tk r : Bytes) (pe : Peer) :
    Same2 Retold (transferSend c env p x ch tk r pe) (transferSend c env q x ch tk r pe) := by
  unfold Dollar.transferSend
  rw [hd]
  refine .getBind fun s t h => ?_
  obtain ⟨l, rfl⟩ := h
  split
  · exact .fail _
  · exact .bind (.of_same (.parse _)) fun _ => .bind (.of_same incrementNonce) fun _ =>
      .bind (.of_same (burn _ _ _)) fun _ => .bind (.of_same (postMessage _ _ _)) fun _ => .bind (emit2 _ _) fun _ =>
      .ite .crash (.bind (emit2 _ _) fun _ => emit2 _ _)

theorem transfer (env : Env) (hd : c.decode p = c.decode q) (x : Option Int) (ch : Nat) (tk r : Bytes) :
    Same2 Retold (transfer c env p x ch tk r) (transfer c env q x ch tk r) := by
  unfold Dollar.transfer
  refine .getBind fun s t h => ?_
  obtain ⟨l, rfl⟩ := h
  refine .ite (.fail _) ?_
  dsimp only
  split
  · exact .fail _
  · refine .ite (.fail _) (.ite (.fail _) ?_)
    split
    · exact .crash
    · exact .ite .crash (transferSend env hd _ _ _ _ _)

end
end Retold
end Dollar
