import Verif.Lemmas.NoPanic
import Verif.Model.System

/-
No panics in the handlers: every message but Transfer, Lock and Deliver, and what is left of these.
-/
set_option linter.unusedSimpArgs false
namespace Dollar
open MM

/-- Like `Safe`, and a successful run returns a value with `Q`. -/
def SafeV {α : Type} (Q : α → Prop) (x : M α) (s : State) : Prop :=
  Safe x s ∧ (x s).Succ fun a _ => Q a

namespace SafeV
variable {α β : Type} {s : State} {Q : α → Prop} {R : β → Prop}

theorem pure {a : α} (h : Q a) : SafeV Q (Pure.pure a : M α) s := ⟨.pure a, h⟩

theorem bind {x : M α} {f : α → M β} (hx : SafeV Q x s)
    (hf : ∀ a s', s'.index = s.index → Q a → SafeV R (f a) s') : SafeV R (x >>= f) s := by
  unfold SafeV Safe at hx ⊢
  rw [bind_apply]
  cases hxs : x s with
  | panic => exact absurd hxs hx.1.1
  | err e s' =>
    have := hx.1.2
    rw [hxs] at this
    exact ⟨⟨(fun h => by cases h), this⟩, trivial⟩
  | ok a s' =>
    have h1 := hx.1.2
    rw [hxs] at h1
    have h1 : s'.index = s.index := h1
    have hq := hx.2
    rw [hxs] at hq
    have h2 := hf a s' h1 hq
    refine ⟨⟨h2.1.1, ?_⟩, h2.2⟩
    have h3 := h2.1.2
    show ((f a) s').Ends _
    cases hfs : f a s' with
    | panic => trivial
    | err e s'' => rw [hfs] at h3; exact Eq.trans h3 h1
    | ok b s'' => rw [hfs] at h3; exact Eq.trans h3 h1

/-- The value of the first part does not matter. -/
theorem bind' {x : M α} {f : α → M β} (hx : Safe x s)
    (hf : ∀ a s', s'.index = s.index → SafeV R (f a) s') : SafeV R (x >>= f) s :=
  bind (Q := fun _ => True) ⟨hx, by cases x s <;> trivial⟩ fun a s' h _ => hf a s' h

theorem get_bind {f : State → M β} (h : SafeV R (f s) s) : SafeV R (MM.get >>= f) s := h

theorem ite {p : Prop} [Decidable p] {x y : M α} (hx : p → SafeV Q x s) (hy : ¬ p → SafeV Q y s) :
    SafeV Q (if p then x else y) s := by
  split
  · exact hx ‹_›
  · exact hy ‹_›

theorem mono {Q' : α → Prop} {x : M α} (h : SafeV Q x s) (hq : ∀ a, Q a → Q' a) : SafeV Q' x s := by
  refine ⟨h.1, ?_⟩
  have := h.2
  revert this
  cases x s with
  | ok a s' => exact hq a
  | err e s' => exact id
  | panic => exact id

end SafeV

theorem Safe.bindV {α β : Type} {s : State} {Q : α → Prop} {x : M α} {f : α → M β} (hx : SafeV Q x s)
    (hf : ∀ a s', s'.index = s.index → Q a → Safe (f a) s') : Safe (x >>= f) s :=
  (SafeV.bind (R := fun _ => True) hx fun a s' h q => ⟨hf a s' h q, by cases f a s' <;> trivial⟩).1

theorem Safe.newCoin {a : Int} {s : State} (h : 0 ≤ a) : Safe (Dollar.newCoin a) s := by
  unfold Dollar.newCoin
  rw [if_neg (by omega)]
  exact .pure _

theorem claimYield_safe {c : Cfg} {signer : String} {s : State} (hi : s.index ≠ 0) :
    Safe (claimYield c signer) s := by
  unfold claimYield
  refine .get_bind (.ite (fun _ => .fail _) fun _ => ?_)
  refine .bindV (Q := fun r => 0 ≤ r.1) ?_ fun r s1 h1 hr => ?_
  · unfold getYield
    cases c.decode signer with
    | none => exact ⟨.fail _, trivial⟩
    | some a => exact .get_bind (.pure (claimable_nonneg _ _))
  · refine .bind (.newCoin hr) fun _ s2 h2 => ?_
    refine .bind (sendModuleToAccount_safe ?_) fun _ _ _ => .modify rfl
    rw [h2, h1]; exact hi

theorem decQuo_nonneg {a b : Int} (ha : 0 ≤ a) (hb : 0 < b) : 0 ≤ decQuo a b := by
  unfold decQuo
  have h : 0 ≤ (a * (DEC * DEC)).tdiv b :=
    Int.tdiv_nonneg (Int.mul_nonneg ha (by unfold DEC; omega)) hb.le
  unfold chopRound
  rw [if_neg (by omega)]
  unfold chopRoundPos
  have : 0 ≤ (a * (DEC * DEC)).tdiv b / DEC := Int.ediv_nonneg h (by unfold DEC; omega)
  simp only
  split
  · exact this
  · split
    · omega
    · split <;> omega

theorem userReward_nonneg {cur p : Int} {r : Reward} (hp : 0 ≤ p) : 0 ≤ userReward cur p r := by
  unfold userReward
  split
  · next h =>
    split
    · unfold decTrunc decMulInt
      refine Int.tdiv_nonneg (Int.mul_nonneg (decQuo_nonneg ?_ ?_) hp) (by unfold DEC; omega)
      · exact Int.mul_nonneg h.2.le (by unfold DEC; omega)
      · exact Int.mul_pos h.1 (by unfold DEC; omega)
    · exact Int.le_refl 0
  · exact Int.le_refl 0

theorem rewardsOwed_nonneg {rs : KV Int Reward} {st cur p : Int} (hp : 0 ≤ p) :
    0 ≤ rewardsOwed rs st cur p := by
  unfold rewardsOwed KV.sum
  refine List.sum_nonneg ?_
  intro x hx
  rw [List.mem_map] at hx
  obtain ⟨e, _, rfl⟩ := hx
  show 0 ≤ if st < e.1 then userReward cur p e.2 else 0
  split
  · exact userReward_nonneg hp
  · exact Int.le_refl 0

/-- What the positions an unlock works on must satisfy. -/
def PosOk (p : PosEntry) : Prop := 0 < p.index ∧ 0 ≤ p.amount

theorem principalDown_safe {a i : Int} {s : State} (hi : i ≠ 0) :
    SafeV (fun p => p = roundedDown a i) (principalDown a i) s := by
  unfold principalDown
  rw [if_neg hi]
  exact .pure rfl

theorem roundedDown_nonneg' {a i : Int} (ha : 0 ≤ a) (hi : 0 < i) : 0 ≤ roundedDown a i :=
  Int.tdiv_nonneg (Int.mul_nonneg ha (by unfold SCALE; omega)) hi.le

theorem claimRewards_safe {c : Cfg} {pos : PosEntry} {a : Int} {s : State} (hi : s.index ≠ 0) (hp : PosOk pos)
    (ha : 0 ≤ a) : Safe (claimRewards c pos a) s := by
  unfold claimRewards
  refine .get_bind (.ite (fun _ => .pure _) fun _ => ?_)
  refine .bindV (principalDown_safe (by have := hp.1; omega)) fun p s1 h1 hq => ?_
  refine .bind (.modify rfl) fun _ s2 h2 => ?_
  refine .bind (.newCoin (rewardsOwed_nonneg ?_)) fun _ s3 h3 => ?_
  · rw [hq]; exact roundedDown_nonneg' ha hp.1
  · refine .bind (sendCoins_safe ?_) fun _ s4 h4 => .bind (.modify rfl) fun _ _ _ => .pure _
    rw [h3, h2, h1]; exact hi

theorem unlockPayout_safe {c : Cfg} {signer : String} {v : Int} {pos : PosEntry} {a p : Int} {s : State}
    (hi : s.index ≠ 0) (hp : PosOk pos) (ha : 0 ≤ a) :
    SafeV (fun x => 0 ≤ x) (unlockPayout c signer v pos a p) s := by
  unfold unlockPayout
  refine .ite (fun _ => ?_) fun _ => .pure ha
  unfold unlockFlexible
  refine .bind' (.modify rfl) fun _ s1 h1 => ?_
  refine .bind' (claimRewards_safe (by rw [h1]; exact hi) hp ha) fun r s2 h2 => ?_
  refine .bind' (.modify rfl) fun _ s3 h3 => ?_
  refine .bind' (claimModuleYield_safe (by rw [h3, h2, h1]; exact hi)) fun y s4 h4 => ?_
  exact .ite (fun hy => .pure (by omega)) fun _ => .pure ha

theorem amountToRemove_range {pos : PosEntry} {r : Int} (hp : 0 ≤ pos.amount) (hr : 0 ≤ r) :
    0 ≤ amountToRemove pos r ∧ amountToRemove pos r ≤ r := by
  unfold amountToRemove
  split <;> omega

theorem unlockOne_safe {c : Cfg} {signer : String} {addr : Addr} {v : Int} {pos : PosEntry} {r : Int}
    {s : State} (hi : s.index ≠ 0) (hp : PosOk pos) (hr : 0 ≤ r) :
    SafeV (fun x => x.1 ≤ r) (unlockOne c signer addr v pos r) s := by
  have hb := amountToRemove_range hp.2 hr
  unfold unlockOne
  refine .bind (principalDown_safe (by have := hp.1; omega)) fun p s1 h1 _ => ?_
  refine .bind (unlockPayout_safe (by rw [h1]; exact hi) hp hb.1) fun y s2 h2 hy => ?_
  refine .bind' (.newCoin hy) fun _ s3 h3 => ?_
  refine .bind' (sendCoins_safe (by rw [h3, h2, h1]; exact hi)) fun _ s4 h4 => ?_
  refine .bind' (.modify ?_) fun _ s5 h5 => ?_
  · split <;> rfl
  refine .bind' (.modify rfl) fun _ s6 h6 => .pure hb.2

theorem unlockLoop_safe {c : Cfg} {signer : String} {addr : Addr} {v : Int} (l : List PosEntry) {r q : Int}
    {s : State} (hi : s.index ≠ 0) (hl : ∀ p ∈ l, PosOk p) (hr : 0 ≤ r) :
    Safe (unlockLoop c signer addr v l r q) s := by
  induction l generalizing r q s with
  | nil => exact .pure _
  | cons p t ih =>
    unfold unlockLoop
    refine .ite (fun _ => .pure _) fun _ => ?_
    refine .bindV (unlockOne_safe hi (hl p List.mem_cons_self) hr) fun x s1 h1 hx => ?_
    exact ih (by rw [h1]; exact hi) (fun p hp => hl p (List.mem_cons_of_mem _ hp)) (by omega)

theorem unlockInner_safe {c : Cfg} {signer : String} {v : Int} {a : Option Int} {s : State}
    (hi : s.index ≠ 0) (hl : ∀ e ∈ s.positions, 0 < e.2.index ∧ 0 ≤ e.2.amount) :
    Safe (unlockInner c signer v a) s := by
  unfold unlockInner
  split
  · exact .fail _
  split
  · exact .fail _
  refine .ite (fun _ => .fail _) fun h0 => .ite (fun _ => .fail _) fun _ => .get_bind ?_
  refine .ite (fun _ => .fail _) fun _ => .ite (fun _ => .fail _) fun _ => ?_
  refine .bind (unlockLoop_safe _ hi ?_ (by omega)) fun r s1 h1 => .ite (fun _ => .fail _) fun _ => ?_
  · intro p hp
    unfold positionsOf at hp
    rw [List.mem_filterMap] at hp
    obtain ⟨e, he, h⟩ := hp
    split at h
    · cases h
      exact hl e he
    · cases h
  · refine .bind ?_ fun _ _ _ => .modify ?_
    · unfold countGoneUser decrementVaultUsers
      refine .get_bind (.ite (fun _ => .modify ?_) fun _ => .pure _)
      split
      · rfl
      · split <;> rfl
    · split
      · rfl
      · split <;> rfl

theorem unlock_safe {c : Cfg} {signer : String} {v : Int} {a : Option Int} {s : State}
    (hi : s.index ≠ 0) (hl : ∀ e ∈ s.positions, 0 < e.2.index ∧ 0 ≤ e.2.amount) :
    Safe (unlock c signer v a) s := by
  unfold unlock
  exact .get_bind (.ite (fun _ => .fail _) fun _ => .ite (fun _ => .fail _) fun _ => unlockInner_safe hi hl)

theorem lockBook_safe {signer : String} {addr : Addr} {v a t : Int} {s : State} (hi : s.index ≠ 0) :
    Safe (lockBook signer addr v a t) s := by
  unfold lockBook
  refine .get_bind (.bindV (principalDown_safe hi) fun p s1 h1 _ => ?_)
  refine .bind (.modify rfl) fun _ s2 h2 => .bind ?_ fun _ s3 h3 => .bind ?_ fun _ s4 h4 =>
    .bind (.modify ?_) fun _ s5 h5 => .modify rfl
  · unfold lockTotal
    exact .ite (fun _ => .modify rfl) fun _ => .pure _
  · unfold countNewUser incrementVaultUsers
    refine .get_bind (.ite (fun _ => .modify ?_) fun _ => .pure _)
    split
    · rfl
    · split <;> rfl
  · split
    · rfl
    · split <;> rfl

theorem ensureOwner_safe {signer : String} {s : State} : Safe (ensureOwner signer) s := by
  unfold ensureOwner
  exact .get_bind (.ite (fun _ => .fail _) fun _ => .ite (fun _ => .fail _) fun _ => .pure _)

theorem sendRestriction_safe {c : Cfg} {a b : Addr} {amt : Int} {s : State} (hi : s.index ≠ 0) :
    Safe (sendRestriction c a b amt) s := by
  unfold sendRestriction
  refine .ite (fun _ => .pure _) fun _ => .ite (fun _ => .pure _) fun _ =>
    .ite (fun _ => .ite (fun _ => .pure _) fun _ => .fail _) fun _ => .get_bind ?_
  refine .bind ?_ fun p s3 h3 => .bind ?_ fun _ s4 h4 => ?_
  · unfold principalUp
    rw [if_neg hi]; exact .pure _
  · unfold restrictSender
    refine .ite (fun _ => .modify rfl) fun _ => .bind (.modify rfl) fun _ s5 _ => .get_bind ?_
    exact .ite (fun _ => .modify rfl) fun _ => .pure _
  · unfold restrictRecipient
    have hj : ∀ (p : Int) (s : State), Safe (do
        addPrincipal b p
        let s ← MM.get
        if s.balance b = 0 then incrementHolders else pure () : M Unit) s := fun p s =>
      .bind (.modify rfl) fun _ s6 _ => .get_bind (.ite (fun _ => .modify rfl) fun _ => .pure _)
    refine .ite (fun _ => .modify rfl) fun _ => .ite (fun _ => .bind ?_ fun _ _ _ => hj _ _) fun _ =>
      .bind (.pure _) fun _ _ _ => hj _ _
    unfold principalDown
    rw [if_neg hi]; exact .pure _

theorem multiSendOutputs_safe {c : Cfg} {a : Addr} (l : List (Addr × Int)) {s : State} (hi : s.index ≠ 0) :
    Safe (multiSendOutputs c a l) s := by
  induction l generalizing s with
  | nil => exact .pure _
  | cons o t ih =>
    obtain ⟨o, x⟩ := o
    unfold multiSendOutputs
    refine .bind (sendRestriction_safe hi) fun _ s1 h1 => .bind (.modify rfl) fun _ s2 h2 => ih ?_
    rw [h2, h1]; exact hi

theorem bankMultiSend_safe {c : Cfg} {a : Addr} {l : List (Addr × Int)} {s : State} (hi : s.index ≠ 0) :
    Safe (bankMultiSend c a l) s := by
  unfold bankMultiSend
  refine .ite (fun _ => .fail _) fun _ => .ite (fun _ => .fail _) fun _ => .ite (fun _ => .fail _) fun _ => ?_
  unfold multiSend subCoins setBalance
  refine .bind (.get_bind (.ite (fun _ => .fail _) fun _ => .modify rfl)) fun _ s1 h1 => ?_
  exact multiSendOutputs_safe _ (by rw [h1]; exact hi)

theorem refund_safe {c : Cfg} {p : IbcOut} {s : State} (hi : s.index ≠ 0) : Safe (refund c p) s := by
  unfold refund
  exact .bind (sendCoins_safe hi) fun _ _ _ => .modify rfl

theorem addAmountToRetry_safe {c : Cfg} {port ch : String} {d : Option PacketData} {s : State} :
    Safe (addAmountToRetry c port ch d) s := by
  unfold addAmountToRetry
  split
  · exact .pure _
  · refine .ite (fun _ => .ite (fun _ => ?_) fun _ => .pure _) fun _ => .pure _
    split
    · exact .pure _
    · exact .modify rfl

theorem packetFailed_safe {c : Cfg} {p : IbcOut} {b : Bool} {s : State} (hi : s.index ≠ 0) :
    Safe (packetFailed c p b) s := by
  unfold packetFailed onTimeout onAck
  refine .get_bind (.ite (fun _ => .fail _) fun _ => .ite (fun _ => .fail _) fun _ => .ite (fun _ => ?_) fun _ => ?_)
  · exact .bind addAmountToRetry_safe fun _ s1 h1 => refund_safe (by rw [h1]; exact hi)
  · exact .bind addAmountToRetry_safe fun _ s1 h1 => refund_safe (by rw [h1]; exact hi)

end Dollar
