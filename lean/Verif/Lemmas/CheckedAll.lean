import Verif.Model.CheckedAll
import Verif.Lemmas.CheckedVaults2
import Verif.Lemmas.Near

/-
The checked handlers agree with the unchecked ones while the numbers are small (C122).
-/
set_option linter.unusedSimpArgs false
set_option linter.unusedVariables false

namespace Dollar
open MM Spec

namespace Checked

/-- In the state `s` both calls do the same, and what they do satisfies `J` or, when they fail, `E`. -/
structure At {α : Type} (s : State) (x' x : M α) (J : α → State → Prop) (E : State → Prop) : Prop where
  eq : x' s = x s
  post : wp x s J (fun _ => E)

namespace At
variable {α β : Type} {s : State} {E : State → Prop}

theorem bind {x' x : M α} {f' f : α → M β} {J : α → State → Prop} {K : β → State → Prop} (h1 : At s x' x J E)
    (h2 : ∀ a s', J a s' → At s' (f' a) (f a) K E) : At s (x' >>= f') (x >>= f) K E := by
  refine ⟨?_, h1.post.seq (fun a s' h => (h2 a s' h).post) fun _ _ h => h⟩
  rw [bind_apply, bind_apply, h1.eq]
  have hp := h1.post
  unfold wp at hp
  cases hx : x s with
  | ok a s' => rw [hx] at hp; exact (h2 a s' hp).eq
  | err e s' => rfl
  | panic => rfl

theorem mono {x' x : M α} {J K : α → State → Prop} {F : State → Prop} (h : At s x' x J E) (hj : ∀ a s', J a s' → K a s')
    (hf : ∀ s', E s' → F s') : At s x' x K F :=
  ⟨h.eq, h.post.mono hj fun _ s' => hf s'⟩

theorem refl {x : M α} {J : α → State → Prop} (h : wp x s J (fun _ => E)) : At s x x J E := ⟨rfl, h⟩

theorem get {f' f : State → M β} {K : β → State → Prop} (h : At s (f' s) (f s) K E) :
    At s (MM.get >>= f') (MM.get >>= f) K E := ⟨h.eq, h.post⟩

theorem lift {o : Option α} {a : α} {f' : α → M β} {g : M β} {K : β → State → Prop} (ho : o = some a)
    (h : At s (f' a) g K E) : At s (Checked.lift o >>= f') g K E := by
  subst ho; exact ⟨h.eq, h.post⟩

theorem get_left {f' : State → M β} {g : M β} {K : β → State → Prop} (h : At s (f' s) g K E) :
    At s (MM.get >>= f') g K E := ⟨h.eq, h.post⟩

theorem pure {a : α} {J : α → State → Prop} (h : J a s) : At s (Pure.pure a) (Pure.pure a) J E := ⟨rfl, h⟩
theorem fail {e : Err} {J : α → State → Prop} (h : E s) : At s (MM.fail e) (MM.fail e) J E := ⟨rfl, h⟩
theorem crash {J : α → State → Prop} : At s MM.crash MM.crash J E := ⟨rfl, trivial⟩
theorem modify {f : State → State} {J : Unit → State → Prop} (h : J () (f s)) :
    At s (MM.modify f) (MM.modify f) J E := ⟨rfl, h⟩
theorem modify' {f g : State → State} {J : Unit → State → Prop} (e : f s = g s) (h : J () (g s)) :
    At s (MM.modify f) (MM.modify g) J E := ⟨by rw [modify_apply, modify_apply, e], h⟩
theorem modify_bind' {f g : State → State} {h' h : Unit → M β} {J : β → State → Prop} (e : f s = g s)
    (k : At (g s) (h' ()) (h ()) J E) : At s (MM.modify f >>= h') (MM.modify g >>= h) J E :=
  ⟨by rw [bind_apply, bind_apply, modify_apply, modify_apply, e]; exact k.eq, k.post⟩
theorem modify_bind {f : State → State} {g' g : Unit → M β} {J : β → State → Prop} (h : At (f s) (g' ()) (g ()) J E) :
    At s (MM.modify f >>= g') (MM.modify f >>= g) J E := ⟨h.eq, h.post⟩

theorem newCoin {v : Int} {f' f : Unit → M β} {J : β → State → Prop} (h : 0 ≤ v → At s (f' ()) (f ()) J E) :
    At s (Dollar.newCoin v >>= f') (Dollar.newCoin v >>= f) J E := by
  unfold Dollar.newCoin
  by_cases hv : v < 0
  · rw [if_pos hv]; exact ⟨rfl, trivial⟩
  · rw [if_neg hv]; exact ⟨(h (by omega)).eq, (h (by omega)).post⟩

theorem ite {p : Prop} [Decidable p] {x' x y' y : M α} {J : α → State → Prop} (h1 : p → At s x' x J E)
    (h2 : ¬ p → At s y' y J E) : At s (if p then x' else y') (if p then x else y) J E := by
  by_cases h : p
  · rw [if_pos h, if_pos h]; exact h1 h
  · rw [if_neg h, if_neg h]; exact h2 h

theorem attempt {x' x : M Unit} {J : Option Err → State → Prop}
    (h : At s x' x (fun _ => J none) (fun s' => ∀ e, J (some e) s')) :
    At s (MM.attempt x') (MM.attempt x) J E := by
  refine ⟨by rw [MM.attempt_apply, MM.attempt_apply, h.eq], ?_⟩
  rw [wp.attempt_iff]
  exact h.post.mono (fun _ _ h => h) fun e _ h => h e

theorem ignore {x' x : M Unit} {J : Unit → State → Prop} (h : At s x' x J (J ())) :
    At s (MM.ignore x') (MM.ignore x) J E := by
  refine ⟨by rw [MM.ignore_apply, MM.ignore_apply, h.eq], ?_⟩
  rw [wp.ignore_iff]
  exact h.post

theorem of {x' x : M α} {J : α → State → Prop} {Q : α → State → Prop} {F : Err → State → Prop} (e : x' s = x s)
    (h : wp x s Q F) (hj : ∀ a s', Q a s' → J a s') (he : ∀ e s', F e s' → E s') : At s x' x J E :=
  ⟨e, h.mono hj he⟩

end At

/-- Everything the handlers compute with is far below the bound: balances together at most `B`, and every other number
within a bound that each step widens a little. -/
structure Tame (Q B n : Int) (s : State) : Prop where
  srt : s.bal.Sorted
  bal : ∀ x, 0 ≤ s.balance x
  sum : sumBal s ≤ B
  sup : 0 ≤ s.supply ∧ s.supply ≤ B
  prin : ∀ x, -(2 ^ 168 + 2 ^ 132 * n) ≤ s.principalOf x ∧ s.principalOf x ≤ 2 ^ 168 + 2 ^ 132 * n
  tot : -(2 ^ 168 + 2 ^ 132 * n) ≤ s.totalPrincipal ∧ s.totalPrincipal ≤ 2 ^ 168 + 2 ^ 132 * n
  idx : SCALE ≤ s.index ∧ s.index < 2 ^ 63
  retry : ∀ p i, 0 ≤ s.retryOf p i ∧ s.retryOf p i ≤ 2 ^ 168 + 2 ^ 132 * n
  ext : ∀ p i, 0 ≤ s.extYieldOf p i ∧ s.extYieldOf p i ≤ 2 ^ 168 + 2 ^ 132 * n
  col : ∀ k v, s.collateral.get? k = some v → 0 ≤ v ∧ v ≤ Q
  yield : 0 ≤ s.totalYield ∧ s.totalYield ≤ 2 ^ 168 + 2 ^ 132 * n
  recs : s.recipients.length ≤ 2 ^ 40

namespace Tame
variable {Q B n m : Int} {s s' : State} {c : Cfg}

theorem mono (h : Tame Q B n s) (hm : n ≤ m) : Tame Q B m s := by
  have e : 2 ^ 168 + 2 ^ 132 * n ≤ 2 ^ 168 + 2 ^ 132 * m := by omega
  exact ⟨h.srt, h.bal, h.sum, h.sup, fun x => by have := h.prin x; omega, by have := h.tot; omega, h.idx,
    fun p i => ⟨(h.retry p i).1, (h.retry p i).2.trans e⟩, fun p i => ⟨(h.ext p i).1, (h.ext p i).2.trans e⟩,
    h.col, ⟨h.yield.1, h.yield.2.trans e⟩, h.recs⟩

theorem widen {C : Int} (h : Tame Q B n s) (hm : B ≤ C) : Tame Q C n s :=
  ⟨h.srt, h.bal, h.sum.trans hm, ⟨h.sup.1, h.sup.2.trans hm⟩, h.prin, h.tot, h.idx, h.retry, h.ext, h.col, h.yield, h.recs⟩

theorem raise {R : Int} (h : Tame Q B n s) (hm : Q ≤ R) : Tame R B n s :=
  ⟨h.srt, h.bal, h.sum, h.sup, h.prin, h.tot, h.idx, h.retry, h.ext, fun k v hk => ⟨(h.col k v hk).1, (h.col k v hk).2.trans hm⟩,
    h.yield, h.recs⟩

theorem bal_le (h : Tame Q B n s) (x : Addr) : s.balance x ≤ B := (balance_le_sum h.srt h.bal x).trans h.sum

theorem debit (h : Tame Q B n s) {a : Addr} {v : Int} (h0 : 0 ≤ v) (hv : v ≤ s.balance a) : Tame Q B n (debit s a v) := by
  refine ⟨KV.sorted_set _ _ h.srt, fun x => ?_, ?_, h.sup, h.prin, h.tot, h.idx, h.retry, h.ext, h.col, h.yield, h.recs⟩
  · rw [balance_debit]; have := h.bal x
    split
    · next e => subst e; omega
    · omega
  · rw [sumBal_debit]; have := h.sum; omega

/-- What a transfer leaves behind. -/
theorem moved (hB : B ≤ 2 ^ 130) (h : Tame Q B n s) {a b : Addr} {v : Int} (h0 : 0 ≤ v) (hm : Moved c s a b v s') :
    Tame Q B (n + 1) s' := by
  by_cases hz : v = 0
  · rw [hm.zero hz]; exact h.mono (by omega)
  have hv : v ≤ B := by
    rcases hm.enough with e | e
    · exact absurd e hz
    · exact e.trans (h.bal_le a)
  have e : (2 : Int) ^ 168 + 2 ^ 132 * (n + 1) = 2 ^ 168 + 2 ^ 132 * n + 2 ^ 132 := by ring
  refine ⟨?_, hm.nonneg h0 h.bal, hm.sum ▸ h.sum, hm.supply ▸ h.sup, fun x => ?_, ?_, hm.index ▸ h.idx, ?_, ?_, ?_, ?_,
    hm.recipients ▸ h.recs⟩
  · rw [hm.store hz]; exact KV.sorted_set _ _ (KV.sorted_set _ _ h.srt)
  · have h1 := hm.near h0 h.idx.1 x
    have h2 := h.prin x
    rw [e]; omega
  · have h1 := h.tot
    rw [e]
    by_cases hy : a = c.yieldAddr ∨ b = c.yieldAddr
    · rw [(hm.skip hy).2.1]; omega
    · push Not at hy
      rw [hm.total hz hy.1 hy.2]
      have hi0 : 0 < s.index := lt_of_lt_of_le (by decide) h.idx.1
      have h2 := roundedUp_nonneg h0 hi0
      have h3 := up_le_self h0 h.idx.1
      split <;> split <;> omega
  · intro p i; rw [hm.retryOf, e]; have := h.retry p i; omega
  · intro p i
    have : s'.extYieldOf p i = s.extYieldOf p i := by unfold State.extYieldOf; rw [hm.extYield]
    rw [this, e]; have := h.ext p i; omega
  · intro k w hk; rw [hm.collateral] at hk; exact h.col k w hk
  · rw [hm.totalYield, e]; have := h.yield; omega

/-- Fields that no number is read from. -/
theorem congr (h : Tame Q B n s) (e1 : s'.bal = s.bal := by rfl) (e2 : s'.supply = s.supply := by rfl)
    (e3 : s'.principal = s.principal := by rfl) (e4 : s'.totalPrincipal = s.totalPrincipal := by rfl)
    (e5 : s'.index = s.index := by rfl) (e6 : s'.retry = s.retry := by rfl) (e7 : s'.extYield = s.extYield := by rfl)
    (e8 : s'.collateral = s.collateral := by rfl) (e9 : s'.totalYield = s.totalYield := by rfl)
    (e10 : s'.recipients = s.recipients := by rfl) : Tame Q B n s' := by
  have hs : sumBal s' = sumBal s := by unfold sumBal; rw [e1]
  refine ⟨e1 ▸ h.srt, fun x => ?_, hs ▸ h.sum, e2 ▸ h.sup, fun x => ?_, e4 ▸ h.tot, e5 ▸ h.idx, fun p i => ?_, fun p i => ?_,
    e8 ▸ h.col, e9 ▸ h.yield, e10 ▸ h.recs⟩
  · have := h.bal x; unfold State.balance at *; rw [e1]; exact this
  · have := h.prin x; unfold State.principalOf at *; rw [e3]; exact this
  · have := h.retry p i; unfold State.retryOf at *; rw [e6]; exact this
  · have := h.ext p i; unfold State.extYieldOf at *; rw [e7]; exact this

end Tame

namespace Full

theorem restrictSender_eq {c : Cfg} {a : Addr} {p : Int} {s : State} (h1 : -2 ^ 255 ≤ s.totalPrincipal + p)
    (h2 : s.totalPrincipal + p ≤ 2 ^ 255) (h3 : -2 ^ 255 ≤ s.principalOf a + -p) (h4 : s.principalOf a + -p ≤ 2 ^ 255) :
    restrictSender c a p s = Dollar.restrictSender c a p s := by
  unfold restrictSender Dollar.restrictSender
  split
  · unfold incrementTotalPrincipal Dollar.incrementTotalPrincipal
    rw [bind_apply, get_apply]
    simp only
    rw [lift_bind (add_small h1 h2)]
    rfl
  · refine bind_at ?_ fun _ _ _ => rfl
    unfold addPrincipal Dollar.addPrincipal
    rw [bind_apply, get_apply]
    simp only
    rw [lift_bind (add_small h3 h4)]
    rfl

theorem restrictRecipient_eq {c : Cfg} {a b : Addr} {amt i p : Int} {s : State} (h0 : 0 ≤ amt) (ha : amt < 2 ^ 192)
    (hi : 0 < i) (h1 : -2 ^ 255 ≤ s.totalPrincipal - p)
    (h2 : s.totalPrincipal - p ≤ 2 ^ 255) (h3 : -2 ^ 250 ≤ s.principalOf b) (h4 : s.principalOf b ≤ 2 ^ 250)
    (h5 : 0 ≤ p) (h6 : p ≤ 2 ^ 192) (h7 : roundedDown amt i ≤ 2 ^ 192) :
    restrictRecipient c a b amt i p s = Dollar.restrictRecipient c a b amt i p s := by
  have h8 := roundedDown_nonneg h0 hi
  unfold restrictRecipient Dollar.restrictRecipient
  split
  · unfold decrementTotalPrincipal Dollar.decrementTotalPrincipal
    rw [bind_apply, get_apply]
    simp only
    rw [lift_bind (sub_small h1 h2)]
    rfl
  · have key : ∀ q, 0 ≤ q → q ≤ 2 ^ 192 → ∀ f : Unit → M Unit,
        (addPrincipal b q >>= f) s = (Dollar.addPrincipal b q >>= f) s := by
      intro q q1 q2 f
      refine bind_at ?_ fun _ _ _ => rfl
      unfold addPrincipal Dollar.addPrincipal
      rw [bind_apply, get_apply]
      simp only
      rw [lift_bind (add_small (by omega) (by omega))]
      rfl
    split
    · rw [principalDown_some h0 ha hi]
      rw [principalDown_eq (by omega)]
      exact key _ h8 h7 _
    · exact key _ h5 h6 _

theorem sendRestriction_eq {c : Cfg} {a b : Addr} {amt : Int} {s : State} (h0 : 0 ≤ amt) (ha : amt ≤ 2 ^ 130)
    (hi : SCALE ≤ s.index) (hi' : s.index < 2 ^ 63) (hp : ∀ x, -2 ^ 200 ≤ s.principalOf x ∧ s.principalOf x ≤ 2 ^ 200)
    (ht : -2 ^ 200 ≤ s.totalPrincipal ∧ s.totalPrincipal ≤ 2 ^ 200) :
    sendRestriction c a b amt s = Dollar.sendRestriction c a b amt s := by
  have hi0 : 0 < s.index := lt_of_lt_of_le (by decide) hi
  have u0 := roundedUp_nonneg h0 hi0
  have u1 := up_le_self h0 hi
  have d1 := down_le_self h0 hi
  unfold sendRestriction Dollar.sendRestriction
  split
  · rfl
  split
  · rfl
  split
  · rfl
  rw [bind_apply, get_apply, bind_apply, get_apply]
  simp only
  rw [lift_bind (principalUp_some h0 (by omega) hi0 hi'), principalUp_eq (by omega)]
  show _ = ((do Dollar.restrictSender c a (roundedUp amt s.index)
                Dollar.restrictRecipient c a b amt s.index (roundedUp amt s.index)) : M Unit) s
  have := hp a
  refine bind_at (restrictSender_eq (by omega) (by omega) (by omega) (by omega)) fun _ s1 hs1 => ?_
  obtain ⟨s1', e1, f1, t1, p1, _, _⟩ := restrictSender_spec c a (roundedUp amt s.index) s
  rw [e1] at hs1
  cases hs1
  have hb := p1 b
  have hpb := hp b
  refine restrictRecipient_eq h0 (by omega) hi0 ?_ ?_ ?_ ?_ u0 (by omega) (by omega)
  · rw [t1]; split <;> omega
  · rw [t1]; split <;> omega
  · rw [hb]; split <;> omega
  · rw [hb]; split <;> omega

theorem sendCoins_eq {c : Cfg} {a b : Addr} {v Q B n : Int} {s : State} (hB : B ≤ 2 ^ 130) (hn : n ≤ 2 ^ 45)
    (h : Tame Q B n s) (h0 : 0 ≤ v) : sendCoins c a b v s = Dollar.sendCoins c a b v s := by
  unfold sendCoins Dollar.sendCoins
  split
  · rfl
  next hz =>
  refine bind_at rfl fun _ s1 h1 => ?_
  rw [subCoins_eq] at h1
  split at h1
  · cases h1
  next hlt =>
  cases h1
  push Not at hlt
  have hv := hlt.trans (h.bal_le a)
  have hd := h.debit h0 hlt
  have hpr := hd.prin
  have htt := hd.tot
  have hr : sendRestriction c a b v (debit s a v) = Dollar.sendRestriction c a b v (debit s a v) :=
    sendRestriction_eq h0 (hv.trans hB) hd.idx.1 hd.idx.2 (fun x => by have := hpr x; omega) (by omega)
  refine bind_at hr fun _ s2 h2 => ?_
  have hb2 : s2.balance b = (debit s a v).balance b := by
    by_cases hy : a = c.yieldAddr ∨ b = c.yieldAddr
    · unfold Dollar.sendRestriction at h2
      rw [if_neg hz] at h2
      split at h2
      · cases h2; rfl
      · split at h2
        · split at h2 <;> cases h2; rfl
        · tauto
    · push Not at hy
      obtain ⟨s3, e3, r3⟩ := restrict_spec c a b v (debit s a v) hz hy.1 hy.2
        (by have := hd.idx.1; have : SCALE = 1000000000000 := rfl; omega)
      rw [e3] at h2
      cases h2
      have := r3.frame
      show (s2.bal.get? b).getD 0 = _
      rw [this]; rfl
  have hb3 : 0 ≤ s2.balance b ∧ s2.balance b ≤ B := by rw [hb2]; exact ⟨hd.bal b, hd.bal_le b⟩
  unfold addCoins Dollar.addCoins
  rw [bind_apply, get_apply]
  simp only
  rw [lift_bind (add_small (by omega) (by omega))]
  rfl

theorem sendCoins_at2 {c : Cfg} {a b : Addr} {v Q B n N : Int} {s : State} (hB : B ≤ 2 ^ 130) (hn : n ≤ 2 ^ 45)
    (h : Tame Q B n s) (h0 : 0 ≤ v) (hN : n ≤ N) :
    At s (sendCoins c a b v) (Dollar.sendCoins c a b v) (fun _ s' => Tame Q B (n + 1) s' ∧ Moved c s a b v s')
      (fun s' => Tame Q B N s' ∧ s'.retry = s.retry ∧ s'.extYield = s.extYield) := by
  refine ⟨sendCoins_eq hB hn h h0, .intro (fun _ s' hx => ?_) fun e s' hx => ?_⟩
  · have hm := sendCoins_ok hx
    exact ⟨h.moved hB h0 hm, hm⟩
  · by_cases hv : s.balance a < v
    · unfold Dollar.sendCoins at hx
      split at hx
      · cases hx
      · rw [bind_apply, subCoins_eq, if_pos hv] at hx
        cases hx
        exact ⟨h.mono hN, rfl, rfl⟩
    · rcases (sendCoins_wp c a b v s).of_err hx with ⟨rfl, _⟩ | ⟨_, h1, h2, h3, rfl⟩
      · exact ⟨h.mono hN, rfl, rfl⟩
      · exact ⟨(h.debit h0 (by omega)).mono hN, rfl, rfl⟩

theorem sendCoins_at {c : Cfg} {a b : Addr} {v Q B n N : Int} {s : State} (hB : B ≤ 2 ^ 130) (hn : n ≤ 2 ^ 45)
    (h : Tame Q B n s) (h0 : 0 ≤ v) (hN : n ≤ N) :
    At s (sendCoins c a b v) (Dollar.sendCoins c a b v) (fun _ s' => Tame Q B (n + 1) s' ∧ Moved c s a b v s') (Tame Q B N) :=
  (sendCoins_at2 hB hn h h0 hN).mono (fun _ _ h => h) fun _ h => h.1

theorem sendModule_at {c : Cfg} {a b : Addr} {v Q B n N : Int} {s : State} (hB : B ≤ 2 ^ 130) (hn : n ≤ 2 ^ 45)
    (h : Tame Q B n s) (h0 : 0 ≤ v) (hN : n ≤ N) :
    At s (sendModuleToAccount c a b v) (Dollar.sendModuleToAccount c a b v)
      (fun _ s' => Tame Q B (n + 1) s' ∧ Moved c s a b v s') (Tame Q B N) := by
  unfold sendModuleToAccount Dollar.sendModuleToAccount
  exact .ite (fun _ => .fail (h.mono hN)) fun _ => sendCoins_at hB hn h h0 hN

theorem claimable_eq {a : Addr} {Q B n : Int} {s : State} (hB : B ≤ 2 ^ 130) (hn : n ≤ 2 ^ 45) (h : Tame Q B n s) :
    claimable s a = some (Dollar.claimable s a) := by
  have h1 := h.prin a
  have h2 := h.idx
  have hp : |s.principalOf a| ≤ 2 ^ 180 := by rw [abs_le]; omega
  have hS : SCALE = 1000000000000 := rfl
  unfold claimable
  rw [present_some (by omega) (by omega) h2.2, Option.bind_eq_bind, Option.bind_some]
  have h3 : |Dollar.present (s.principalOf a) s.index| ≤ 2 ^ 250 := by
    unfold Dollar.present
    have h4 : |s.principalOf a * s.index| ≤ 2 ^ 243 := by
      rw [abs_mul, abs_of_nonneg (show (0 : Int) ≤ s.index by omega)]
      have h5 : |s.principalOf a| * s.index ≤ 2 ^ 180 * s.index := mul_le_mul_of_nonneg_right hp (by omega)
      omega
    generalize s.principalOf a * s.index = w at h4
    rw [Int.abs_eq_natAbs] at h4 ⊢
    have h6 : (w.tdiv SCALE).natAbs ≤ w.natAbs := by rw [Int.natAbs_tdiv]; exact Nat.div_le_self _ _
    omega
  rw [abs_le] at h3
  have h4 := h.bal a
  have h5 := h.bal_le a
  rw [sub_small (by omega) (by omega)]
  rfl

theorem claimModuleYield_at {c : Cfg} {a : Addr} {Q B n N : Int} {s : State} (hB : B ≤ 2 ^ 130) (hn : n ≤ 2 ^ 45)
    (h : Tame Q B n s) (hN : n ≤ N) :
    At s (claimModuleYield c a) (Dollar.claimModuleYield c a)
      (fun y s' => Tame Q B (n + 1) s' ∧ 0 ≤ y ∧ y ≤ B ∧ Moved c s c.yieldAddr a y s') (Tame Q B N) := by
  unfold claimModuleYield Dollar.claimModuleYield
  have h0 := claimable_nonneg s a
  refine .get (.lift (claimable_eq hB hn h) (.ite (fun hy => ?_) fun hy => ?_))
  · refine .bind (sendModule_at hB hn h h0 hN) fun _ s1 h1 => .pure ⟨h1.1, h0, ?_, h1.2⟩
    rcases h1.2.enough with e | e
    · omega
    · exact e.trans (h.bal_le _)
  · have e : Dollar.claimable s a = 0 := by omega
    refine .pure ⟨h.mono (by omega), h0, ?_, ?_⟩
    · rw [e]; have := h.sup; omega
    · rw [e]; exact Moved.refl _ _ _ _

theorem addPrincipal_at {a : Addr} {d Q B n N : Int} {s : State} (hB : B ≤ 2 ^ 130) (hn : n ≤ 2 ^ 45)
    (h : Tame Q B n s) (h1 : -B ≤ d) (h2 : d ≤ B) :
    At s (addPrincipal a d) (Dollar.addPrincipal a d)
      (fun _ s' => Tame Q B (n + 1) s' ∧ s'.index = s.index ∧ s'.rewards = s.rewards) (Tame Q B N) := by
  have e : (2 : Int) ^ 168 + 2 ^ 132 * (n + 1) = 2 ^ 168 + 2 ^ 132 * n + 2 ^ 132 := by ring
  have hp := h.prin a
  unfold addPrincipal Dollar.addPrincipal
  refine .get_left (.lift (add_small (by omega) (by omega)) (.modify' rfl ⟨?_, rfl, rfl⟩))
  have h' := h.mono (m := n + 1) (by omega)
  refine ⟨h'.srt, h'.bal, h'.sum, h'.sup, fun x => ?_, h'.tot, h'.idx, h'.retry, h'.ext, h'.col, h'.yield, h'.recs⟩
  have hx := h.prin x
  rw [principalOf_addPrincipal, e]
  split <;> omega

theorem claimStaked_at {c : Cfg} {Q B n N : Int} {s : State} (hB : B ≤ 2 ^ 130) (hn : n + 3 ≤ 2 ^ 45)
    (h : Tame Q B n s) (hN : n + 3 ≤ N) :
    At s (claimStakedVaultYield c) (Dollar.claimStakedVaultYield c)
      (fun y s' => Tame Q B (n + 3) s' ∧ 0 ≤ y ∧ y ≤ B) (Tame Q B N) := by
  unfold claimStakedVaultYield Dollar.claimStakedVaultYield
  have h0 := claimable_nonneg s c.stakedAddr
  refine .get (.lift (claimable_eq hB (by omega) h) (.ite (fun hy => ?_) fun hy => ?_))
  · refine .bind (sendModule_at hB (by omega) h h0 (by omega)) fun _ s1 h1 => .get ?_
    have hy : Dollar.claimable s c.stakedAddr ≤ B := by
      rcases h1.2.enough with e | e
      · omega
      · exact e.trans (h.bal_le _)
    have hi := h1.1.idx
    have hS : SCALE = 1000000000000 := rfl
    obtain ⟨y0, y1⟩ := yieldPrincipal_le h0 hi.1
    refine .lift (yieldPrincipal_some h0 (by omega) (by omega)) ?_
    rw [if_neg]
    · refine .bind (addPrincipal_at hB (by omega) h1.1 (by omega) (by omega)) fun _ s2 h2 => ?_
      refine .bind (addPrincipal_at hB (by omega) h2.1 (by omega) (by omega)) fun _ s3 h3 => ?_
      exact .pure ⟨h3.1.mono (by omega), h0, hy⟩
    · unfold Dollar.decQuoInt decOfInt
      intro hz
      have hD : DEC = 1000000000000000000 := rfl
      have : s1.index * DEC = s1.index * 1000000 * SCALE := by rw [hD, hS]; ring
      rw [this, Int.mul_tdiv_cancel _ (by decide)] at hz
      omega
  · exact .pure ⟨h.mono (by omega), le_refl _, by have := h.sup; omega⟩

theorem emit_at {e : Event} {Q B n N : Int} {s : State} (h : Tame Q B n s) (hN : n ≤ N) :
    At s (emit e) (emit e) (fun _ s' => Tame Q B N s') (Tame Q B N) := .modify (h.mono hN).congr

theorem claimYield_at {c : Cfg} {signer : String} {Q B n N : Int} {s : State} (hB : B ≤ 2 ^ 130) (hn : n ≤ 2 ^ 45)
    (h : Tame Q B n s) (hN : n + 1 ≤ N) :
    At s (claimYield c signer) (Dollar.claimYield c signer) (fun _ s' => Tame Q B N s') (Tame Q B N) := by
  unfold claimYield Dollar.claimYield getYield Dollar.getYield
  refine .get (.ite (fun _ => .fail (h.mono (by omega))) fun _ => ?_)
  cases c.decode signer with
  | none => exact .bind (J := fun _ _ => False) (.fail (h.mono (by omega))) fun _ _ f => f.elim
  | some a =>
    refine .bind (J := fun r s' => r = (Dollar.claimable s a, a) ∧ s' = s)
      (.get (.lift (claimable_eq hB hn h) (.pure ⟨rfl, rfl⟩))) ?_
    rintro _ _ ⟨rfl, rfl⟩
    refine .newCoin fun _ => ?_
    exact .bind (sendModule_at hB hn h (claimable_nonneg _ _) (by omega)) fun _ s1 h1 => emit_at h1.1 (by omega)

end Full
end Checked
end Dollar
