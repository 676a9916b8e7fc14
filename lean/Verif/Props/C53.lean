import Verif.Props.C44
import Verif.Props.C33
import Verif.Spec.Views

/-
C53: USDN is freely transferable: a bank send, and a multi-send, by a user succeeds exactly when the
amounts are positive and covered, and no recipient is blocked or the yield account. Pauses, peers,
vault positions and principal never stop it. Also the exact effect of a multi-send (C44).
-/
set_option maxRecDepth 100000
namespace Dollar
open MM Spec

/-- Principal of an amount at an index: the least integer `p` with `p * index ≥ amount * 10^12`. -/
def Spec.principalFor (index amount : Int) : Int := (amount * 10 ^ 12 + index - 1) / index

theorem Spec.principalFor_isCeil {index amount : Int} (hi : 0 < index) :
    IsCeil (amount * 10 ^ 12) index (principalFor index amount) := by
  unfold principalFor
  have h1 := Int.mul_ediv_add_emod (amount * 10 ^ 12 + index - 1) index
  have h2 := Int.emod_nonneg (amount * 10 ^ 12 + index - 1) (show index ≠ 0 by omega)
  have h3 := Int.emod_lt_of_pos (amount * 10 ^ 12 + index - 1) hi
  generalize (amount * 10 ^ 12 + index - 1) / index = q at *
  generalize (amount * 10 ^ 12 + index - 1) % index = r at *
  rw [mul_comm] at h1
  refine ⟨by omega, fun x hx => ?_⟩
  by_contra hq
  have : (x + 1) * index ≤ q * index := mul_le_mul_of_nonneg_right (by omega) (by omega)
  rw [add_mul] at this
  omega

theorem roundedUp_eq_principalFor {index amount : Int} (hi : 0 < index) (ha : 0 ≤ amount) :
    roundedUp amount index = principalFor index amount := by
  have h1 := up_bounds ha hi
  have h2 := Spec.principalFor_isCeil (amount := amount) hi
  have h3 := h2.2 _ h1.2
  have h4 : (roundedUp amount index - 1) * index < principalFor index amount * index :=
    lt_of_lt_of_le h1.1 h2.1
  have := lt_of_mul_lt_mul_right h4 (by omega : 0 ≤ index)
  omega

/-- Effect of a multi-send from a user, whatever the outputs (repetitions and the sender included):
the sender pays the sum of the amounts and of their principals, every account receives the sum of
the amounts addressed to it and of their principals; nothing else changes except the holder count. -/
theorem C44_multi_send {c : Cfg} (hc : c.WF) (env : Env) (s s' : State) (u : Addr)
    (outs : List (Addr × Int)) (hi : 0 < s.index) (hu : c.IsUser u)
    (h : exec c env (.bankMultiSend u outs) s = .ok () s') :
    (∀ x, s'.balance x = s.balance x
        - (if x = u then (outs.map Prod.snd).sum else 0)
        + ((outs.filter fun o => o.1 = x).map Prod.snd).sum) ∧
    (∀ x, s'.principalOf x = s.principalOf x
        - (if x = u then (outs.map fun o => principalFor s.index o.2).sum else 0)
        + ((outs.filter fun o => o.1 = x).map fun o => principalFor s.index o.2).sum) ∧
    s' = { s with bal := s'.bal, principal := s'.principal, holders := s'.holders } := by
  have m := bankMultiSend_ok hc hu.ne_yield hu.ne_module (by omega)
    (show bankMultiSend c u outs s = .ok () s' from h)
  have hsum : ∀ (f : Addr × Int → Int) (x : Addr),
      (outs.map fun o => if o.1 = x then f o else 0).sum = ((outs.filter fun o => o.1 = x).map f).sum := by
    intro f x
    generalize outs = l
    induction l with
    | nil => rfl
    | cons o t ih =>
      rw [List.map_cons, List.sum_cons, ih, List.filter_cons]
      by_cases ho : o.1 = x <;> simp [ho]
  have hmap : outs.map (fun o => roundedUp o.2 s.index) = outs.map (fun o => principalFor s.index o.2) :=
    List.map_congr_left fun o ho => roundedUp_eq_principalFor hi (by have := m.pos o ho; omega)
  have hmap2 : ∀ x : Addr, outs.map (fun o => if o.1 = x then roundedUp o.2 s.index else 0) =
      outs.map (fun o => if o.1 = x then principalFor s.index o.2 else 0) := fun x =>
    List.map_congr_left fun o ho => by
      rw [roundedUp_eq_principalFor hi (by have := m.pos o ho; omega)]
  refine ⟨fun x => ?_, fun x => ?_, ?_⟩
  · rw [m.bal x]; unfold outTo; rw [hsum (fun o => o.2)]
  · rw [m.prinEq x, hmap, hmap2, hsum (fun o => principalFor s.index o.2)]
  · have ht := m.total
    have hf := m.frame
    cases s
    cases s'
    simp only [bankCore, State.mk.injEq] at hf ht ⊢
    simp_all

/-! ### Transferability -/

theorem multiSendOutputs_progress {c : Cfg} {a : Addr} (ha : a ≠ c.yieldAddr)
    {outs : List (Addr × Int)} (hp : ∀ o ∈ outs, o.2 ≠ 0) (hy : ∀ o ∈ outs, o.1 ≠ c.yieldAddr)
    {s : State} (hi : s.index ≠ 0) : ∃ s', multiSendOutputs c a outs s = .ok () s' := by
  induction outs generalizing s with
  | nil => exact ⟨s, rfl⟩
  | cons o t ih =>
    obtain ⟨b, amt⟩ := o
    obtain ⟨s1, h1, r⟩ := restrict_spec c a b amt s (hp _ List.mem_cons_self) ha
      (hy _ List.mem_cons_self) hi
    have hi2 : (credit s1 b amt).index ≠ 0 := by
      show s1.index ≠ 0
      rw [r.frame]; exact hi
    obtain ⟨s2, h2⟩ := ih (fun o ho => hp o (List.mem_cons_of_mem _ ho))
      (fun o ho => hy o (List.mem_cons_of_mem _ ho)) hi2
    refine ⟨s2, ?_⟩
    unfold multiSendOutputs
    exact bind_ok.2 ⟨_, _, h1, bind_ok.2 ⟨_, _, addCoins_eq b amt s1, h2⟩⟩

/-- In every reachable state a user's bank send succeeds exactly when the amount is positive and
covered by the balance and the recipient is neither blocked nor the yield account. -/
theorem C53_send_iff {c : Cfg} (hc : c.WF) (env : Env) (s : State) (hr : Reachable c s)
    (u v : Addr) (amount : Int) (hu : c.IsUser u) :
    (∃ s', exec c env (.bankSend u v amount) s = .ok () s') ↔
      0 < amount ∧ amount ≤ s.balance u ∧ c.blocked v = false ∧ v ≠ c.yieldAddr := by
  have hi := Reachable.index_pos hc hr
  constructor
  · rintro ⟨s', h⟩
    have h : bankSend c u v amount s = .ok () s' := h
    obtain ⟨h0, hb, m⟩ := bankSend_ok h
    refine ⟨h0, m.enough.resolve_left (by omega), by simpa using hb, ?_⟩
    rintro rfl
    unfold bankSend at h
    rw [if_neg (by omega), if_neg (by simpa using hb)] at h
    unfold sendCoins at h
    rw [if_neg (by omega)] at h
    simp only [bind_ok] at h
    obtain ⟨_, s1, h1, _, s2, h2, _⟩ := h
    unfold sendRestriction at h2
    rw [if_neg (by omega), if_neg hu.ne_yield, if_pos rfl, if_neg hu.ne_module] at h2
    cases h2
  · rintro ⟨h0, h1, h2, h3⟩
    obtain ⟨s', h, _⟩ := sendCoins_progress (c := c) (b := v) h1 (by omega) (.inl h3)
    refine ⟨s', ?_⟩
    show bankSend c u v amount s = _
    unfold bankSend
    rw [if_neg (by omega), if_neg (by simp [h2])]
    exact h

/-- In every reachable state a user's multi-send succeeds exactly when it has an output, every amount is positive, their
sum is covered, and no output is blocked or the yield account. -/
theorem C53_multi_send_iff {c : Cfg} (hc : c.WF) (env : Env) (s : State) (hr : Reachable c s)
    (u : Addr) (outs : List (Addr × Int)) (hu : c.IsUser u) :
    (∃ s', exec c env (.bankMultiSend u outs) s = .ok () s') ↔
      outs ≠ [] ∧ (∀ o ∈ outs, 0 < o.2 ∧ c.blocked o.1 = false ∧ o.1 ≠ c.yieldAddr) ∧
      (outs.map Prod.snd).sum ≤ s.balance u := by
  have hi := Reachable.index_pos hc hr
  constructor
  · rintro ⟨s', h⟩
    have m := bankMultiSend_ok hc hu.ne_yield hu.ne_module (by omega)
      (show bankMultiSend c u outs s = .ok () s' from h)
    refine ⟨?_, fun o ho => ⟨m.pos o ho, m.allowed o ho, m.noYield o ho⟩, m.enough⟩
    rintro rfl
    cases h
  · rintro ⟨hne, h0, h1⟩
    obtain ⟨s', h⟩ := multiSendOutputs_progress (c := c) hu.ne_yield (outs := outs)
      (fun o ho => by have := (h0 o ho).1; omega) (fun o ho => (h0 o ho).2.2)
      (s := debit s u (outs.map Prod.snd).sum) (show s.index ≠ 0 by omega)
    refine ⟨s', ?_⟩
    show bankMultiSend c u outs s = _
    unfold bankMultiSend multiSend
    rw [if_neg hne, if_neg (by
        rw [List.any_eq_true]
        rintro ⟨o, ho, hh⟩
        have := (h0 o ho).1
        simp at hh
        omega),
      if_neg (by
        rw [List.any_eq_true]
        rintro ⟨o, ho, hh⟩
        rw [(h0 o ho).2.1] at hh
        cases hh)]
    refine bind_ok.2 ⟨(), _, ?_, h⟩
    rw [subCoins_eq, if_neg (by omega)]

/-- In particular whatever a user holds can always be sent to another user, in one message, in every
reachable state: no pause, season or setting freezes it. -/
theorem C53_whole_balance {c : Cfg} (hc : c.WF) (env : Env) (s : State) (hr : Reachable c s)
    (u v : Addr) (hu : c.IsUser u) (hv : c.IsUser v) (hb : c.blocked v = false)
    (h0 : 0 < s.balance u) :
    ∃ s', exec c env (.bankSend u v (s.balance u)) s = .ok () s' :=
  (C53_send_iff hc env s hr u v _ hu).2 ⟨h0, le_refl _, hb, hv.ne_yield⟩

/-- Non-vacuity: in a reachable state alice holds USDN and may send it, but not
to the yield account nor more than they hold. -/
example : let s := run Demo.cfg Demo.hist1 Demo.start
    Reachable Demo.cfg s ∧ Demo.cfg.IsUser Demo.alice ∧ 0 < s.balance Demo.alice ∧
    (∃ s', exec Demo.cfg (Demo.env 9) (.bankSend Demo.alice Demo.bob 5) s = .ok () s') ∧
    (¬ ∃ s', exec Demo.cfg (Demo.env 9) (.bankSend Demo.alice Demo.cfg.yieldAddr 5) s = .ok () s') := by
  have hu := Demo.alice_user
  refine ⟨Demo.reach1, hu, by decide +kernel, ?_, ?_⟩
  · rw [C53_send_iff Demo.cfg_wf _ _ Demo.reach1 _ _ _ hu]
    decide +kernel
  · rw [C53_send_iff Demo.cfg_wf _ _ Demo.reach1 _ _ _ hu]
    exact fun h => h.2.2.2 rfl

/-- Non-vacuity for multi-sends: alice pays bob twice and themself once in one message, at index 1.1. -/
example : let s := run Demo.cfg Demo.hist1 Demo.start
    let outs := [(Demo.bob, 1000000), (Demo.alice, 10), (Demo.bob, 1)]
    s.index = 1100000000000 ∧
    (∃ s', exec Demo.cfg (Demo.env 9) (.bankMultiSend Demo.alice outs) s = .ok () s') ∧
    (step Demo.cfg (Demo.env 9) (.bankMultiSend Demo.alice outs) s).principalOf Demo.bob =
      s.principalOf Demo.bob + 909092 := by
  refine ⟨by decide +kernel, ?_, by decide +kernel⟩
  rw [C53_multi_send_iff Demo.cfg_wf _ _ Demo.reach1 _ _ Demo.alice_user]
  decide +kernel

end Dollar
