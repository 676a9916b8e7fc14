import Verif.Props.C68
import Verif.Props.C53

/-
C69: payments that everybody can afford at the start can be executed in any order.
-/
set_option maxRecDepth 100000
namespace Dollar
open MM Spec

/-- One payment: a bank send, in its own environment. -/
structure Spec.Payment where
  env : Env
  payer : Addr
  payee : Addr
  amount : Int

/-- A batch of payments as a history. -/
def Spec.payments (l : List Payment) : History := l.map fun p => (p.env, .bankSend p.payer p.payee p.amount)

/-- What an account pays, and what it is paid, in a batch. -/
def Spec.paidBy (l : List Payment) (x : Addr) : Int := (l.map fun p => if p.payer = x then p.amount else 0).sum
def Spec.paidTo (l : List Payment) (x : Addr) : Int := (l.map fun p => if p.payee = x then p.amount else 0).sum

/-- Every payment is a positive amount from a user to somebody who may receive USDN. -/
def Spec.ValidPayments (c : Cfg) (l : List Payment) : Prop :=
  ∀ p ∈ l, 0 < p.amount ∧ c.IsUser p.payer ∧ c.blocked p.payee = false ∧ p.payee ≠ c.yieldAddr

/-- The state without balances, principals and the holder statistic. -/
def Spec.bookless (s : State) : State := { s with bal := [], principal := [], holders := 0 }

/-- The principal an account pays and is paid. -/
def prinBy (i : Int) (l : List Payment) (x : Addr) : Int :=
  (l.map fun p => if p.payer = x then roundedUp p.amount i else 0).sum
def prinTo (i : Int) (l : List Payment) (x : Addr) : Int :=
  (l.map fun p => if p.payee = x then roundedUp p.amount i else 0).sum

theorem paidBy_nonneg {c : Cfg} {l : List Payment} (h : ValidPayments c l) (x : Addr) : 0 ≤ paidBy l x := by
  unfold paidBy
  refine List.sum_nonneg fun y hy => ?_
  obtain ⟨p, hp, rfl⟩ := List.mem_map.1 hy
  have := (h p hp).1
  split <;> omega

theorem putBook {s m : State} (h : bankCore m = bankCore s) (h2 : m.totalPrincipal = s.totalPrincipal) :
    bookless m = bookless s := by
  show putBack (bankCore m) [] m.totalPrincipal 0 = putBack (bankCore s) [] s.totalPrincipal 0
  rw [h, h2]

/-- If every user holds at the start at least what they pay in the whole batch, every payment goes
through, and every balance changes by exactly what is paid and received. -/
theorem payments_batch {c : Cfg} (hc : c.WF) (l : List Payment) {s : State} (hr : Reachable c s)
    (hv : ValidPayments c l) (hf : ∀ x, paidBy l x ≤ s.balance x) :
    AllSucceed c (payments l) s ∧
    (∀ x, (run c (payments l) s).balance x = s.balance x - paidBy l x + paidTo l x) ∧
    (∀ x, (run c (payments l) s).principalOf x =
      s.principalOf x - prinBy s.index l x + prinTo s.index l x) ∧
    bookless (run c (payments l) s) = bookless s := by
  induction l generalizing s with
  | nil =>
    refine ⟨trivial, fun x => ?_, fun x => ?_, rfl⟩
    · show s.balance x = s.balance x - 0 + 0
      omega
    · show s.principalOf x = s.principalOf x - 0 + 0
      omega
  | cons p t ih =>
    obtain ⟨h0, hu, hb, hy⟩ := hv p List.mem_cons_self
    have hvt : ValidPayments c t := fun q hq => hv q (List.mem_cons_of_mem _ hq)
    have hby : ∀ x, paidBy (p :: t) x = (if p.payer = x then p.amount else 0) + paidBy t x := fun _ => rfl
    have hto : ∀ x, paidTo (p :: t) x = (if p.payee = x then p.amount else 0) + paidTo t x := fun _ => rfl
    have pby : ∀ i x, prinBy i (p :: t) x = (if p.payer = x then roundedUp p.amount i else 0) + prinBy i t x :=
      fun _ _ => rfl
    have pto : ∀ i x, prinTo i (p :: t) x = (if p.payee = x then roundedUp p.amount i else 0) + prinTo i t x :=
      fun _ _ => rfl
    have hle : p.amount ≤ s.balance p.payer := by
      have h1 := hf p.payer
      have h2 := paidBy_nonneg hvt p.payer
      rw [hby, if_pos rfl] at h1
      omega
    obtain ⟨s', h⟩ := (C53_send_iff hc p.env s hr p.payer p.payee p.amount hu).2 ⟨h0, hle, hb, hy⟩
    have hs : step c p.env (.bankSend p.payer p.payee p.amount) s = s' := by unfold step runTx; rw [h]
    have hr' : Reachable c s' := hs ▸ Reachable.step hr hu
    obtain ⟨_, _, hmv⟩ := bankSend_ok h
    have hym : p.payee ≠ c.moduleAddr := by
      intro e
      have := hc.module_blocked
      rw [e] at hb
      exact absurd (this.symm.trans hb) (by decide)
    have hbal : ∀ x, s'.balance x =
        s.balance x - (if p.payer = x then p.amount else 0) + (if p.payee = x then p.amount else 0) := by
      intro x
      rw [hmv.bal x, if_congr (eq_comm (a := x)) rfl rfl, if_congr (eq_comm (a := x) (b := p.payee)) rfl rfl]
    have hprin : ∀ x, s'.principalOf x =
        s.principalOf x - (if p.payer = x then roundedUp p.amount s.index else 0) +
          (if p.payee = x then roundedUp p.amount s.index else 0) := by
      intro x
      rw [hmv.prin (by omega) hu.ne_yield hy x, if_neg hu.ne_module]
      have e1 : (x = p.payer ∧ p.payer ≠ c.moduleAddr) ↔ p.payer = x :=
        ⟨fun h => h.1.symm, fun h => ⟨h.symm, hu.ne_module⟩⟩
      have e2 : (x = p.payee ∧ p.payee ≠ c.moduleAddr) ↔ p.payee = x :=
        ⟨fun h => h.1.symm, fun h => ⟨h.symm, hym⟩⟩
      rw [if_congr e1 rfl rfl, if_congr e2 rfl rfl]
    have hidx : s'.index = s.index := hmv.index
    have hrest : bookless s' = bookless s :=
      putBook hmv.frame (hmv.total_of_ne_module hu.ne_module hym)
    obtain ⟨k1, k2, k3, k4⟩ := ih (s := s') hr' hvt (by
      intro x
      have h1 := hf x
      rw [hby] at h1
      rw [hbal]
      split <;> split at h1 <;> (try split) <;> omega)
    have hrun : run c (payments (p :: t)) s = run c (payments t) s' := by
      show run c (payments t) (step c p.env (.bankSend p.payer p.payee p.amount) s) = _
      rw [hs]
    rw [hrun]
    refine ⟨⟨⟨s', h⟩, by rw [hs]; exact k1⟩, fun x => ?_, fun x => ?_, k4.trans hrest⟩
    · rw [k2 x, hbal x, hby, hto]; omega
    · rw [k3 x, hprin x, pby, pto, hidx]; omega

/-- If every user holds at the start at least what they pay in the whole batch, then in every order
of the batch every payment goes through and every balance changes by exactly what is paid and
received. -/
theorem C69_affordable_any_order {c : Cfg} (hc : c.WF) {s : State} (hr : Reachable c s) {l l' : List Payment}
    (hv : ValidPayments c l) (hf : ∀ x, paidBy l x ≤ s.balance x) (hperm : l'.Perm l) :
    AllSucceed c (payments l') s ∧
    (∀ x, (run c (payments l') s).balance x = s.balance x - paidBy l x + paidTo l x) := by
  have e1 : ∀ x, paidBy l' x = paidBy l x := fun x => (hperm.map _).sum_eq
  have e2 : ∀ x, paidTo l' x = paidTo l x := fun x => (hperm.map _).sum_eq
  obtain ⟨h1, h2, _, _⟩ := payments_batch hc l' hr (fun p hp => hv p (hperm.mem_iff.1 hp))
    (fun x => by rw [e1]; exact hf x)
  refine ⟨h1, fun x => ?_⟩
  rw [h2, e1, e2]

/-- All orders also end with the same principal for everybody, hence the same claims to future
yield; nothing but the holder statistic can differ. -/
theorem C69_same_result {c : Cfg} (hc : c.WF) {s : State} (hr : Reachable c s) {l l' : List Payment}
    (hv : ValidPayments c l) (hf : ∀ x, paidBy l x ≤ s.balance x) (hperm : l'.Perm l) :
    (∀ x, (run c (payments l') s).balance x = (run c (payments l) s).balance x) ∧
    (∀ x, (run c (payments l') s).principalOf x = (run c (payments l) s).principalOf x) ∧
    bookless (run c (payments l') s) = bookless (run c (payments l) s) := by
  have e1 : ∀ x, paidBy l' x = paidBy l x := fun x => (hperm.map _).sum_eq
  have e2 : ∀ x, paidTo l' x = paidTo l x := fun x => (hperm.map _).sum_eq
  have e3 : ∀ x, prinBy s.index l' x = prinBy s.index l x := fun x => (hperm.map _).sum_eq
  have e4 : ∀ x, prinTo s.index l' x = prinTo s.index l x := fun x => (hperm.map _).sum_eq
  obtain ⟨_, h2, h3, h4⟩ := payments_batch hc l' hr (fun p hp => hv p (hperm.mem_iff.1 hp))
    (fun x => by rw [e1]; exact hf x)
  obtain ⟨_, k2, k3, k4⟩ := payments_batch hc l hr hv hf
  refine ⟨fun x => ?_, fun x => ?_, h4.trans k4.symm⟩
  · rw [h2, k2, e1, e2]
  · rw [h3, k3, e3, e4]

/-- Even when they are not affordable up front: if the batch happens to go through in two orders, the
results agree. -/
theorem C69_success_agrees {c : Cfg} (hc : c.WF) {s : State} (hr : Reachable c s) {l l' : List Payment}
    (hu : ∀ p ∈ l, c.IsUser p.payer) (hperm : l'.Perm l) (h : AllSucceed c (payments l) s)
    (h' : AllSucceed c (payments l') s) :
    (∀ x, (run c (payments l') s).balance x = (run c (payments l) s).balance x) ∧
    (∀ x, (run c (payments l') s).principalOf x = (run c (payments l) s).principalOf x) ∧
    bookless (run c (payments l') s) = bookless (run c (payments l) s) := by
  have key : ∀ (l : List Payment) {s : State}, Reachable c s → (∀ p ∈ l, c.IsUser p.payer) →
      AllSucceed c (payments l) s →
      (∀ x, (run c (payments l) s).balance x = s.balance x - paidBy l x + paidTo l x) ∧
      (∀ x, (run c (payments l) s).principalOf x =
        s.principalOf x - prinBy s.index l x + prinTo s.index l x) ∧
      bookless (run c (payments l) s) = bookless s := by
    intro l
    induction l with
    | nil =>
      intro s _ _ _
      refine ⟨fun x => ?_, fun x => ?_, rfl⟩
      · show s.balance x = s.balance x - 0 + 0
        omega
      · show s.principalOf x = s.principalOf x - 0 + 0
        omega
    | cons p t ih =>
      intro s hr hu hall
      obtain ⟨⟨s', h⟩, hall⟩ := hall
      have hup := hu p List.mem_cons_self
      obtain ⟨h0, _, hb, hy⟩ := (C53_send_iff hc p.env s hr p.payer p.payee p.amount hup).1 ⟨s', h⟩
      have hone := (payments_batch hc [p] hr (by
        intro q hq
        rw [List.mem_singleton] at hq
        subst hq
        exact ⟨h0, hup, hb, hy⟩) (by
        intro x
        have e : paidBy [p] x = (if p.payer = x then p.amount else 0) + 0 := rfl
        rw [e]
        have hn := (hr.led hc).good.bal x
        split
        · next e => rw [← e]; have := (C53_send_iff hc p.env s hr p.payer p.payee p.amount hup).1 ⟨s', h⟩; omega
        · omega)).2
      have hs : run c (payments [p]) s = step c p.env (.bankSend p.payer p.payee p.amount) s := rfl
      rw [hs] at hone
      obtain ⟨o1, o2, o3⟩ := hone
      have hr1 : Reachable c (step c p.env (.bankSend p.payer p.payee p.amount) s) := Reachable.step hr hup
      obtain ⟨k1, k2, k3⟩ := ih hr1 (fun q hq => hu q (List.mem_cons_of_mem _ hq)) hall
      have hrun : run c (payments (p :: t)) s =
        run c (payments t) (step c p.env (.bankSend p.payer p.payee p.amount) s) := rfl
      have hidx : (step c p.env (.bankSend p.payer p.payee p.amount) s).index = s.index :=
        (congrArg State.index o3 :)
      rw [hrun]
      refine ⟨fun x => ?_, fun x => ?_, k3.trans o3⟩
      · rw [k1, o1]
        have e1 : paidBy (p :: t) x = (if p.payer = x then p.amount else 0) + paidBy t x := rfl
        have e2 : paidTo (p :: t) x = (if p.payee = x then p.amount else 0) + paidTo t x := rfl
        have e3 : paidBy [p] x = (if p.payer = x then p.amount else 0) + 0 := rfl
        have e4 : paidTo [p] x = (if p.payee = x then p.amount else 0) + 0 := rfl
        rw [e1, e2, e3, e4]; omega
      · rw [k2, o2, hidx]
        have e1 : prinBy s.index (p :: t) x = (if p.payer = x then roundedUp p.amount s.index else 0) + prinBy s.index t x := rfl
        have e2 : prinTo s.index (p :: t) x = (if p.payee = x then roundedUp p.amount s.index else 0) + prinTo s.index t x := rfl
        have e3 : prinBy s.index [p] x = (if p.payer = x then roundedUp p.amount s.index else 0) + 0 := rfl
        have e4 : prinTo s.index [p] x = (if p.payee = x then roundedUp p.amount s.index else 0) + 0 := rfl
        rw [e1, e2, e3, e4]; omega
  obtain ⟨h2, h3, h4⟩ := key l' hr (fun p hp => hu p (hperm.mem_iff.1 hp)) h'
  obtain ⟨k2, k3, k4⟩ := key l hr hu h
  have e1 : ∀ x, paidBy l' x = paidBy l x := fun x => (hperm.map _).sum_eq
  have e2 : ∀ x, paidTo l' x = paidTo l x := fun x => (hperm.map _).sum_eq
  have e3 : ∀ x, prinBy s.index l' x = prinBy s.index l x := fun x => (hperm.map _).sum_eq
  have e4 : ∀ x, prinTo s.index l' x = prinTo s.index l x := fun x => (hperm.map _).sum_eq
  refine ⟨fun x => ?_, fun x => ?_, h4.trans k4.symm⟩
  · rw [h2, k2, e1, e2]
  · rw [h3, k3, e3, e4]

namespace Demo

/-- Three payments between alice and bob. -/
def three : List Payment :=
  [⟨env 8, alice, bob, 1000000⟩, ⟨env 9, bob, alice, 7⟩, ⟨env 10, alice, bob, 3000000⟩]

end Demo

/-- Non-vacuity: alice holds 4000000 and bob 3000000; the three payments are affordable. -/
example : let s := run Demo.cfg Demo.hist1 Demo.start
    Reachable Demo.cfg s ∧ ValidPayments Demo.cfg Demo.three ∧ (∀ x, paidBy Demo.three x ≤ s.balance x) ∧
    (run Demo.cfg (payments Demo.three) s).balance Demo.alice = 7 := by
  intro s
  refine ⟨Demo.reach1, ?_, ?_, by decide +kernel⟩
  · intro p hp
    simp only [Demo.three, List.mem_cons, List.not_mem_nil, or_false] at hp
    rcases hp with rfl | rfl | rfl
    · exact ⟨by decide, Demo.alice_user, by decide, by decide⟩
    · exact ⟨by decide, Demo.bob_user, by decide, by decide⟩
    · exact ⟨by decide, Demo.alice_user, by decide, by decide⟩
  · intro x
    have h0 : 0 ≤ s.balance x := (Demo.reach1.led Demo.cfg_wf).good.bal x
    by_cases h1 : x = Demo.alice
    · subst h1
      have : s.balance Demo.alice = 4000000 := by decide +kernel
      have h2 : paidBy Demo.three Demo.alice = 4000000 := by decide +kernel
      omega
    · by_cases h2 : x = Demo.bob
      · subst h2
        have h3 : 7 ≤ s.balance Demo.bob := by decide +kernel
        have h4 : paidBy Demo.three Demo.bob = 7 := by decide +kernel
        omega
      · have : paidBy Demo.three x = 0 := by
          unfold paidBy Demo.three
          simp only [List.map_cons, List.map_nil, List.sum_cons, List.sum_nil, if_neg (Ne.symm h1),
            if_neg (Ne.symm h2)]
          rfl
        omega

end Dollar
