import Verif.Props.C07
import Verif.Props.C42

/-
C68: the order of yield claims does not matter as long as the yield account can pay them all; when
it cannot, the first to come are served.
-/
set_option maxRecDepth 100000
namespace Dollar
open MM Spec

/-- Every message of the history succeeds. -/
def Spec.AllSucceed (c : Cfg) : History → State → Prop
  | [], _ => True
  | (env, m) :: t, s => (∃ s', exec c env m s = .ok () s') ∧ AllSucceed c t (step c env m s)

/-- A batch of claims, each in its own environment (block time and so on). -/
def Spec.claims (l : List (Env × String)) : History := l.map fun e => (e.1, .claimYield e.2)

/-- What the Yield query reports for a claimant. -/
def Spec.reported (c : Cfg) (s : State) (signer : String) : Int := (queryYield c s signer).getD 0

/-- What the Yield query reports for all claimants of a batch together. -/
def Spec.allReported (c : Cfg) (s : State) (l : List (Env × String)) : Int :=
  (l.map fun e => reported c s e.2).sum

/-- The claimants of a batch are users, each with a valid address that may receive coins, and
all different. -/
structure Spec.Claimants (c : Cfg) (l : List (Env × String)) : Prop where
  user : ∀ e ∈ l, ∃ a, c.decode e.2 = some a ∧ c.IsUser a ∧ c.blocked a = false
  distinct : (l.map fun e => c.decode e.2).Nodup

theorem Spec.Claimants.tail {c : Cfg} {e : Env × String} {t : List (Env × String)}
    (h : Claimants c (e :: t)) : Claimants c t :=
  ⟨fun x hx => h.user x (List.mem_cons_of_mem _ hx), (List.nodup_cons.1 h.distinct).2⟩

theorem Spec.Claimants.perm {c : Cfg} {l l' : List (Env × String)} (h : Claimants c l) (p : l'.Perm l) :
    Claimants c l' :=
  ⟨fun x hx => h.user x (p.mem_iff.1 hx), (p.map _).nodup_iff.2 h.distinct⟩

/-- The state without balances and events. -/
def Spec.restOf (s : State) : State := { s with bal := [], events := [] }

/-- Put three fields back. -/
def putBack (s : State) (p : KV Addr Int) (n : Int) (k : Nat) : State :=
  { s with principal := p, totalPrincipal := n, holders := k }

theorem restOf_of_bank {s m : State} {ev : List Event} (h : bankCore m = bankCore s) (h1 : m.principal = s.principal)
    (h2 : m.totalPrincipal = s.totalPrincipal) (h3 : m.holders = s.holders) :
    restOf { m with events := ev } = restOf s := by
  show putBack (restOf (bankCore m)) m.principal m.totalPrincipal m.holders =
    putBack (restOf (bankCore s)) s.principal s.totalPrincipal s.holders
  rw [h, h1, h2, h3]

theorem claim_one {c : Cfg} {s : State} (hy : 0 ≤ s.balance c.yieldAddr) (hp : s.paused = false) (env : Env)
    {signer : String} {a : Addr} (ha : c.decode signer = some a) (hu : c.IsUser a)
    (hb : c.blocked a = false) (hle : reported c s signer ≤ s.balance c.yieldAddr) :
    ∃ s', exec c env (.claimYield signer) s = .ok () s' ∧ step c env (.claimYield signer) s = s' ∧
      restOf s' = restOf s ∧
      (∀ x, s'.balance x = s.balance x + (if x = a then reported c s signer else 0) -
        (if x = c.yieldAddr then reported c s signer else 0)) ∧
      (∀ other, c.decode other ≠ some a → c.decode other ≠ some c.yieldAddr →
        reported c s' other = reported c s other) := by
  have hq : queryYield c s signer = some (reported c s signer) := by
    unfold reported queryYield; rw [ha]; rfl
  obtain ⟨s', h⟩ := (C07_claim_succeeds_iff env signer hy).2 ⟨hp, a, _, ha, hq, hb, hle⟩
  have hm : (Msg.claimYield signer).SignedByUser c := fun b hb' => by
    rw [ha] at hb'; cases hb'; exact hu
  refine ⟨s', h, by unfold step runTx; rw [h], ?_, ?_, ?_⟩
  · obtain ⟨_, a', m, ha', _, hv, rfl⟩ := claimYield_ok h
    have h1 := hv.frame
    have h2 := hv.skip (.inl rfl)
    exact restOf_of_bank h1 h2.1 h2.2.1 h2.2.2
  · obtain ⟨a', y, ha', hq', _, h1, h2, h3, _⟩ := C07_claim env signer hm h
    rw [ha] at ha'; cases ha'
    rw [hq] at hq'; cases hq'
    intro x
    by_cases e1 : x = a
    · subst e1
      rw [if_pos rfl, if_neg hu.ne_yield, h1]; omega
    · by_cases e2 : x = c.yieldAddr
      · rw [if_neg e1, if_pos e2, e2, h2]; omega
      · rw [if_neg e1, if_neg e2, h3 x e1 e2]; omega
  · intro other h1 h2
    unfold reported
    rw [C46_claim_leaves_others env signer hm h other (by rw [ha]; exact h1) h2]

/-- Exactly when a batch of claims goes through: the yield account holds at least the sum of what
the Yield query reports for the claimants; and then everybody gets exactly that. -/
theorem C68_batch {c : Cfg} (l : List (Env × String)) {s : State} (hy : 0 ≤ s.balance c.yieldAddr)
    (hp : s.paused = false) (hl : Claimants c l) :
    (AllSucceed c (claims l) s ↔ allReported c s l ≤ s.balance c.yieldAddr) ∧
    (AllSucceed c (claims l) s →
      restOf (run c (claims l) s) = restOf s ∧
      (∀ e ∈ l, ∀ a, c.decode e.2 = some a →
        (run c (claims l) s).balance a = s.balance a + reported c s e.2) ∧
      (run c (claims l) s).balance c.yieldAddr = s.balance c.yieldAddr - allReported c s l ∧
      ∀ x, x ≠ c.yieldAddr → (∀ e ∈ l, c.decode e.2 ≠ some x) →
        (run c (claims l) s).balance x = s.balance x) := by
  induction l generalizing s with
  | nil =>
    refine ⟨⟨fun _ => hy, fun _ => trivial⟩, fun _ => ⟨rfl, by simp, ?_, fun _ _ _ => rfl⟩⟩
    show _ = _ - (0 : Int)
    rw [sub_zero]; rfl
  | cons e t ih =>
    obtain ⟨env, sg⟩ := e
    obtain ⟨a, ha, hu, hb⟩ := hl.user _ List.mem_cons_self
    change c.decode sg = some a at ha
    have hnn : ∀ other, 0 ≤ reported c s other := by
      intro other
      unfold reported queryYield
      cases c.decode other with
      | none => exact le_refl _
      | some b => exact claimable_nonneg s b
    have hdist : ∀ e ∈ t, c.decode e.2 ≠ some a := by
      intro e he h
      refine (List.nodup_cons.1 hl.distinct).1 ?_
      show c.decode sg ∈ _
      rw [ha, ← h]
      exact List.mem_map_of_mem he
    have hnoty : ∀ e ∈ t, c.decode e.2 ≠ some c.yieldAddr := by
      intro e he h
      obtain ⟨b, hb1, hb2, _⟩ := hl.user e (List.mem_cons_of_mem _ he)
      rw [h] at hb1; cases hb1
      exact hb2.ne_yield rfl
    have hsum0 : 0 ≤ allReported c s t := by
      unfold allReported
      exact List.sum_nonneg (by
        intro x hx
        obtain ⟨e, _, rfl⟩ := List.mem_map.1 hx
        exact hnn _)
    have hcons : allReported c s ((env, sg) :: t) = reported c s sg + allReported c s t := rfl
    by_cases hle : reported c s sg ≤ s.balance c.yieldAddr
    · obtain ⟨s', h1, h2, h3, h4, h5⟩ := claim_one hy hp env ha hu hb hle
      have hyb : s'.balance c.yieldAddr = s.balance c.yieldAddr - reported c s sg := by
        rw [h4, if_neg hu.ne_yield.symm, if_pos rfl]; omega
      have hp0 : s'.paused = s.paused := (congrArg State.paused h3 :)
      have hp' : s'.paused = false := hp0.trans hp
      have hrep : allReported c s' t = allReported c s t := by
        unfold allReported
        exact congrArg List.sum (List.map_congr_left fun e he => h5 _ (hdist e he) (hnoty e he))
      obtain ⟨k1, k2⟩ := ih (s := s') (by omega) hp' hl.tail
      have hrun : run c (claims ((env, sg) :: t)) s = run c (claims t) s' := by
        show run c (claims t) (step c env (.claimYield sg) s) = _
        rw [h2]
      have hall : AllSucceed c (claims ((env, sg) :: t)) s ↔ AllSucceed c (claims t) s' := by
        show (∃ s', exec c env (.claimYield sg) s = .ok () s') ∧
          AllSucceed c (claims t) (step c env (.claimYield sg) s) ↔ _
        rw [h2]
        exact ⟨fun h => h.2, fun h => ⟨⟨s', h1⟩, h⟩⟩
      rw [hall, hrun, hcons]
      refine ⟨?_, fun h => ?_⟩
      · rw [k1, hrep, hyb]; omega
      obtain ⟨q1, q2, q3, q4⟩ := k2 h
      refine ⟨q1.trans h3, ?_, ?_, ?_⟩
      · intro e he b hbd
        rcases List.mem_cons.1 he with rfl | he
        · change c.decode sg = some b at hbd
          rw [ha] at hbd; cases hbd
          rw [q4 a hu.ne_yield hdist, h4, if_pos rfl, if_neg hu.ne_yield]
          show _ = _ + reported c s sg
          omega
        · have hba : b ≠ a := fun e' => hdist e he (e' ▸ hbd)
          have hby : b ≠ c.yieldAddr := fun e' => hnoty e he (e' ▸ hbd)
          rw [q2 e he b hbd, h4, if_neg hba, if_neg hby, h5 _ (hdist e he) (hnoty e he)]
          omega
      · rw [q3, hrep, hyb]; omega
      · intro x hx hno
        have hxa : x ≠ a := fun e' => hno _ List.mem_cons_self (e' ▸ ha)
        rw [q4 x hx fun e he => hno e (List.mem_cons_of_mem _ he), h4, if_neg hxa, if_neg hx]
        omega
    · have hno : ¬ AllSucceed c (claims ((env, sg) :: t)) s := by
        rintro ⟨⟨s', h⟩, _⟩
        obtain ⟨_, a', y, ha', hq, _, hle'⟩ := (C07_claim_succeeds_iff env sg hy).1 ⟨s', h⟩
        apply hle
        unfold reported
        rw [hq]
        exact hle'
      refine ⟨⟨fun h => absurd h hno, fun h => ?_⟩, fun h => absurd h hno⟩
      rw [hcons] at h
      omega

/-- If a batch of claims by different users goes through in one order, it goes through in every
order, and everybody ends up with the same balance; nothing else differs but the order of events. -/
theorem C68_any_order {c : Cfg} (hc : c.WF) {s : State} (hr : Reachable c s) {l l' : List (Env × String)}
    (hl : Claimants c l) (hperm : l'.Perm l) (h : AllSucceed c (claims l) s) :
    AllSucceed c (claims l') s ∧
    (∀ x, (run c (claims l') s).balance x = (run c (claims l) s).balance x) ∧
    restOf (run c (claims l') s) = restOf (run c (claims l) s) := by
  have hy := (hr.led hc).good.bal c.yieldAddr
  have hl' := hl.perm hperm
  by_cases hp : s.paused = false
  · obtain ⟨a1, a2⟩ := C68_batch l hy hp hl
    obtain ⟨b1, b2⟩ := C68_batch l' hy hp hl'
    have hsum : allReported c s l' = allReported c s l := (hperm.map _).sum_eq
    have h' : AllSucceed c (claims l') s := b1.2 (by rw [hsum]; exact a1.1 h)
    obtain ⟨p1, p2, p3, p4⟩ := a2 h
    obtain ⟨q1, q2, q3, q4⟩ := b2 h'
    refine ⟨h', ?_, q1.trans p1.symm⟩
    intro x
    by_cases hx : x = c.yieldAddr
    · rw [hx, q3, p3, hsum]
    by_cases hin : ∃ e ∈ l, c.decode e.2 = some x
    · obtain ⟨e, he, hd⟩ := hin
      rw [q2 e (hperm.mem_iff.2 he) x hd, p2 e he x hd]
    · have n1 : ∀ e ∈ l, c.decode e.2 ≠ some x := fun e he h => hin ⟨e, he, h⟩
      rw [q4 x hx fun e he => n1 e (hperm.mem_iff.1 he), p4 x hx n1]
  · cases l with
    | nil =>
      have : l' = [] := hperm.eq_nil
      subst this
      exact ⟨trivial, fun _ => rfl, rfl⟩
    | cons e t =>
      obtain ⟨⟨s', hx⟩, _⟩ := h
      exact absurd ((C07_claim_succeeds_iff e.1 e.2 hy).1 ⟨s', hx⟩).1 hp

namespace Demo

def carol : Addr := 2 :: List.replicate 18 0 ++ [3]
def carolS : String := encode carol
theorem carol_user : cfg.IsUser carol := user _

/-- Wormhole: a delivery of 300 to alice and an index update from 3 to 3.02. -/
def verify68 (bz : Bytes) : Option VAA :=
  if bz = [1] then some (vaaToken 1 alice 300 1000000000000)
  else if bz = [2] then some (vaaIndex 2 3020000000000)
  else none

def env68 (time : Int) : Env := { env time with verify := verify68 }

/-- Alice pays bob and carol one unit each; the index update then mints a yield of 2. -/
def hist68 : History := [(env68 1, .deliver [1]), (env68 2, .bankSend alice bob 1),
  (env68 3, .bankSend alice carol 1), (env68 4, .deliver [2])]

theorem hist68_signed : History.Signed cfg hist68 := by
  intro e he
  simp only [hist68, List.mem_cons, List.not_mem_nil, or_false] at he
  rcases he with rfl | rfl | rfl | rfl
  · trivial
  · exact alice_user
  · exact alice_user
  · trivial

theorem reach68 : Reachable cfg (run cfg hist68 start3) :=
  .of_run start3_initial hist68_signed

theorem claimants68 (e1 e2 : Env) : Claimants cfg [(e1, bobS), (e2, carolS)] := by
  have hb : cfg.decode bobS = some bob := by decide
  have hk : cfg.decode carolS = some carol := by decide
  constructor
  · intro e he
    simp only [List.mem_cons, List.not_mem_nil, or_false] at he
    rcases he with rfl | rfl
    · exact ⟨bob, hb, bob_user, by decide⟩
    · exact ⟨carol, hk, carol_user, by decide⟩
  · simp only [List.map_cons, List.map_nil, hb, hk]
    decide

theorem claimants1 (e1 e2 : Env) : Claimants cfg [(e1, aliceS), (e2, bobS)] := by
  have hb : cfg.decode bobS = some bob := by decide
  have hk : cfg.decode aliceS = some alice := by decide
  constructor
  · intro e he
    simp only [List.mem_cons, List.not_mem_nil, or_false] at he
    rcases he with rfl | rfl
    · exact ⟨alice, hk, alice_user, by decide⟩
    · exact ⟨bob, hb, bob_user, by decide⟩
  · simp only [List.map_cons, List.map_nil, hb, hk]
    decide

end Demo

/-- When the yield account cannot pay everybody (C42), the order decides who is paid: bob and carol
both see a yield of 2, and whoever claims second gets an error. -/
theorem C68_first_come_first_served : ∃ (c : Cfg) (s : State) (env : Env) (x y : String),
    c.WF ∧ Reachable c s ∧ Claimants c [(env, x), (env, y)] ∧
    queryYield c s x = some 2 ∧ queryYield c s y = some 2 ∧
    (∃ s', exec c env (.claimYield x) s = .ok () s' ∧ ∀ s'', exec c env (.claimYield y) s' ≠ .ok () s'') ∧
    (∃ s', exec c env (.claimYield y) s = .ok () s' ∧ ∀ s'', exec c env (.claimYield x) s' ≠ .ok () s'') := by
  refine ⟨Demo.cfg, run Demo.cfg Demo.hist68 Demo.start3, Demo.env68 5, Demo.bobS, Demo.carolS,
    Demo.cfg_wf, Demo.reach68, Demo.claimants68 _ _, by decide +kernel, by decide +kernel,
    ⟨step Demo.cfg (Demo.env68 5) (.claimYield Demo.bobS) (run Demo.cfg Demo.hist68 Demo.start3),
      exec_of_isOk (by decide +kernel), ?_⟩,
    ⟨step Demo.cfg (Demo.env68 5) (.claimYield Demo.carolS) (run Demo.cfg Demo.hist68 Demo.start3),
      exec_of_isOk (by decide +kernel), ?_⟩⟩
  · intro s'' h
    have h0 : (exec Demo.cfg (Demo.env68 5) (.claimYield Demo.carolS) (step Demo.cfg (Demo.env68 5)
      (.claimYield Demo.bobS) (run Demo.cfg Demo.hist68 Demo.start3))).isOk = false := by decide +kernel
    rw [h] at h0
    cases h0
  · intro s'' h
    have h0 : (exec Demo.cfg (Demo.env68 5) (.claimYield Demo.bobS) (step Demo.cfg (Demo.env68 5)
      (.claimYield Demo.carolS) (run Demo.cfg Demo.hist68 Demo.start3))).isOk = false := by decide +kernel
    rw [h] at h0
    cases h0

/-- Non-vacuity: in the demo chain alice claims 400000, and the batch of alice and bob is covered by
the yield account. -/
example : Reachable Demo.cfg (run Demo.cfg Demo.hist1 Demo.start) ∧
    Claimants Demo.cfg [(Demo.env 8, Demo.aliceS), (Demo.env 9, Demo.bobS)] ∧
    allReported Demo.cfg (run Demo.cfg Demo.hist1 Demo.start)
      [(Demo.env 8, Demo.aliceS), (Demo.env 9, Demo.bobS)] = 700000 ∧
    AllSucceed Demo.cfg (claims [(Demo.env 8, Demo.aliceS), (Demo.env 9, Demo.bobS)])
      (run Demo.cfg Demo.hist1 Demo.start) := by
  refine ⟨Demo.reach1, Demo.claimants1 _ _, by decide +kernel, ?_⟩
  exact (C68_batch _ (by decide +kernel) (by decide +kernel) (Demo.claimants1 _ _)).1.2 (by decide +kernel)

end Dollar
