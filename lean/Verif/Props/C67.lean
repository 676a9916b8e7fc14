import Verif.Props.C54
import Verif.Props.C56
import Verif.Props.C42

/-
C67: no group of users can make money by paying each other: a payment brings the group at most the
value of one unit of principal.
-/
set_option maxRecDepth 100000
namespace Dollar
open MM Spec

/-- What an account holds, in units of principal: its principal, or its balance at the current index
(rounded up) if that is more. -/
def Spec.stake (s : State) (a : Addr) : Int :=
  max (s.principalOf a) (-(-(10 ^ 12 * s.balance a) / s.index))

/-- What a group of accounts holds, in units of principal. -/
def Spec.groupStake (s : State) (G : List Addr) : Int := (G.map (stake s)).sum

/-- What a group of accounts is worth in coins, claimable yield included. -/
def Spec.groupWorth (s : State) (G : List Addr) : Int := (G.map (worth s)).sum

/-- The message brings coins into the group from outside: a payment by an outsider, an incoming
IBC, Hyperlane or portal transfer, a refund, or an unlock from a vault. -/
def Spec.bringsIn (c : Cfg) (env : Env) (G : List Addr) : Msg → Prop
  | .bankSend x y _ | .keeperSend x y _ => x ∉ G ∧ y ∈ G
  | .bankMultiSend x outs => x ∉ G ∧ ∃ o ∈ outs, o.1 ∈ G
  | .ibcReceive _ r _ => r ∈ G
  | .ibcTimeout p | .ibcAckError p => p.sender ∈ G
  | .warpReceive _ r _ => r ∈ G
  | .unlock signer .. => ∃ a ∈ G, c.decode signer = some a
  | .deliver vaa => ∃ a ∈ G, ∃ n i ch t, content env vaa = some (.token n i a ch t)
  | _ => False

/-- How many payments members of the group made along a history (each output of a multi-send is one). -/
def Spec.groupPayments (c : Cfg) (G : List Addr) (h : History) (s : State) : Int :=
  (G.map fun a => (roundings c a h s : Int)).sum

/-! ### Sums over a group -/

theorem sum_add_at {G : List Addr} (hG : G.Nodup) (f : Addr → Int) (x : Addr) (p : Int) :
    (G.map fun a => f a + (if a = x then p else 0)).sum = (G.map f).sum + (if x ∈ G then p else 0) := by
  induction G with
  | nil => simp
  | cons a t ih =>
    rw [List.nodup_cons] at hG
    simp only [List.map_cons, List.sum_cons, List.mem_cons]
    rw [ih hG.2]
    by_cases e : a = x
    · have nx : x ∉ t := e ▸ hG.1
      rw [if_pos e, if_neg nx, if_pos (Or.inl e.symm)]
      omega
    · have : (x = a ∨ x ∈ t) ↔ x ∈ t := ⟨fun h => h.resolve_left (fun e' => e e'.symm), Or.inr⟩
      rw [if_neg e, if_congr this rfl rfl]
      omega

theorem sum_sub_add {G : List Addr} (hG : G.Nodup) (f g : Addr → Int) (x y : Addr) (p q : Int)
    (h : ∀ a ∈ G, g a = f a - (if a = x then p else 0) + (if a = y then q else 0)) :
    (G.map g).sum = (G.map f).sum - (if x ∈ G then p else 0) + (if y ∈ G then q else 0) := by
  have e : G.map g = G.map fun a => (f a + (if a = x then -p else 0)) + (if a = y then q else 0) :=
    List.map_congr_left fun a ha => by
      rw [h a ha]
      split <;> omega
  rw [e, sum_add_at hG _ y q, sum_add_at hG _ x (-p)]
  split <;> omega

theorem sum_le_sum {G : List Addr} {f g : Addr → Int} (h : ∀ a ∈ G, g a ≤ f a) :
    (G.map g).sum ≤ (G.map f).sum := by
  induction G with
  | nil => simp
  | cons a t ih =>
    have h1 := ih fun b hb => h b (List.mem_cons_of_mem _ hb)
    have h2 := h a List.mem_cons_self
    simp only [List.map_cons, List.sum_cons]
    omega

theorem sum_map_add (G : List Addr) (f g : Addr → Int) :
    (G.map fun a => f a + g a).sum = (G.map f).sum + (G.map g).sum := by
  induction G with
  | nil => simp
  | cons a t ih => simp only [List.map_cons, List.sum_cons]; rw [ih]; omega

/-- The outputs of a multi-send give a group at most what the sender pays. -/
theorem outs_in_group {G : List Addr} (hG : G.Nodup) (outs : List (Addr × Int)) (f : Int → Int)
    (h0 : ∀ o ∈ outs, 0 ≤ f o.2) :
    (G.map fun a => (outs.map fun o => if o.1 = a then f o.2 else 0).sum).sum ≤
      (outs.map fun o => f o.2).sum := by
  induction outs with
  | nil =>
    have : (G.map fun a => ((([] : List (Addr × Int)).map fun o => if o.1 = a then f o.2 else 0).sum)).sum = 0 := by
      induction G with
      | nil => rfl
      | cons a t ih =>
        rw [List.nodup_cons] at hG
        simp only [List.map_cons, List.sum_cons, List.map_nil, List.sum_nil] at ih ⊢
        rw [ih hG.2]; rfl
    simp only [this]; simp
  | cons o t ih =>
    have h1 := ih fun o ho => h0 o (List.mem_cons_of_mem _ ho)
    have h2 := h0 o List.mem_cons_self
    have h3 := sum_sub_add hG (fun a => (t.map fun o => if o.1 = a then f o.2 else 0).sum)
      (fun a => ((o :: t).map fun o => if o.1 = a then f o.2 else 0).sum) o.1 o.1 0 (f o.2) (by
        intro a _
        simp only [List.map_cons, List.sum_cons]
        by_cases e : a = o.1
        · rw [if_pos e.symm, if_pos e, if_pos e]; omega
        · rw [if_neg (Ne.symm e), if_neg e, if_neg e]; omega)
    rw [h3]
    simp only [List.map_cons, List.sum_cons]
    split <;> omega

/-! ### The principal of a group -/

def groupPrincipal (s : State) (G : List Addr) : Int := (G.map s.principalOf).sum

/-- A payment by a member never adds to the principal of the group. -/
theorem Moved.group {c : Cfg} {s s' : State} {x y : Addr} {v : Int} (hm : Moved c s x y v s')
    (hux : c.IsUser x) (h0 : 0 ≤ v) (hi : 0 < s.index) {G : List Addr} (hG : G.Nodup) (hx : x ∈ G) :
    groupPrincipal s' G ≤ groupPrincipal s G := by
  by_cases hv : v = 0
  · rw [hm.zero hv]
  by_cases hy : y = c.yieldAddr
  · unfold groupPrincipal State.principalOf; rw [(hm.skip (.inr hy)).1]
  have hp := hm.prin hv hux.ne_yield hy
  have hu := up_nonneg h0 hi
  have := sum_sub_add hG s.principalOf s'.principalOf x y (roundedUp v s.index)
    (if y ≠ c.moduleAddr then roundedUp v s.index else 0) (by
      intro a _
      rw [hp a]
      have e1 : (if a = x ∧ x ≠ c.moduleAddr then roundedUp v s.index else 0) =
        if a = x then roundedUp v s.index else 0 := if_congr (and_iff_left hux.ne_module) rfl rfl
      have e2 : (if a = y ∧ y ≠ c.moduleAddr then
          (if x = c.moduleAddr then roundedDown v s.index else roundedUp v s.index) else 0) =
        if a = y then (if y ≠ c.moduleAddr then roundedUp v s.index else 0) else 0 := by
        rw [if_neg hux.ne_module, ite_and]
      rw [e1, e2])
  unfold groupPrincipal
  rw [this, if_pos hx]
  split <;> (try split) <;> omega

theorem groupPrincipal_congr {s s' : State} (h : s'.principal = s.principal) (G : List Addr) :
    groupPrincipal s' G = groupPrincipal s G := by
  unfold groupPrincipal State.principalOf; rw [h]

/-- A message that brings nothing into the group does not add to the principal of the group. -/
theorem exec_group {c : Cfg} (hc : c.WF) {env : Env} {m : Msg} {s s' : State} {G : List Addr}
    (hG : G.Nodup) (hu : ∀ a ∈ G, c.IsUser a) (hcol : s.collector ∉ G) (hno : ¬ bringsIn c env G m)
    (hl : Led c s) (hm : m.SignedByUser c) (h : exec c env m s = .ok () s') :
    groupPrincipal s' G ≤ groupPrincipal s G := by
  have same : (∀ a ∈ G, ¬ movesOf c env a m) → groupPrincipal s' G ≤ groupPrincipal s G := by
    intro hn
    refine sum_le_sum fun a ha => ?_
    have := exec_untouched hc (hu a ha) (fun e => hcol (e ▸ ha)) (hn a ha) hl hm h
    exact (congrArg Prod.snd this).le
  by_cases hmv : ∀ a ∈ G, ¬ movesOf c env a m
  · exact same hmv
  push Not at hmv
  obtain ⟨a, haG, hmv⟩ := hmv
  have hi := hl.good.index
  cases m with
  | claimYield signer =>
    obtain ⟨_, d, m, hd, hb, hmv, rfl⟩ := claimYield_ok h
    exact (groupPrincipal_congr (hmv.skip (.inl rfl)).1 G).le
  | deliver vaa =>
    obtain ⟨n, i, ch, t, e⟩ := hmv
    exact absurd ⟨a, haG, n, i, ch, t, e⟩ hno
  | transfer signer amt? ch t r =>
    have hd : c.decode signer = some a := hmv
    obtain ⟨amt, _, hk⟩ := transfer_ok h
    obtain ⟨peer, sender, m, _, hd', _, _, hb, e⟩ := hk.run
    rw [hd] at hd'; cases hd'
    obtain ⟨m1, hm1, hle, rfl⟩ := hb.mid
    have h1 := hm1.group (hu a haG) hb.nonneg hi hG haG
    rw [e]
    exact h1
  | lock signer v amt? =>
    have hd : c.decode signer = some a := hmv
    obtain ⟨amt, d, _, hk⟩ := lock_ok h
    obtain ⟨m, hmv, rfl⟩ := hk.run
    have hd' := hk.dec
    rw [hd] at hd'; cases hd'
    exact hmv.group (hu a haG) hk.nonneg hi hG haG
  | unlock signer v amt? => exact absurd ⟨a, haG, hmv⟩ hno
  | bankSend d b amt =>
    obtain ⟨h0, hb, hmv'⟩ := bankSend_ok h
    have hd : d ∈ G := by
      rcases hmv with e | e
      · exact e ▸ haG
      · by_contra hn
        exact hno ⟨hn, e ▸ haG⟩
    exact hmv'.group (hu d hd) h0.le hi hG hd
  | keeperSend d b amt =>
    obtain ⟨h0, hmv'⟩ := keeperSend_ok h
    have hd : d ∈ G := by
      rcases hmv with e | e
      · exact e ▸ haG
      · by_contra hn
        exact hno ⟨hn, e ▸ haG⟩
    exact hmv'.group (hu d hd) h0 hi hG hd
  | bankMultiSend d outs =>
    have hud : c.IsUser d := hm
    have hd : d ∈ G := by
      rcases hmv with e | ⟨o, ho, e⟩
      · exact e ▸ haG
      · by_contra hn
        exact hno ⟨hn, o, ho, e ▸ haG⟩
    have mm := bankMultiSend_ok hc hud.ne_yield hud.ne_module hi.ne'
      (show bankMultiSend c d outs s = .ok () s' from h)
    have h1 := outs_in_group hG outs (fun v => roundedUp v s.index)
      (fun o ho => up_nonneg (mm.pos o ho).le hi)
    have h2 := sum_sub_add hG (fun a => s.principalOf a +
        (outs.map fun o => if o.1 = a then roundedUp o.2 s.index else 0).sum) s'.principalOf d d
      (outs.map fun o => roundedUp o.2 s.index).sum 0 (by
        intro a _
        rw [mm.prinEq a]
        split <;> omega)
    rw [sum_map_add, if_pos hd, if_pos hd] at h2
    unfold groupPrincipal
    omega
  | ibcTransfer d ch r amt =>
    have hd : d = a := hmv
    subst hd
    obtain ⟨h0, _, m, hmv, rfl⟩ := userIbcTransfer_ok h
    exact hmv.group (hu d haG) h0.le hi hG haG
  | ibcReceive ch r amt => exact absurd (show r ∈ G from (show r = a from hmv) ▸ haG) hno
  | ibcTimeout p => exact absurd (show p.sender ∈ G from (show p.sender = a from hmv) ▸ haG) hno
  | ibcAckError p => exact absurd (show p.sender ∈ G from (show p.sender = a from hmv) ▸ haG) hno
  | warpTransfer d t dom r amt =>
    have hd : d = a := hmv
    subst hd
    obtain ⟨h0, col, m, hcol, hmv, rfl⟩ := warpSend_ok h
    exact hmv.group (hu d haG) h0.le hi hG haG
  | warpReceive t d amt => exact absurd (show d ∈ G from (show d = a from hmv) ▸ haG) hno
  | _ => exact absurd hmv id

/-! ### Stake -/

theorem ceil_le_iff {x i q : Int} (hi : 0 < i) : -(-x / i) ≤ q ↔ x ≤ i * q := by
  have h1 : -q ≤ -x / i ↔ -q * i ≤ -x := Int.le_ediv_iff_mul_le hi
  have e : -q * i = -(i * q) := by ring
  rw [e] at h1
  constructor
  · intro h
    have := h1.1 (by omega)
    omega
  · intro h
    have := h1.2 (by omega)
    omega

theorem stake_le {s : State} {a : Addr} {n : Int} (hn : 0 ≤ n) (h : Owed a n s) :
    stake s a ≤ s.principalOf a + n :=
  max_le (by omega) ((ceil_le_iff h.index).2 h.debt)

theorem owed_stake {s : State} {a : Addr} (hi : 0 < s.index) (hb : 0 ≤ s.balance a) :
    Owed a (stake s a - s.principalOf a) s := by
  refine ⟨hi, hb, ?_⟩
  have := (ceil_le_iff hi).1 (show -(-(10 ^ 12 * s.balance a) / s.index) ≤ stake s a from le_max_right _ _)
  rw [show s.principalOf a + (stake s a - s.principalOf a) = stake s a by omega]
  exact this

/-- What an account is worth is at most its stake at the current index. -/
theorem worth_le_stake {s : State} {a : Addr} (hi : 0 < s.index) :
    10 ^ 12 * worth s a ≤ stake s a * s.index := by
  unfold worth
  have h1 := (ceil_le_iff hi).1 (show -(-(10 ^ 12 * s.balance a) / s.index) ≤ stake s a from le_max_right _ _)
  rw [mul_comm s.index] at h1
  have h2 : s.principalOf a * s.index ≤ stake s a * s.index :=
    mul_le_mul_of_nonneg_right (le_max_left _ _) hi.le
  rcases max_cases (s.balance a) (s.principalOf a * s.index / 10 ^ 12) with ⟨e, _⟩ | ⟨e, _⟩ <;> rw [e]
  · exact h1
  · omega

theorem run_group {c : Cfg} (hc : c.WF) {G : List Addr} (hG : G.Nodup) (hu : ∀ a ∈ G, c.IsUser a)
    (h : History) {s : State} (hcol : s.collector ∉ G) (hl : Led c s) (hsig : History.Signed c h)
    (hno : ∀ e ∈ h, ¬ bringsIn c e.1 G e.2) : groupPrincipal (run c h s) G ≤ groupPrincipal s G := by
  induction h generalizing s with
  | nil => exact le_refl _
  | cons e t ih =>
    obtain ⟨env, m⟩ := e
    have hm : m.SignedByUser c := hsig (env, m) List.mem_cons_self
    have hc1 : (step c env m s).collector = s.collector := (C10_fixed_settings c [(env, m)] s).2
    have h1 := ih (s := step c env m s) (by rw [hc1]; exact hcol) (hl.step hc hm)
      (fun e he => hsig e (List.mem_cons_of_mem _ he)) (fun e he => hno e (List.mem_cons_of_mem _ he))
    refine le_trans h1 ?_
    rcases step_cases c env m s with h | h
    · rw [h]
    · exact exec_group hc hG hu hcol (hno _ List.mem_cons_self) hl hm h

/-- Whatever a group of users does among themselves, and whatever the rest of the world does short of
paying into the group: what the group holds, in units of principal, grows by at most one unit per
payment made by a member. -/
theorem C67_stake {c : Cfg} (hc : c.WF) {s : State} (hr : Reachable c s) {G : List Addr} (hG : G.Nodup)
    (hu : ∀ a ∈ G, c.IsUser a) (hcol : s.collector ∉ G) {h : History} (hsig : History.Signed c h)
    (hno : ∀ e ∈ h, ¬ bringsIn c e.1 G e.2) :
    groupStake (run c h s) G ≤ groupStake s G + groupPayments c G h s := by
  have hl := hr.led hc
  have h1 := run_group hc hG hu h hcol hl hsig hno
  have h2 : groupStake (run c h s) G ≤
      (G.map fun a => ((run c h s).principalOf a + (stake s a - s.principalOf a)) + (roundings c a h s : Int)).sum := by
    refine sum_le_sum fun a ha => ?_
    have hn : 0 ≤ stake s a - s.principalOf a := by
      have : s.principalOf a ≤ stake s a := le_max_left _ _
      omega
    have := stake_le (n := stake s a - s.principalOf a + roundings c a h s) (by omega)
      (run_owed hc (hu a ha) h hn hl hsig (owed_stake hl.good.index (hl.good.bal a)))
    omega
  rw [sum_map_add, sum_map_add] at h2
  have h3 : (G.map fun a => stake s a - s.principalOf a).sum + groupPrincipal s G = groupStake s G := by
    unfold groupPrincipal groupStake
    rw [← sum_map_add]
    exact congrArg List.sum (List.map_congr_left fun a _ => by omega)
  have h4 : (G.map (run c h s).principalOf).sum = groupPrincipal (run c h s) G := rfl
  rw [h4] at h2
  unfold groupPayments
  omega

/-- In coins: what the group is worth afterwards, claimable yield included, is at most what its
original holdings would be worth at the new index had it done nothing, plus the value of one unit of
principal (the index divided by `10 ^ 12`) for each payment by a member. -/
theorem C67_worth {c : Cfg} (hc : c.WF) {s : State} (hr : Reachable c s) {G : List Addr} (hG : G.Nodup)
    (hu : ∀ a ∈ G, c.IsUser a) (hcol : s.collector ∉ G) {h : History} (hsig : History.Signed c h)
    (hno : ∀ e ∈ h, ¬ bringsIn c e.1 G e.2) :
    10 ^ 12 * groupWorth (run c h s) G ≤
      (groupStake s G + groupPayments c G h s) * (run c h s).index := by
  have hi : 0 < (run c h s).index := Reachable.index_pos hc (hr.run hsig)
  have h1 : 10 ^ 12 * groupWorth (run c h s) G ≤ groupStake (run c h s) G * (run c h s).index := by
    unfold groupWorth groupStake
    generalize run c h s = t at *
    clear hu hno hcol hG
    induction G with
    | nil => simp
    | cons a l ih =>
      have := worth_le_stake (a := a) hi
      simp only [List.map_cons, List.sum_cons]
      rw [mul_add, add_mul]
      omega
  exact le_trans h1 (mul_le_mul_of_nonneg_right (C67_stake hc hr hG hu hcol hsig hno) hi.le)

namespace Demo

/-- Alice pays bob one unit at index 3, then the index is raised. -/
def histPair : History := [(env3 2, .bankSend alice bob 1), (env3 3, .deliver [2])]

theorem histPair_signed : History.Signed cfg histPair := by
  intro e he
  simp only [histPair, List.mem_cons, List.not_mem_nil, or_false] at he
  rcases he with rfl | rfl
  · exact alice_user
  · trivial

def pairStart : State := run cfg [(env3 1, .deliver [1])] start3

theorem pairStart_reachable : Reachable cfg pairStart :=
  .of_run (h := [(env3 1, .deliver [1])]) start3_initial fun e he => by
    rw [List.mem_singleton] at he; subst he; trivial

theorem pair_closed : ∀ e ∈ histPair, ¬ bringsIn cfg e.1 [alice, bob] e.2 := by
  intro e he
  simp only [histPair, List.mem_cons, List.not_mem_nil, or_false] at he
  rcases he with rfl | rfl
  · rintro ⟨h, _⟩
    exact h List.mem_cons_self
  · rintro ⟨a, _, n, i, ch, t, h⟩
    have : content (env3 3) [2] = some (.index 3000000000001 4009) := by decide +kernel
    rw [this] at h
    exact absurd h (by simp)

end Demo

/-- Non-vacuity, and the bound is met: alice and bob hold 100 units of principal (300 coins at index
3); after one payment of one coin between them they hold 101 and are worth 302. -/
example : Reachable Demo.cfg Demo.pairStart ∧ [Demo.alice, Demo.bob].Nodup ∧
    (∀ a ∈ [Demo.alice, Demo.bob], Demo.cfg.IsUser a) ∧
    Demo.pairStart.collector ∉ [Demo.alice, Demo.bob] ∧ History.Signed Demo.cfg Demo.histPair ∧
    (∀ e ∈ Demo.histPair, ¬ bringsIn Demo.cfg e.1 [Demo.alice, Demo.bob] e.2) ∧
    groupPayments Demo.cfg [Demo.alice, Demo.bob] Demo.histPair Demo.pairStart = 1 ∧
    groupStake Demo.pairStart [Demo.alice, Demo.bob] = 100 ∧
    groupStake (run Demo.cfg Demo.histPair Demo.pairStart) [Demo.alice, Demo.bob] = 101 ∧
    groupWorth Demo.pairStart [Demo.alice, Demo.bob] = 300 ∧
    groupWorth (run Demo.cfg Demo.histPair Demo.pairStart) [Demo.alice, Demo.bob] = 302 := by
  refine ⟨Demo.pairStart_reachable, by decide, ?_, by decide +kernel, Demo.histPair_signed,
    Demo.pair_closed, by decide +kernel, by decide +kernel, by decide +kernel, by decide +kernel,
    by decide +kernel⟩
  intro a ha
  simp only [List.mem_cons, List.not_mem_nil, or_false] at ha
  rcases ha with rfl | rfl
  · exact Demo.alice_user
  · exact Demo.bob_user

end Dollar
