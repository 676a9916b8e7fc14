import Verif.Lemmas.ExtRun
import Verif.Lemmas.Ledger

/-
How far one index update can move the books of the external routes.
-/
set_option linter.unusedSimpArgs false
namespace Dollar
open MM

/-- External yield never falls and rises by at most `B`; amounts kept for retry on routes other than IBC channels
rise by at most `B`. -/
structure ExtNear (B : Int) (s s' : State) : Prop where
  ext : ∀ p id, s.extYieldOf p id ≤ s'.extYieldOf p id ∧ s'.extYieldOf p id ≤ s.extYieldOf p id + B
  retry : ∀ p id, p ≠ IBC → s'.retryOf p id ≤ s.retryOf p id + B

theorem ExtNear.of_eq {B : Int} {s s' : State} (hB : 0 ≤ B) (e1 : s'.extYield = s.extYield) (e2 : s'.retry = s.retry) :
    ExtNear B s s' := by
  refine ⟨fun p id => ?_, fun p id _ => ?_⟩
  · unfold State.extYieldOf; rw [e1]; omega
  · unfold State.retryOf; rw [e2]; omega

theorem ExtNear.of_route {B : Int} {s s' : State} (hB : 0 ≤ B) (h : routeF s' = routeF s) : ExtNear B s s' :=
  .of_eq hB (congrArg (fun x => x.1) h :) (congrArg (fun x => x.2.1) h :)

theorem yieldPortion_le {col total y : Int} (h1 : 0 ≤ col) (hle : col ≤ total) (h2 : 0 < total) (h3 : 0 ≤ y) :
    yieldPortion col total y ≤ y := by
  have hD : (0 : Int) < DEC := by decide
  unfold yieldPortion decTrunc decMulInt decQuoInt decOfInt
  have a0 : 0 ≤ (col * DEC).tdiv total := Int.tdiv_nonneg (mul_nonneg h1 hD.le) h2.le
  have a1 : (col * DEC).tdiv total ≤ DEC := by
    rw [Int.tdiv_eq_ediv_of_nonneg (mul_nonneg h1 hD.le)]
    calc col * DEC / total ≤ total * DEC / total :=
          Int.ediv_le_ediv h2 (mul_le_mul_of_nonneg_right hle hD.le)
      _ = DEC := by rw [mul_comm]; exact Int.mul_ediv_cancel _ h2.ne'
  rw [Int.tdiv_eq_ediv_of_nonneg (mul_nonneg a0 h3)]
  calc (col * DEC).tdiv total * y / DEC ≤ DEC * y / DEC :=
        Int.ediv_le_ediv hD (mul_le_mul_of_nonneg_right a1 h3)
    _ = y := by rw [mul_comm]; exact Int.mul_ediv_cancel _ hD.ne'

theorem le_totalCollateral {rs : List Route} (h : ∀ r ∈ rs, 0 ≤ r.collateral) {r : Route} (hr : r ∈ rs) :
    r.collateral ≤ totalCollateral rs := by
  unfold totalCollateral
  induction rs with
  | nil => cases hr
  | cons a t ih =>
    rw [List.map_cons, List.sum_cons]
    have h0 : 0 ≤ (t.map Route.collateral).sum := by
      refine List.sum_nonneg fun x hx => ?_
      obtain ⟨r', hr', rfl⟩ := List.mem_map.1 hx
      exact h r' (List.mem_cons_of_mem _ hr')
    rcases List.mem_cons.1 hr with rfl | hr
    · omega
    · have := ih (fun r hr => h r (List.mem_cons_of_mem _ hr)) hr
      have := h a List.mem_cons_self
      omega

theorem IbcRounds.near {c : Cfg} {env : Env} {recips : KV String String} {done : List String} {s s' : State} {B : Int}
    (h : IbcRounds c env recips done s s') (hg : ∀ x, 0 ≤ s.balance x) (hB0 : 0 ≤ B)
    (hB : ∀ ch ∈ done, s'.balance (c.escrowAddr ch) ≤ B) : ExtNear B s s' := by
  refine ⟨fun p id => ?_, fun p id hp => ?_⟩
  · rw [h.ext]
    split
    · next hh =>
      have := hB id hh.2
      have := h.esc id hh.2
      have := hg (c.escrowAddr id)
      have := claimable_nonneg s (c.escrowAddr id)
      omega
    · omega
  · rw [h.retry, if_neg fun hh => hp hh.1]
    omega

theorem HypRounds.near {c : Cfg} {env : Env} {recips : KV String String} {total y : Int} {done lost : List Route}
    {s s' : State} {B : Int} (h : HypRounds c env recips total y done lost s s') (hr : ∀ p i, 0 ≤ s.retryOf p i)
    (ht : 0 < total) (hy : 0 ≤ y) (hyB : y ≤ B) (hc0 : ∀ r ∈ done, 0 ≤ r.collateral ∧ r.collateral ≤ total) :
    ExtNear B s s' := by
  have hp : ∀ r ∈ done, 0 ≤ yieldPortion r.collateral total y ∧ yieldPortion r.collateral total y ≤ y := fun r hr =>
    ⟨yieldPortion_nonneg (hc0 r hr).1 ht hy, yieldPortion_le (hc0 r hr).1 (hc0 r hr).2 ht hy⟩
  refine ⟨fun p id => ?_, fun p id hpi => ?_⟩
  · by_cases hh : p = HYPERLANE ∧ id ∈ done.map Route.identifier
    · obtain ⟨rfl, hid⟩ := hh
      obtain ⟨r, hr', rfl⟩ := List.mem_map.1 hid
      rw [h.ext r hr']
      have := hp r hr'
      omega
    · rw [h.extOther p id (by tauto)]
      omega
  · by_cases hh : p = HYPERLANE ∧ id ∈ (done ++ lost).map Route.identifier
    · obtain ⟨rfl, hid⟩ := hh
      obtain ⟨r, hr', rfl⟩ := List.mem_map.1 hid
      have h0 := hr HYPERLANE r.identifier
      rcases List.mem_append.1 hr' with hr' | hr'
      · rw [h.retry r hr']
        have := hp r hr'
        unfold hypDue
        split <;> omega
      · rw [(h.lost r hr').1]
        omega
    · rw [h.other p id (by tauto)]
      omega

theorem ExtNear.of_moved {c : Cfg} {a b : Addr} {v B : Int} {s m s' : State} (h : Moved c s a b v m)
    (h' : ExtNear B m s') : ExtNear B s s' := by
  have e1 : m.extYield = s.extYield := h.extYield
  refine ⟨fun p id => ?_, fun p id hp => ?_⟩
  · have := h'.ext p id
    unfold State.extYieldOf at *
    rw [e1] at this
    exact this
  · have := h'.retry p id hp
    rw [h.retryOf] at this
    exact this

/-- The two parts touch different books. -/
theorem ExtNear.both {c : Cfg} {env : Env} {recips : KV String String} {done : List String} {s m s' : State} {B : Int}
    (h : IbcRounds c env recips done s m) (hn : ExtNear B s m) (h' : ExtNear B m s')
    (hI : ∀ id, s'.extYieldOf IBC id = m.extYieldOf IBC id) : ExtNear B s s' := by
  refine ⟨fun p id => ?_, fun p id hp => ?_⟩
  · by_cases hp : p = IBC
    · subst hp
      rw [hI]
      exact hn.ext IBC id
    · have := h'.ext p id
      have e := h.ext p id
      rw [if_neg fun hh => hp hh.1, add_zero] at e
      omega
  · have := h'.retry p id hp
    have e := h.retry p id
    rw [if_neg fun hh => hp hh.1] at e
    omega

theorem HypDone.near {c : Cfg} (hc : c.WF) {env : Env} {s s' : State} {B : Int} (hg : Good c s) (hB0 : 0 ≤ B)
    (h : HypDone c env s s') (hB : s'.balance c.warpAddr ≤ B) :
    ExtNear B s s' ∧ (∀ id, s'.extYieldOf IBC id = s.extYieldOf IBC id) ∧
      ∀ ch, s'.balance (c.escrowAddr ch) = s.balance (c.escrowAddr ch) := by
  obtain ⟨m, hm, h⟩ := h
  have hgm := hg.of_moved hm (claimable_nonneg s _)
  have hw : m.balance c.warpAddr = s.balance c.warpAddr + claimable s c.warpAddr := by
    rw [hm.bal, if_neg hc.warp_ne_yield, if_pos rfl]; omega
  have he : ∀ ch, m.balance (c.escrowAddr ch) = s.balance (c.escrowAddr ch) := fun ch =>
    hm.same (hc.escrow_ne_yield ch) (hc.escrow_ne_mod ch _)
  have hex : ∀ id, m.extYieldOf IBC id = s.extYieldOf IBC id := fun id => by
    unfold State.extYieldOf; rw [hm.extYield]
  rcases h with ⟨_, rfl⟩ | ⟨hpos, rs, hro, ⟨_, rfl⟩ | ⟨ht, hR⟩⟩
  · exact ⟨.of_moved hm (.of_eq hB0 rfl rfl), hex, he⟩
  · exact ⟨.of_moved hm (.of_eq hB0 rfl rfl), hex, he⟩
  · have hcol : ∀ r ∈ rs, 0 ≤ r.collateral := fun r hr => hg.col _ (KV.mem_of_get? (hro.2 r hr).1)
    refine ⟨.of_moved hm (hR.near hgm.retry ht hpos.le ?_ fun r hr => ⟨hcol r hr, le_totalCollateral hcol hr⟩), ?_, ?_⟩
    · have := hg.bal c.warpAddr
      rw [hR.bal] at hB
      omega
    · intro id
      rw [hR.extOther IBC id (.inl (by decide)), hex]
    · intro ch
      rw [hR.bal, he]

theorem HypFailed.near {c : Cfg} (hc : c.WF) {env : Env} {s s' : State} {B : Int} (hg : Good c s) (hB0 : 0 ≤ B)
    (h : HypFailed c env s s') (hB : s'.balance c.warpAddr ≤ B) :
    ExtNear B s s' ∧ (∀ id, s'.extYieldOf IBC id = s.extYieldOf IBC id) ∧
      ∀ ch, s'.balance (c.escrowAddr ch) = s.balance (c.escrowAddr ch) := by
  rcases h with rfl | ⟨m, hm, h⟩
  · exact ⟨.of_eq hB0 rfl rfl, fun _ => rfl, fun _ => rfl⟩
  have hgm := hg.of_moved hm (claimable_nonneg s _)
  have hw : m.balance c.warpAddr = s.balance c.warpAddr + claimable s c.warpAddr := by
    rw [hm.bal, if_neg hc.warp_ne_yield, if_pos rfl]; omega
  have he : ∀ ch, m.balance (c.escrowAddr ch) = s.balance (c.escrowAddr ch) := fun ch =>
    hm.same (hc.escrow_ne_yield ch) (hc.escrow_ne_mod ch _)
  have hex : ∀ id, m.extYieldOf IBC id = s.extYieldOf IBC id := fun id => by
    unfold State.extYieldOf; rw [hm.extYield]
  rcases h with rfl | ⟨hpos, rs, done, r, rest, hro, e, ht, hR⟩
  · exact ⟨.of_moved hm (.of_eq hB0 rfl rfl), hex, he⟩
  · have hcol : ∀ r ∈ rs, 0 ≤ r.collateral := fun r hr => hg.col _ (KV.mem_of_get? (hro.2 r hr).1)
    have hin : ∀ r ∈ done, r ∈ rs := fun r hr => by rw [e]; exact List.mem_append_left _ hr
    refine ⟨.of_moved hm (hR.near hgm.retry ht hpos.le ?_ fun r hr =>
      ⟨hcol r (hin r hr), le_totalCollateral hcol (hin r hr)⟩), ?_, ?_⟩
    · have := hg.bal c.warpAddr
      rw [hR.bal] at hB
      omega
    · intro id
      rw [hR.extOther IBC id (.inl (by decide)), hex]
    · intro ch
      rw [hR.bal, he]

theorem ExtDone.near {c : Cfg} (hc : c.WF) {env : Env} {i : Int} {s s' : State} {B : Int} (hB0 : 0 ≤ B)
    (hB : ∀ x, s'.balance x ≤ B) (h : ExtDone c env i s s') : ExtNear B s s' := by
  obtain ⟨m, m2, m3, hb, _, hI, hg2, hH, e⟩ := h
  have e1 : s'.bal = m3.bal := (congrArg State.bal e :)
  have hB3 : ∀ x, m3.balance x ≤ B := fun x => by have := hB x; unfold State.balance at *; rw [e1] at this; exact this
  obtain ⟨h1, h2, h3⟩ := hH.near hc hg2 hB0 (hB3 _)
  have h4 : ExtNear B m m2 := hI.near hb.good.bal hB0 fun ch _ => by rw [← h3]; exact hB3 _
  have h5 := h4.both hI h1 h2
  have f1 : m.extYield = s.extYield := (congrArg (fun x => x.1) hb.route :)
  have f2 : m.retry = s.retry := (congrArg (fun x => x.2.1) hb.route :)
  have f3 : s'.extYield = m3.extYield := (congrArg State.extYield e :)
  have f4 : s'.retry = m3.retry := (congrArg State.retry e :)
  refine ⟨fun p id => ?_, fun p id hp => ?_⟩
  · have := h5.ext p id
    unfold State.extYieldOf at *
    rw [f3, ← f1]
    exact this
  · have := h5.retry p id hp
    unfold State.retryOf at *
    rw [f4, ← f2]
    exact this

theorem ExtFailed.near {c : Cfg} (hc : c.WF) {env : Env} {i : Int} {s s' : State} {B : Int} (hB0 : 0 ≤ B)
    (hB : ∀ x, s'.balance x ≤ B) (h : ExtFailed c env i s s') : ExtNear B s s' := by
  rcases h with h | ⟨m, hb, _, h⟩
  · exact .of_route hB0 h
  have key : ExtNear B m s' := by
    rcases h with ⟨done, _, hI⟩ | ⟨m2, hI, hg2, hH⟩
    · exact hI.near hb.good.bal hB0 fun ch _ => hB _
    · obtain ⟨h1, h2, h3⟩ := hH.near hc hg2 hB0 (hB _)
      exact (hI.near hb.good.bal hB0 fun ch _ => by rw [← h3]; exact hB _).both hI h1 h2
  have f1 : m.extYield = s.extYield := (congrArg (fun x => x.1) hb.route :)
  have f2 : m.retry = s.retry := (congrArg (fun x => x.2.1) hb.route :)
  refine ⟨fun p id => ?_, fun p id hp => ?_⟩
  · have := key.ext p id
    unfold State.extYieldOf at *
    rw [← f1]
    exact this
  · have := key.retry p id hp
    unfold State.retryOf at *
    rw [← f2]
    exact this

end Dollar
