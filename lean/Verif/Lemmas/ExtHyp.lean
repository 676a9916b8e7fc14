import Verif.Lemmas.ExtIbc

/-
The exact effect of one round of Hyperlane yield distribution.
-/
set_option linter.unusedSimpArgs false
namespace Dollar
open MM

/-- What is due on a route: its portion plus its retry amount. -/
def hypDue (total y : Int) (s : State) (r : Route) : Int :=
  yieldPortion r.collateral total y + s.retryOf HYPERLANE r.identifier

/-- The transfer on a route takes place. -/
def hypGoes (c : Cfg) (env : Env) (total y : Int) (s : State) (r : Route) : Prop :=
  env.warp r.tokenId = .success ∧ 0 < hypDue total y s r ∧ hypDue total y s r ≤ s.balance c.warpAddr

instance (c : Cfg) (env : Env) (total y : Int) (s : State) (r : Route) :
    Decidable (hypGoes c env total y s r) := by unfold hypGoes; infer_instance

/-- The message of a route. -/
def hypMsg (c : Cfg) (env : Env) (recips : KV String String) (total y : Int) (s : State) (r : Route) :
    WarpOut :=
  ⟨r.tokenId, (env.routers r.tokenId).headD 0,
    (c.hexAddr ((recips.get? r.identifier).getD "")).getD [], hypDue total y s r⟩

/-- A route on which the second pass stops with an error. -/
def Broken (c : Cfg) (env : Env) (recips : KV String String) (r : Route) : Prop :=
  (∀ d, env.routers r.tokenId ≠ [d]) ∨ c.hexAddr ((recips.get? r.identifier).getD "") = none

/-- The routes `done` had their round, the retry amounts of `lost` were dropped, everything else
was left alone. -/
structure HypRounds (c : Cfg) (env : Env) (recips : KV String String) (total y : Int)
    (done lost : List Route) (s s' : State) : Prop where
  bal : ∀ x, s'.balance x = s.balance x
  prin : ∀ x, s'.principalOf x = s.principalOf x
  index : s'.index = s.index
  recipients : s'.recipients = s.recipients
  ibcOut : s'.ibcOut = s.ibcOut
  vouchers : s'.vouchers = s.vouchers
  out : s'.warpOut = s.warpOut ++ done.flatMap fun r =>
    if hypGoes c env total y s r then [hypMsg c env recips total y s r] else []
  other : ∀ p id, (p ≠ HYPERLANE ∨ id ∉ (done ++ lost).map Route.identifier) →
    s'.retryOf p id = s.retryOf p id
  extOther : ∀ p id, (p ≠ HYPERLANE ∨ id ∉ done.map Route.identifier) →
    s'.extYieldOf p id = s.extYieldOf p id
  retry : ∀ r ∈ done, s'.retryOf HYPERLANE r.identifier =
    if hypGoes c env total y s r then 0 else hypDue total y s r
  ext : ∀ r ∈ done, s'.extYieldOf HYPERLANE r.identifier =
    s.extYieldOf HYPERLANE r.identifier + yieldPortion r.collateral total y
  lost : ∀ r ∈ lost, s'.retryOf HYPERLANE r.identifier = 0 ∧ Broken c env recips r ∧
    0 < hypDue total y s r
  sound : ∀ r ∈ done, 0 < hypDue total y s r → ¬ Broken c env recips r

theorem HypRounds.refl (c : Cfg) (env : Env) (recips : KV String String) (total y : Int) (s : State) :
    HypRounds c env recips total y [] [] s s where
  bal := fun _ => rfl
  prin := fun _ => rfl
  index := rfl
  recipients := rfl
  ibcOut := rfl
  vouchers := rfl
  out := by simp
  other := fun _ _ _ => rfl
  extOther := fun _ _ _ => rfl
  retry := nofun
  ext := nofun
  lost := nofun
  sound := nofun

theorem yieldPortion_nonneg {col total y : Int} (h1 : 0 ≤ col) (h2 : 0 < total) (h3 : 0 ≤ y) :
    0 ≤ yieldPortion col total y := by
  unfold yieldPortion decTrunc decMulInt decQuoInt decOfInt
  exact Int.tdiv_nonneg (mul_nonneg (Int.tdiv_nonneg (mul_nonneg h1 (by decide)) h2.le) h3) (by decide)

/-- The state after a warp transfer attempt from the warp account to itself. -/
structure WarpTried (c : Cfg) (goes : Prop) [Decidable goes] (w : WarpOut) (s s' : State) : Prop where
  bal : ∀ x, s'.balance x = s.balance x
  prin : ∀ x, s'.principalOf x = s.principalOf x
  index : s'.index = s.index
  recipients : s'.recipients = s.recipients
  ibcOut : s'.ibcOut = s.ibcOut
  vouchers : s'.vouchers = s.vouchers
  extYield : s'.extYield = s.extYield
  retry : s'.retry = s.retry
  out : s'.warpOut = s.warpOut ++ (if goes then [w] else [])

theorem warpTransfer_tried {c : Cfg} (hc : c.WF) (env : Env) (r : Route) (d : Nat) (rcp : Bytes)
    (amt : Int) (s : State) (hi : s.index ≠ 0) :
    wp (warpTransfer c env r d rcp amt) s
      (fun _ s' => (env.warp r.tokenId = .success ∧ (amt = 0 ∨ amt ≤ s.balance c.warpAddr)) ∧
        WarpTried c True ⟨r.tokenId, d, rcp, amt⟩ s s')
      (fun _ s' => ¬ (env.warp r.tokenId = .success ∧ amt ≤ s.balance c.warpAddr) ∧
        WarpTried c False ⟨r.tokenId, d, rcp, amt⟩ s s') := by
  have hmod := hc.warp_ne_module
  have h0 : WarpTried c False ⟨r.tokenId, d, rcp, amt⟩ s s :=
    ⟨fun _ => rfl, fun _ => rfl, rfl, rfl, rfl, rfl, rfl, rfl, by simp⟩
  have hmv : ∀ m col out, Moved c s c.warpAddr c.warpAddr amt m → ∀ (g : Prop) [Decidable g],
      out = s.warpOut ++ (if g then [⟨r.tokenId, d, rcp, amt⟩] else []) →
      WarpTried c g ⟨r.tokenId, d, rcp, amt⟩ s { m with collateral := col, warpOut := out } := by
    intro m col out hm g _ ho
    exact ⟨hm.self, hm.self_prin hmod, hm.index, hm.recipients, hm.ibcOut, hm.vouchers,
      hm.extYield, hm.retry, ho⟩
  unfold warpTransfer
  cases henv : env.warp r.tokenId with
  | failEarly => exact ⟨(fun h => nomatch h.1), h0⟩
  | failLate =>
    refine wp.seq (sendCoins_wp c _ _ _ s) ?_ ?_
    · intro _ m hm
      refine ⟨(fun h => nomatch h.1), ?_⟩
      exact hmv m _ m.warpOut hm False (by rw [hm.warpOut]; simp)
    · intro _ m hf
      rw [hf.of_ne hc.warp_ne_yield]
      exact ⟨(fun h => nomatch h.1), h0⟩
  | success =>
    refine wp.seq (sendCoins_wp c _ _ _ s) ?_ ?_
    · intro _ m hm
      refine ⟨⟨rfl, hm.enough⟩, ?_⟩
      exact hmv m _ _ hm True (by rw [← hm.warpOut]; simp)
    · intro _ m hf
      have hlt : s.balance c.warpAddr < amt := by
        rcases hf with hf | hf
        · exact hf.2
        · exact absurd hf.2.1 hc.warp_ne_yield
      rw [hf.of_ne hc.warp_ne_yield]
      refine ⟨fun h => ?_, h0⟩
      have := h.2
      omega

theorem hypRouter_wp (env : Env) (t : Nat) (s : State) :
    wp (hypRouter env t) s (fun d s' => s' = s ∧ env.routers t = [d])
      (fun _ s' => s' = s ∧ ∀ d, env.routers t ≠ [d]) := by
  unfold hypRouter
  split
  · next d h => exact ⟨rfl, h⟩
  · next h => exact ⟨rfl, fun d e => h d e⟩

/-- One iteration of the second Hyperlane loop. -/
theorem hypOne_round {c : Cfg} (hc : c.WF) (env : Env) (recips : KV String String) (total y : Int)
    (r : Route) (hr : 0 ≤ r.collateral) (ht : 0 < total) (hy : 0 ≤ y) {s : State} (hg : Good c s) :
    wp (hypOne c env recips total y r) s
      (fun _ s' => HypRounds c env recips total y [r] [] s s')
      (fun _ s' => HypRounds c env recips total y [] [r] s s') := by
  unfold hypOne
  simp only
  have hr0 := hg.retry HYPERLANE r.identifier
  have hpn := yieldPortion_nonneg hr ht hy
  obtain ⟨t1, t2, t3, t4⟩ := retryTaken_fields s HYPERLANE r.identifier
  have hdue : hypDue total y s r = yieldPortion r.collateral total y + s.retryOf HYPERLANE r.identifier := rfl
  simp only [wp.bind_iff]
  unfold wp
  simp only [takeRetry_eq]
  generalize hs1 : retryTaken s HYPERLANE r.identifier = s1 at t1 t2 t3 t4
  have hb1 : ∀ x, s1.balance x = s.balance x := by
    intro x; rw [← hs1]; unfold State.balance; rw [retryTaken_bal]
  have hp1 : ∀ x, s1.principalOf x = s.principalOf x := by
    intro x; rw [← hs1]; unfold State.principalOf; rw [retryTaken_principal]
  have hv1 : s1.vouchers = s.vouchers := by rw [← hs1, retryTaken_vouchers]
  have ho1 : s1.ibcOut = s.ibcOut := by rw [← hs1, retryTaken_ibcOut]
  have hr1 : ∀ p x, s1.retryOf p x = if (p, x) = (HYPERLANE, r.identifier) then 0 else s.retryOf p x := by
    intro p x; rw [← hs1, retryTaken_retryOf s _ _ hr0]
  rw [← hdue]
  have hoth : ∀ p id, (p ≠ HYPERLANE ∨ id ∉ [r].map Route.identifier) → s1.retryOf p id = s.retryOf p id := by
    intro p id h
    rw [hr1, if_neg]
    intro e
    simp only [Prod.mk.injEq] at e
    rcases h with h | h
    · exact h e.1
    · exact h (by simp [e.2])
  have hself : s1.retryOf HYPERLANE r.identifier = 0 := by rw [hr1]; simp
  have hex : ∀ p id, s1.extYieldOf p id = s.extYieldOf p id := by
    intro p id; unfold State.extYieldOf; rw [t4]
  by_cases hpos : 0 < hypDue total y s r
  swap
  · simp only [hpos, if_false, pure_apply]
    have e0 : yieldPortion r.collateral total y = 0 := by omega
    have hng : ¬ hypGoes c env total y s r := fun h => hpos h.2.1
    refine ⟨hb1, hp1, t1, t2, ho1, hv1, by rw [t3]; simp [hng], hoth, fun p id _ => hex p id, ?_, ?_, nofun, ?_⟩
    · intro q hq
      cases List.mem_singleton.1 hq
      rw [hself, if_neg hng]; omega
    · intro q hq
      cases List.mem_singleton.1 hq
      rw [hex, e0]; omega
    · intro q hq
      cases List.mem_singleton.1 hq
      exact fun h => absurd h hpos
  simp only [hpos, if_true]
  have hlost : Broken c env recips r → HypRounds c env recips total y [] [r] s s1 := by
    intro hbr
    refine ⟨hb1, hp1, t1, t2, ho1, hv1, by rw [t3]; simp, hoth, fun p id _ => hex p id, nofun, nofun, ?_, nofun⟩
    intro q hq
    cases List.mem_singleton.1 hq
    exact ⟨hself, hbr, hpos⟩
  simp only [bind_apply]
  have hrt := hypRouter_wp env r.tokenId s1
  unfold wp at hrt
  cases hrx : hypRouter env r.tokenId s1 with
  | panic => trivial
  | err e s2 =>
    rw [hrx] at hrt
    obtain ⟨rfl, hrt⟩ := hrt
    exact hlost (.inl hrt)
  | ok d s2 =>
    rw [hrx] at hrt
    obtain ⟨rfl, hrt⟩ := hrt
    simp only
    cases hhex : c.hexAddr ((recips.get? r.identifier).getD "") with
    | none => exact hlost (.inr hhex)
    | some rcp =>
      simp only [bind_apply]
      have hgood : ¬ Broken c env recips r := by
        rintro (h | h)
        · exact h d hrt
        · rw [hhex] at h; cases h
      have hi2 : s2.index ≠ 0 := by rw [t1]; exact hg.index.ne'
      have hw := warpTransfer_tried hc env r d rcp (hypDue total y s r) s2 hi2
      have hmsg : hypMsg c env recips total y s r = ⟨r.tokenId, d, rcp, hypDue total y s r⟩ := by
        unfold hypMsg; rw [hrt, hhex]; rfl
      have key : wp (attempt (warpTransfer c env r d rcp (hypDue total y s r))) s2
          (fun e s3 => (e.isSome = false ↔ hypGoes c env total y s r) ∧
            WarpTried c (hypGoes c env total y s r) (hypMsg c env recips total y s r) s2 s3)
          (fun _ _ => False) := by
        rw [wp.attempt_iff, hmsg]
        refine hw.mono ?_ ?_
        · rintro _ s3 ⟨⟨h1, h2⟩, h3⟩
          have hgo : hypGoes c env total y s r := by
            refine ⟨h1, hpos, ?_⟩
            rw [hb1] at h2
            omega
          refine ⟨⟨fun _ => hgo, fun _ => rfl⟩, ?_⟩
          exact ⟨h3.bal, h3.prin, h3.index, h3.recipients, h3.ibcOut, h3.vouchers, h3.extYield, h3.retry,
            by rw [h3.out]; simp [hgo]⟩
        · rintro e s3 ⟨h1, h3⟩
          have hgo : ¬ hypGoes c env total y s r := by
            intro h
            exact h1 ⟨h.1, by rw [hb1]; exact h.2.2⟩
          refine ⟨⟨nofun, fun h => absurd h hgo⟩, ?_⟩
          exact ⟨h3.bal, h3.prin, h3.index, h3.recipients, h3.ibcOut, h3.vouchers, h3.extYield, h3.retry,
            by rw [h3.out]; simp [hgo]⟩
      unfold wp at key
      cases hat : attempt (warpTransfer c env r d rcp (hypDue total y s r)) s2 with
      | panic => trivial
      | err e s3 => rw [hat] at key; exact key.elim
      | ok e s3 =>
        rw [hat] at key
        obtain ⟨hiff, k⟩ := key
        simp only [retryOnError_eq]
        have hR : ∀ p id, State.retryOf (if e.isSome = true then
            retryAdded s3 HYPERLANE r.identifier (hypDue total y s r) else s3) p id =
            s2.retryOf p id + (if (p, id) = (HYPERLANE, r.identifier) ∧ ¬ hypGoes c env total y s r then
              hypDue total y s r else 0) := by
          intro p id
          have hk : s3.retryOf p id = s2.retryOf p id := by unfold State.retryOf; rw [k.retry]
          cases hes : e.isSome with
          | false =>
            have hgo := hiff.1 hes
            simp [hgo, hk]
          | true =>
            have hgo : ¬ hypGoes c env total y s r := fun h => by
              have := hiff.2 h; rw [hes] at this; cases this
            simp only [if_true]
            rw [retryAdded_retryOf, hk]
            simp [hgo]
        have hF : ∀ {β : Type} (f : State → β) (_ : ∀ q, f (retryAdded s3 HYPERLANE r.identifier q) = f s3),
            f (if e.isSome = true then
              retryAdded s3 HYPERLANE r.identifier (hypDue total y s r) else s3) = f s3 := by
          intro β f hf
          split
          · exact hf _
          · rfl
        have F1 := hF State.bal fun _ => rfl
        have F2 := hF State.principal fun _ => rfl
        have F3 := hF State.index fun _ => rfl
        have F4 := hF State.recipients fun _ => rfl
        have F5 := hF State.ibcOut fun _ => rfl
        have F6 := hF State.vouchers fun _ => rfl
        have F7 := hF State.warpOut fun _ => rfl
        have F8 := hF State.extYield fun _ => rfl
        generalize (if e.isSome = true then
            retryAdded s3 HYPERLANE r.identifier (hypDue total y s r) else s3) = s4 at hR F1 F2 F3 F4 F5 F6 F7 F8
        show HypRounds c env recips total y [r] [] s
          (extAdded s4 HYPERLANE r.identifier (yieldPortion r.collateral total y))
        have hE : ∀ p id, s4.extYieldOf p id = s.extYieldOf p id := by
          intro p id; rw [← hex p id]; unfold State.extYieldOf; rw [F8, k.extYield]
        refine ⟨?_, ?_, ?_, ?_, ?_, ?_, ?_, ?_, ?_, ?_, ?_, nofun, ?_⟩
        · intro x
          show s4.balance x = _
          rw [← hb1 x, ← k.bal x]; unfold State.balance; rw [F1]
        · intro x
          show s4.principalOf x = _
          rw [← hp1 x, ← k.prin x]; unfold State.principalOf; rw [F2]
        · show s4.index = _
          rw [F3, k.index, t1]
        · show s4.recipients = _
          rw [F4, k.recipients, t2]
        · show s4.ibcOut = _
          rw [F5, k.ibcOut, ho1]
        · show s4.vouchers = _
          rw [F6, k.vouchers, hv1]
        · show s4.warpOut = _
          rw [F7, k.out, t3]
          simp
        · intro p id h
          show s4.retryOf p id = _
          rw [hR, hoth p id (by simpa using h), if_neg, Int.add_zero]
          rintro ⟨h1, _⟩
          simp only [Prod.mk.injEq] at h1
          rcases h with h | h
          · exact h h1.1
          · exact h (by simp [h1.2])
        · intro p id h
          rw [extAdded_extYieldOf, hE, if_neg, Int.add_zero]
          intro h1
          simp only [Prod.mk.injEq] at h1
          rcases h with h | h
          · exact h h1.1
          · exact h (by simp [h1.2])
        · intro q hq
          cases List.mem_singleton.1 hq
          show s4.retryOf _ _ = _
          rw [hR, hself]
          by_cases hgo : hypGoes c env total y s r <;> simp [hgo]
        · intro q hq
          cases List.mem_singleton.1 hq
          rw [extAdded_extYieldOf, hE]; simp
        · intro q hq
          cases List.mem_singleton.1 hq
          exact fun _ => hgood

theorem HypRounds.cons {c : Cfg} {env : Env} {recips : KV String String} {total y : Int} {r : Route}
    {done lost : List Route} {s m s' : State} (h : HypRounds c env recips total y [r] [] s m)
    (h' : HypRounds c env recips total y done lost m s')
    (hn : r.identifier ∉ (done ++ lost).map Route.identifier) :
    HypRounds c env recips total y (r :: done) lost s s' := by
  have hne : ∀ q, q ∈ done ++ lost → q.identifier ≠ r.identifier := by
    intro q hq e
    exact hn (e ▸ List.mem_map_of_mem hq)
  have hret : ∀ q, q ∈ done ++ lost → m.retryOf HYPERLANE q.identifier = s.retryOf HYPERLANE q.identifier := by
    intro q hq
    exact h.other _ _ (.inr (by simpa using hne q hq))
  have hdue : ∀ q, q ∈ done ++ lost → hypDue total y m q = hypDue total y s q := by
    intro q hq; unfold hypDue; rw [hret q hq]
  have hgo : ∀ q, q ∈ done ++ lost → (hypGoes c env total y m q ↔ hypGoes c env total y s q) := by
    intro q hq; unfold hypGoes; rw [hdue q hq, h.bal]
  have hmem : ∀ {q}, q ∈ done → q ∈ done ++ lost := fun h => List.mem_append_left _ h
  refine ⟨fun x => (h'.bal x).trans (h.bal x), fun x => (h'.prin x).trans (h.prin x),
    h'.index.trans h.index, h'.recipients.trans h.recipients, h'.ibcOut.trans h.ibcOut,
    h'.vouchers.trans h.vouchers, ?_, ?_, ?_, ?_, ?_, ?_, ?_⟩
  · rw [h'.out, h.out, List.append_assoc]
    congr 1
    rw [List.flatMap_cons]
    simp only [List.flatMap_cons, List.flatMap_nil, List.append_nil]
    congr 1
    refine List.flatMap_congr ?_
    intro q hq
    simp only [hgo q (hmem hq), hypMsg, hdue q (hmem hq)]
  · intro p id hp
    have h1 : p ≠ HYPERLANE ∨ id ∉ (done ++ lost).map Route.identifier := by
      rcases hp with hp | hp
      · exact .inl hp
      · refine .inr fun e => hp ?_
        rw [List.cons_append, List.map_cons]
        exact List.mem_cons_of_mem _ e
    rw [h'.other p id h1]
    refine h.other p id ?_
    rcases hp with hp | hp
    · exact .inl hp
    · refine .inr fun e => hp ?_
      rw [List.cons_append, List.map_cons]
      have : id = r.identifier := by simpa using e
      rw [this]; exact List.mem_cons_self
  · intro p id hp
    have h1 : p ≠ HYPERLANE ∨ id ∉ done.map Route.identifier := by
      rcases hp with hp | hp
      · exact .inl hp
      · exact .inr fun e => hp (by rw [List.map_cons]; exact List.mem_cons_of_mem _ e)
    rw [h'.extOther p id h1]
    refine h.extOther p id ?_
    rcases hp with hp | hp
    · exact .inl hp
    · refine .inr fun e => hp ?_
      have : id = r.identifier := by simpa using e
      rw [this, List.map_cons]; exact List.mem_cons_self
  · intro q hq
    rcases List.mem_cons.1 hq with rfl | hq
    · rw [h'.other _ _ (.inr hn)]
      exact h.retry q (by simp)
    · rw [h'.retry q hq]
      simp only [hgo q (hmem hq), hdue q (hmem hq)]
  · intro q hq
    rcases List.mem_cons.1 hq with rfl | hq
    · rw [h'.extOther _ _ (.inr fun e => hn (by rw [List.map_append]; exact List.mem_append_left _ e))]
      exact h.ext q (by simp)
    · rw [h'.ext q hq, h.extOther _ _ (.inr (by simpa using hne q (hmem hq)))]
  · intro q hq
    have := h'.lost q hq
    rw [hdue q (List.mem_append_right _ hq)] at this
    exact this
  · intro q hq hp
    rcases List.mem_cons.1 hq with rfl | hq
    · exact h.sound q (by simp) hp
    · exact h'.sound q hq (by rw [hdue q (hmem hq)]; exact hp)

theorem hypLoop_rounds {c : Cfg} (hc : c.WF) (env : Env) (recips : KV String String) (total y : Int)
    (ht : 0 < total) (hy : 0 ≤ y) (l : List Route) (hn : (l.map Route.identifier).Nodup)
    (hl : ∀ r ∈ l, 0 ≤ r.collateral) : ∀ {s : State}, Good c s →
    wp (hypLoop c env recips total y l) s
      (fun _ s' => HypRounds c env recips total y l [] s s')
      (fun _ s' => ∃ done r rest, l = done ++ r :: rest ∧
        HypRounds c env recips total y done [r] s s') := by
  induction l with
  | nil => intro s _; exact HypRounds.refl _ _ _ _ _ _
  | cons r t ih =>
    intro s hg
    rw [List.map_cons, List.nodup_cons] at hn
    unfold hypLoop
    have h1 := hypOne_round hc env recips total y r (hl r (by simp)) ht hy hg
    have h2 := hypOne_dist hc env recips total y r (hl r (by simp)) hg
    refine wp.seq (Q := fun _ m => HypRounds c env recips total y [r] [] s m ∧ Good c m)
      (E := fun _ m => HypRounds c env recips total y [] [r] s m) ?_ ?_ ?_
    · exact wp.intro (fun a s' hx => ⟨h1.of_ok hx, (h2.of_ok hx).1.1⟩) (fun e s' hx => h1.of_err hx)
    · rintro _ m ⟨hm, hgm⟩
      refine (ih hn.2 (fun q hq => hl q (by simp [hq])) hgm).mono ?_ ?_
      · intro _ s' h
        exact hm.cons h (by simpa using hn.1)
      · rintro _ s' ⟨done, q, rest, rfl, h⟩
        refine ⟨r :: done, q, rest, rfl, hm.cons h ?_⟩
        intro e
        apply hn.1
        rw [List.map_append] at e ⊢
        rcases List.mem_append.1 e with e | e
        · exact List.mem_append_left _ e
        · exact List.mem_append_right _ (by rw [List.map_cons]; simp at e; rw [e]; exact List.mem_cons_self)
    · intro _ m hm
      exact ⟨[], r, t, rfl, hm⟩

end Dollar
