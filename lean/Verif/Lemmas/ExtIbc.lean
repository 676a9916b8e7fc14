import Verif.Lemmas.UpdateRun
import Verif.Lemmas.Sort

/-
The exact effect of one round of IBC yield distribution.
-/
set_option linter.unusedSimpArgs false
namespace Dollar
open MM

/-- Escrow accounts hold what is outstanding on their channel plus the retry amount. -/
def Backed (c : Cfg) (s : State) : Prop :=
  ∀ ch, 0 ≤ s.vouchersOf ch ∧ s.vouchersOf ch + s.retryOf IBC ch ≤ s.balance (c.escrowAddr ch)

/-- What is due on a channel: claimable yield plus retry amount. -/
def ibcDue (c : Cfg) (s : State) (ch : String) : Int :=
  claimable s (c.escrowAddr ch) + s.retryOf IBC ch

/-- The transfer on a channel takes place. -/
def ibcGoes (c : Cfg) (env : Env) (s : State) (ch : String) : Prop :=
  env.ibc ch = .success ∧ 0 < ibcDue c s ch

instance (c : Cfg) (env : Env) (s : State) (ch : String) : Decidable (ibcGoes c env s ch) := by
  unfold ibcGoes; infer_instance

/-- The packet of a channel. -/
def ibcPacket (c : Cfg) (recips : KV String String) (s : State) (ch : String) : IbcOut :=
  ⟨ch, c.escrowAddr ch, (recips.get? ch).getD "", ibcDue c s ch⟩

/-- The channels `done` had their round, the others were not touched. -/
structure IbcRounds (c : Cfg) (env : Env) (recips : KV String String) (done : List String)
    (s s' : State) : Prop where
  bal : ∀ x, x ≠ c.yieldAddr → (∀ ch ∈ done, x ≠ c.escrowAddr ch) → s'.balance x = s.balance x
  esc : ∀ ch ∈ done, s'.balance (c.escrowAddr ch) =
    s.balance (c.escrowAddr ch) + claimable s (c.escrowAddr ch)
  prin : ∀ x, s'.principalOf x = s.principalOf x
  index : s'.index = s.index
  recipients : s'.recipients = s.recipients
  collateral : s'.collateral = s.collateral
  warpOut : s'.warpOut = s.warpOut
  out : s'.ibcOut = s.ibcOut ++
    done.flatMap fun ch => if ibcGoes c env s ch then [ibcPacket c recips s ch] else []
  vouchers : ∀ ch, s'.vouchersOf ch = s.vouchersOf ch +
    (if ch ∈ done ∧ ibcGoes c env s ch then ibcDue c s ch else 0)
  retry : ∀ p ch, s'.retryOf p ch = if p = IBC ∧ ch ∈ done then
    (if ibcGoes c env s ch then 0 else ibcDue c s ch) else s.retryOf p ch
  ext : ∀ p ch, s'.extYieldOf p ch = s.extYieldOf p ch +
    (if p = IBC ∧ ch ∈ done then claimable s (c.escrowAddr ch) else 0)

theorem IbcRounds.refl (c : Cfg) (env : Env) (recips : KV String String) (s : State) :
    IbcRounds c env recips [] s s where
  bal := fun _ _ _ => rfl
  esc := nofun
  prin := fun _ => rfl
  index := rfl
  recipients := rfl
  collateral := rfl
  warpOut := rfl
  out := by simp
  vouchers := by simp
  retry := by simp
  ext := by simp

theorem Moved.self_prin {c : Cfg} {s s' : State} {a : Addr} {amt : Int} (h : Moved c s a a amt s')
    (hm : a ≠ c.moduleAddr) (x : Addr) : s'.principalOf x = s.principalOf x := by
  by_cases h0 : amt = 0
  · rw [h.zero h0]
  by_cases hy : a = c.yieldAddr
  · unfold State.principalOf; rw [(h.skip (.inl hy)).1]
  rw [h.prin h0 hy hy]
  by_cases e : x = a
  · simp [e, hm]
  · simp [e]

theorem claimable_of {s s' : State} {x : Addr} (hb : s'.balance x = s.balance x)
    (hp : s'.principalOf x = s.principalOf x) (hi : s'.index = s.index) :
    claimable s' x = claimable s x :=
  claimable_congr (by unfold bp; rw [hb, hp]) hi

/-- `ibcTransfer` of the escrow account to itself. -/
theorem ibcTransfer_self {c : Cfg} (hc : c.WF) (env : Env) (ch : String) (rcv : String)
    (amt : Int) (s : State) (hi : s.index ≠ 0) (hy : hasYieldRecipient s IBC ch = true)
    (he : amt ≤ s.balance (c.escrowAddr ch)) :
    wp (ibcTransfer c env ch (c.escrowAddr ch) rcv amt) s
      (fun _ s' => env.ibc ch = .success ∧
        ∃ m, Moved c s (c.escrowAddr ch) (c.escrowAddr ch) amt m ∧
          s' = booked m ⟨ch, c.escrowAddr ch, rcv, amt⟩)
      (fun _ s' => env.ibc ch ≠ .success ∧
        (s' = s ∨ Moved c s (c.escrowAddr ch) (c.escrowAddr ch) amt s')) := by
  have h := ibcTransfer_wp hc env ch (c.escrowAddr ch) rcv amt s
  refine wp.intro ?_ ?_
  · intro a s' hx
    obtain ⟨h1, _, h2⟩ := h.of_ok hx
    exact ⟨h1, h2⟩
  · intro e s' hx
    refine ⟨?_, h.of_err hx⟩
    intro hs
    obtain ⟨m, hm, hmv⟩ := sendCoins_progress (c := c) he hi (.inl (hc.escrow_ne_yield ch))
    unfold ibcTransfer at hx
    have hy' : hasYieldRecipient m IBC ch = true := by
      unfold hasYieldRecipient at hy ⊢; rwa [hmv.recipients]
    simp only [hs, bind_apply, hm, ics4Check, get_apply, hy', if_true, pure_apply, bookPacket,
      modify_apply] at hx
    cases hx

theorem retryTaken_fields (s : State) (p : Int) (i : String) :
    (retryTaken s p i).index = s.index ∧ (retryTaken s p i).recipients = s.recipients ∧
    (retryTaken s p i).warpOut = s.warpOut ∧ (retryTaken s p i).extYield = s.extYield := by
  unfold retryTaken; split <;> exact ⟨rfl, rfl, rfl, rfl⟩

theorem extAdded_extYieldOf (s : State) (p : Int) (i : String) (amt : Int) (p' : Int) (i' : String) :
    (extAdded s p i amt).extYieldOf p' i' =
      s.extYieldOf p' i' + (if (p', i') = (p, i) then amt else 0) := by
  show ((s.extYield.set (p, i) (s.extYieldOf p i + amt)).get? (p', i')).getD 0 = _
  rw [getD_set]
  split
  · next h => simp only [Prod.mk.injEq] at h; rw [h.1, h.2]
  · simp [State.extYieldOf]

/-- State of the external stores after taking the retry amount and the transfer attempt. -/
structure IbcTried (c : Cfg) (env : Env) (rcv : String) (ch : String) (amt : Int) (s s' : State) :
    Prop where
  bal : ∀ x, s'.balance x = s.balance x
  prin : ∀ x, s'.principalOf x = s.principalOf x
  index : s'.index = s.index
  recipients : s'.recipients = s.recipients
  collateral : s'.collateral = s.collateral
  warpOut : s'.warpOut = s.warpOut
  extYield : s'.extYield = s.extYield
  out : s'.ibcOut = s.ibcOut ++ (if env.ibc ch = .success then [⟨ch, c.escrowAddr ch, rcv, amt⟩] else [])
  vouchers : ∀ x, s'.vouchersOf x = s.vouchersOf x +
    (if x = ch ∧ env.ibc ch = .success then amt else 0)
  retry : ∀ p x, s'.retryOf p x = s.retryOf p x +
    (if (p, x) = (IBC, ch) ∧ env.ibc ch ≠ .success then amt else 0)

theorem ibcTried {c : Cfg} (hc : c.WF) (env : Env) (ch rcv : String) (amt : Int) (s : State)
    (hi : s.index ≠ 0) (hy : hasYieldRecipient s IBC ch = true)
    (he : amt ≤ s.balance (c.escrowAddr ch)) :
    wp (attempt (ibcTransfer c env ch (c.escrowAddr ch) rcv amt)) s
      (fun e s3 => IbcTried c env rcv ch amt s (if e.isSome then retryAdded s3 IBC ch amt else s3))
      (fun _ _ => False) := by
  rw [wp.attempt_iff]
  have hmod := hc.escrow_ne_module ch
  refine (ibcTransfer_self hc env ch rcv amt s hi hy he).mono ?_ ?_
  · rintro _ s' ⟨hs, m, hm, rfl⟩
    simp only [Option.isSome_none, Bool.false_eq_true, if_false]
    refine ⟨hm.self, hm.self_prin hmod, hm.index, hm.recipients, hm.collateral, hm.warpOut,
      hm.extYield, ?_, ?_, ?_⟩
    · rw [if_pos hs]
      show m.ibcOut ++ _ = _
      rw [hm.ibcOut]
    · intro x
      rw [booked_vouchersOf, hm.vouchersOf]
      simp [hs]
    · intro p x
      show m.retryOf p x = _
      rw [hm.retryOf]
      simp [hs]
  · rintro e s3 ⟨hs, h3⟩
    simp only [Option.isSome_some, if_true]
    have h3 : Moved c s (c.escrowAddr ch) (c.escrowAddr ch) amt s3 ∨ s3 = s := h3.symm
    have hb3 : ∀ x, s3.balance x = s.balance x := by
      rcases h3 with hm | rfl
      · exact hm.self
      · exact fun _ => rfl
    have hp3 : ∀ x, s3.principalOf x = s.principalOf x := by
      rcases h3 with hm | rfl
      · exact hm.self_prin hmod
      · exact fun _ => rfl
    have hv3 : ∀ x, s3.vouchersOf x = s.vouchersOf x := by
      rcases h3 with hm | rfl
      · exact hm.vouchersOf
      · exact fun _ => rfl
    have hr3 : ∀ p x, s3.retryOf p x = s.retryOf p x := by
      rcases h3 with hm | rfl
      · exact hm.retryOf
      · exact fun _ _ => rfl
    have hf : s3.index = s.index ∧ s3.recipients = s.recipients ∧ s3.collateral = s.collateral ∧
        s3.warpOut = s.warpOut ∧ s3.extYield = s.extYield ∧ s3.ibcOut = s.ibcOut := by
      rcases h3 with hm | rfl
      · exact ⟨hm.index, hm.recipients, hm.collateral, hm.warpOut, hm.extYield, hm.ibcOut⟩
      · exact ⟨rfl, rfl, rfl, rfl, rfl, rfl⟩
    obtain ⟨f1, f2, f3, f4, f5, f6⟩ := hf
    refine ⟨hb3, hp3, f1, f2, f3, f4, f5, ?_, ?_, ?_⟩
    · rw [if_neg hs]
      show s3.ibcOut = _
      rw [f6]; simp
    · intro x
      show s3.vouchersOf x = _
      rw [hv3]; simp [hs]
    · intro p x
      rw [retryAdded_retryOf, hr3]
      simp [hs]

/-- One iteration of the IBC loop. -/
theorem ibcOne_round {c : Cfg} (hc : c.WF) (env : Env) (recips : KV String String) (ch : String)
    {s : State} (hg : Good c s) (hb : Backed c s) (hy : hasYieldRecipient s IBC ch = true) :
    wp (ibcOne c env recips ch) s
      (fun _ s' => IbcRounds c env recips [ch] s s') (fun _ s' => s' = s) := by
  unfold ibcOne
  refine wp.seq (claimModuleYield_wp c _ s) ?_ (fun _ _ h => h)
  rintro y s1 ⟨hyy, hm1⟩
  have hy0 : 0 ≤ y := hyy ▸ claimable_nonneg s _
  have hg1 := hg.of_moved hm1 hy0
  have hr0 := hg1.retry IBC ch
  have hey := hc.escrow_ne_yield ch
  have hrs : s1.retryOf IBC ch = s.retryOf IBC ch := hm1.retryOf _ _
  have hp1 : ∀ x, s1.principalOf x = s.principalOf x := by
    intro x; unfold State.principalOf; rw [(hm1.skip (.inl rfl)).1]
  obtain ⟨t1, t2, t3, t4⟩ := retryTaken_fields s1 IBC ch
  have hdue : ibcDue c s ch = y + s1.retryOf IBC ch := by unfold ibcDue; rw [hyy, hrs]
  generalize hs2 : retryTaken s1 IBC ch = s2 at t1 t2 t3 t4
  have hb2 : ∀ x, s2.balance x = s1.balance x := by
    intro x; rw [← hs2]; unfold State.balance; rw [retryTaken_bal]
  have hp2 : ∀ x, s2.principalOf x = s.principalOf x := by
    intro x; rw [← hp1 x, ← hs2]; unfold State.principalOf; rw [retryTaken_principal]
  have hv2 : ∀ x, s2.vouchersOf x = s.vouchersOf x := by
    intro x; rw [← hs2, ← hm1.vouchersOf]; unfold State.vouchersOf; rw [retryTaken_vouchers]
  have hr2 : ∀ p x, s2.retryOf p x = if (p, x) = (IBC, ch) then 0 else s.retryOf p x := by
    intro p x; rw [← hs2, retryTaken_retryOf s1 IBC ch hr0, hm1.retryOf]
  have ho2 : s2.ibcOut = s.ibcOut := by rw [← hs2, retryTaken_ibcOut, hm1.ibcOut]
  have hc2 : s2.collateral = s.collateral := by rw [← hs2, retryTaken_collateral, hm1.collateral]
  have hbx : ∀ x, x ≠ c.yieldAddr → x ≠ c.escrowAddr ch → s1.balance x = s.balance x := by
    intro x h1 h2; rw [hm1.bal]; simp [h1, h2]
  have hbe : s1.balance (c.escrowAddr ch) = s.balance (c.escrowAddr ch) + y := by
    rw [hm1.bal]; simp [hey]
  simp only [wp.bind_iff]
  unfold wp
  simp only [takeRetry_eq, hs2]
  by_cases hpos : 0 < y + s1.retryOf IBC ch
  swap
  · simp only [hpos, if_false, pure_apply]
    have e1 : y = 0 := by omega
    have e2 : ibcDue c s ch = 0 := by omega
    have hng : ¬ ibcGoes c env s ch := fun h => by have := h.2; omega
    refine ⟨?_, ?_, hp2, t1.trans hm1.index, t2.trans hm1.recipients, hc2, t3.trans hm1.warpOut,
      ?_, ?_, ?_, ?_⟩
    · intro x h1 h2
      rw [hb2, hbx x h1 (h2 ch (by simp))]
    · intro x hx
      cases List.mem_singleton.1 hx
      rw [hb2, hbe, ← hyy]
    · rw [ho2]; simp [hng]
    · intro x
      rw [hv2]
      by_cases hx : x = ch
      · subst hx; simp [hng]
      · simp [hx]
    · intro p x
      rw [hr2]
      by_cases hx : p = IBC ∧ x = ch
      · obtain ⟨rfl, rfl⟩ := hx
        simp [hng, e2]
      · rw [if_neg (by simpa using hx), if_neg (by simpa using hx)]
    · intro p x
      unfold State.extYieldOf
      rw [t4, hm1.extYield]
      by_cases hx : p = IBC ∧ x = ch
      · obtain ⟨rfl, rfl⟩ := hx
        simp [← hyy, e1]
      · rw [if_neg (by simpa using hx)]; simp
  simp only [hpos, if_true]
  have hdpos : 0 < ibcDue c s ch := by rw [hdue]; exact hpos
  have hgo : ibcGoes c env s ch ↔ env.ibc ch = .success := ⟨fun h => h.1, fun h => ⟨h, hdpos⟩⟩
  have hi2 : s2.index ≠ 0 := by rw [t1, hm1.index]; exact hg.index.ne'
  have hy2 : hasYieldRecipient s2 IBC ch = true := by
    unfold hasYieldRecipient at hy ⊢; rw [t2, hm1.recipients]; exact hy
  have he2 : ibcDue c s ch ≤ s2.balance (c.escrowAddr ch) := by
    rw [hb2, hbe, hdue, hrs]
    have := hb ch
    omega
  rw [← hdue]
  have key := ibcTried hc env ch ((recips.get? ch).getD "") (ibcDue c s ch) s2 hi2 hy2 he2
  unfold wp at key
  simp only [bind_apply]
  cases hat : attempt (ibcTransfer c env ch (c.escrowAddr ch) ((recips.get? ch).getD "")
      (ibcDue c s ch)) s2 with
  | err e s3 => rw [hat] at key; exact key.elim
  | panic => trivial
  | ok e s3 =>
    rw [hat] at key
    simp only [retryOnError_eq]
    replace key : IbcTried c env ((recips.get? ch).getD "") ch (ibcDue c s ch) s2
      (if e.isSome then retryAdded s3 IBC ch (ibcDue c s ch) else s3) := key
    generalize (if e.isSome then retryAdded s3 IBC ch (ibcDue c s ch) else s3) = s4 at key
    show IbcRounds c env recips [ch] s (extAdded s4 IBC ch y)
    refine ⟨?_, ?_, ?_, ?_, ?_, ?_, ?_, ?_, ?_, ?_, ?_⟩
    · intro x h1 h2
      show s4.balance x = _
      rw [key.bal, hb2, hbx x h1 (h2 ch (by simp))]
    · intro x hx
      cases List.mem_singleton.1 hx
      show s4.balance _ = _
      rw [key.bal, hb2, hbe, ← hyy]
    · intro x
      show s4.principalOf x = _
      rw [key.prin, hp2]
    · show s4.index = _
      rw [key.index, t1, hm1.index]
    · show s4.recipients = _
      rw [key.recipients, t2, hm1.recipients]
    · show s4.collateral = _
      rw [key.collateral, hc2]
    · show s4.warpOut = _
      rw [key.warpOut, t3, hm1.warpOut]
    · show s4.ibcOut = _
      rw [key.out, ho2]
      simp only [List.flatMap_cons, List.flatMap_nil, List.append_nil, hgo, ibcPacket]
    · intro x
      show s4.vouchersOf x = _
      rw [key.vouchers, hv2]
      by_cases hx : x = ch
      · subst hx; simp [hgo]
      · simp [hx]
    · intro p x
      show s4.retryOf p x = _
      rw [key.retry, hr2]
      by_cases hx : p = IBC ∧ x = ch
      · obtain ⟨rfl, rfl⟩ := hx
        by_cases hs : env.ibc x = .success <;> simp [hgo, hs]
      · rw [if_neg (by simpa using hx), if_neg (by simp only [Prod.mk.injEq]; tauto), if_neg (by simpa using hx)]
        omega
    · intro p x
      rw [extAdded_extYieldOf]
      have hk : s4.extYieldOf p x = s.extYieldOf p x := by
        unfold State.extYieldOf; rw [key.extYield, t4, hm1.extYield]
      rw [hk, hyy]
      by_cases hx : p = IBC ∧ x = ch
      · obtain ⟨rfl, rfl⟩ := hx
        simp
      · rw [if_neg (by simpa using hx), if_neg (by simpa using hx)]

theorem IbcRounds.backed {c : Cfg} (hc : c.WF) {env : Env} {recips : KV String String} {done : List String}
    {s s' : State} (h : IbcRounds c env recips done s s') (hg : Good c s) (hb : Backed c s) :
    Backed c s' := by
  intro ch
  have h1 := hb ch
  have h2 := hg.retry IBC ch
  have h3 := claimable_nonneg s (c.escrowAddr ch)
  rw [h.vouchers, h.retry]
  by_cases hd : ch ∈ done
  · rw [h.esc ch hd]
    unfold ibcDue
    by_cases hgo : ibcGoes c env s ch <;> simp [hd, hgo] <;> omega
  · have : s'.balance (c.escrowAddr ch) = s.balance (c.escrowAddr ch) := by
      refine h.bal _ (hc.escrow_ne_yield ch) ?_
      intro x hx e
      exact hd (hc.escrow_inj _ _ e ▸ hx)
    rw [this]
    simp [hd]; omega

theorem IbcRounds.due {c : Cfg} (hc : c.WF) {env : Env} {recips : KV String String} {done : List String}
    {s s' : State} (h : IbcRounds c env recips done s s') {ch : String} (hd : ch ∉ done) :
    claimable s' (c.escrowAddr ch) = claimable s (c.escrowAddr ch) ∧
    ibcDue c s' ch = ibcDue c s ch := by
  have e : claimable s' (c.escrowAddr ch) = claimable s (c.escrowAddr ch) := by
    refine claimable_of (h.bal _ (hc.escrow_ne_yield ch) ?_) (h.prin _) h.index
    intro x hx e
    exact hd (hc.escrow_inj _ _ e ▸ hx)
  refine ⟨e, ?_⟩
  unfold ibcDue
  rw [e, h.retry, if_neg (by tauto)]

theorem IbcRounds.cons {c : Cfg} (hc : c.WF) {env : Env} {recips : KV String String} {ch : String}
    {done : List String} {s m s' : State} (h : IbcRounds c env recips [ch] s m)
    (h' : IbcRounds c env recips done m s') (hn : ch ∉ done) :
    IbcRounds c env recips (ch :: done) s s' := by
  have hdue : ∀ x ∈ done, claimable m (c.escrowAddr x) = claimable s (c.escrowAddr x) ∧
      ibcDue c m x = ibcDue c s x := by
    intro x hx
    refine h.due hc ?_
    intro e
    cases List.mem_singleton.1 e
    exact hn hx
  have hgo : ∀ x ∈ done, (ibcGoes c env m x ↔ ibcGoes c env s x) := by
    intro x hx; unfold ibcGoes; rw [(hdue x hx).2]
  have hesc : ∀ x ∈ done, c.escrowAddr x ≠ c.escrowAddr ch := by
    intro x hx e; exact hn (hc.escrow_inj _ _ e ▸ hx)
  refine ⟨?_, ?_, fun x => (h'.prin x).trans (h.prin x), h'.index.trans h.index,
    h'.recipients.trans h.recipients, h'.collateral.trans h.collateral, h'.warpOut.trans h.warpOut,
    ?_, ?_, ?_, ?_⟩
  · intro x h1 h2
    rw [h'.bal x h1 fun y hy => h2 y (by simp [hy]), h.bal x h1 fun y hy => h2 y (by simp_all)]
  · intro x hx
    rcases List.mem_cons.1 hx with rfl | hx
    · rw [h'.bal _ (hc.escrow_ne_yield x) fun y hy e => hesc y hy e.symm, h.esc x (by simp)]
    · rw [h'.esc x hx, (hdue x hx).1, h.bal _ (hc.escrow_ne_yield x)]
      intro y hy
      cases List.mem_singleton.1 hy
      exact hesc x hx
  · rw [h'.out, h.out, List.append_assoc]
    congr 1
    rw [List.flatMap_cons]
    simp only [List.flatMap_cons, List.flatMap_nil, List.append_nil]
    congr 1
    refine List.flatMap_congr ?_
    intro x hx
    simp only [hgo x hx, ibcPacket, (hdue x hx).2]
  · intro x
    rw [h'.vouchers, h.vouchers]
    by_cases hx : x ∈ done
    · have : x ≠ ch := by rintro rfl; exact hn hx
      simp [hx, this, hgo x hx, (hdue x hx).2]
    · simp [hx]
  · intro p x
    rw [h'.retry, h.retry]
    by_cases hx : x ∈ done
    · have : x ≠ ch := by rintro rfl; exact hn hx
      simp [hx, this, hgo x hx, (hdue x hx).2]
    · simp [hx]
  · intro p x
    rw [h'.ext, h.ext]
    by_cases hx : x ∈ done
    · have : x ≠ ch := by rintro rfl; exact hn hx
      simp [hx, this, (hdue x hx).1]
    · simp [hx]

/-- The loop: all channels on success, a prefix of them on failure. -/
theorem ibcLoop_rounds {c : Cfg} (hc : c.WF) (env : Env) (recips : KV String String)
    (l : List String) (hl : l.Nodup) : ∀ {s : State}, Good c s → Backed c s →
    (∀ ch ∈ l, hasYieldRecipient s IBC ch = true) →
    wp (ibcLoop c env recips l) s (fun _ s' => IbcRounds c env recips l s s')
      (fun _ s' => ∃ done, done <+: l ∧ IbcRounds c env recips done s s') := by
  induction l with
  | nil => intro s _ _ _; exact IbcRounds.refl _ _ _ _
  | cons ch t ih =>
    intro s hg hb hy
    rw [List.nodup_cons] at hl
    unfold ibcLoop
    have h1 := ibcOne_round hc env recips ch hg hb (hy ch (by simp))
    have h2 := ibcOne_dist hc env recips ch hg
    refine wp.seq (Q := fun _ m => IbcRounds c env recips [ch] s m ∧ Good c m)
      (E := fun _ m => m = s) ?_ ?_ ?_
    · exact wp.intro (fun a s' hx => ⟨h1.of_ok hx, (h2.of_ok hx).1.1⟩) (fun e s' hx => h1.of_err hx)
    · rintro _ m ⟨hm, hgm⟩
      have hbm := hm.backed hc hg hb
      have hym : ∀ x ∈ t, hasYieldRecipient m IBC x = true := by
        intro x hx
        have := hy x (by simp [hx])
        unfold hasYieldRecipient at this ⊢
        rwa [hm.recipients]
      refine (ih hl.2 hgm hbm hym).mono ?_ ?_
      · intro _ s' h; exact hm.cons hc h hl.1
      · rintro _ s' ⟨done, hd, h⟩
        refine ⟨ch :: done, List.cons_prefix_cons.2 ⟨rfl, hd⟩, hm.cons hc h fun h => ?_⟩
        exact hl.1 (hd.subset h)
    · rintro _ m rfl
      exact ⟨[], List.nil_prefix, IbcRounds.refl _ _ _ _⟩

theorem claimExternalIBC_rounds {c : Cfg} (hc : c.WF) (env : Env) {s : State} (hg : Good c s)
    (hb : Backed c s) (hs : s.recipients.Sorted) :
    wp (claimExternalIBC c env) s
      (fun _ s' => IbcRounds c env (recipientsBy s IBC) ((recipientsBy s IBC).map Prod.fst) s s')
      (fun _ s' => ∃ done, done <+: (recipientsBy s IBC).map Prod.fst ∧
        IbcRounds c env (recipientsBy s IBC) done s s') := by
  unfold claimExternalIBC
  simp only [wp.bind_iff, wp.get_iff]
  rw [sortedIds_eq env hs]
  refine ibcLoop_rounds hc env _ _ (KV.nodup_keys (recipientsBy_sorted hs IBC)) hg hb ?_
  intro ch hch
  obtain ⟨⟨x, r⟩, he, rfl⟩ := List.mem_map.1 hch
  have := KV.get?_of_mem hs (mem_recipientsBy.1 he)
  unfold hasYieldRecipient KV.has
  rw [this]; rfl

end Dollar
