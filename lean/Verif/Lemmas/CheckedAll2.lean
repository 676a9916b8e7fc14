import Verif.Lemmas.CheckedAll
import Verif.Lemmas.RangeExt
import Verif.Lemmas.Sort

/-
The checked update of the index agrees with the unchecked one while the numbers are small (C122).
-/
set_option linter.unusedSimpArgs false
set_option linter.unusedVariables false

namespace Dollar
open MM Spec

namespace Checked.Full

theorem takeRetry_at {p : Int} {i : String} {Q B n N : Int} {s : State} (h : Tame Q B n s) :
    At s (takeRetry p i) (takeRetry p i)
      (fun r s' => Tame Q B n s' ∧ r = s.retryOf p i ∧ s'.retryOf p i = 0 ∧ s'.collateral = s.collateral) (Tame Q B N) := by
  refine .refl ?_
  unfold wp
  rw [takeRetry_eq]
  have hr := h.retry p i
  have hall := retryTaken_retryOf s p i hr.1
  refine ⟨⟨?_, ?_, ?_, ?_, ?_, ?_, ?_, ?_, ?_, ?_, ?_, ?_⟩, rfl, ?_, retryTaken_collateral ..⟩
  · rw [retryTaken_bal]; exact h.srt
  · intro x; unfold State.balance; rw [retryTaken_bal]; exact h.bal x
  · unfold sumBal; rw [retryTaken_bal]; exact h.sum
  · have : (retryTaken s p i).supply = s.supply := by unfold retryTaken; split <;> rfl
    rw [this]; exact h.sup
  · intro x; unfold State.principalOf; rw [retryTaken_principal]; exact h.prin x
  · have : (retryTaken s p i).totalPrincipal = s.totalPrincipal := by unfold retryTaken; split <;> rfl
    rw [this]; exact h.tot
  · have : (retryTaken s p i).index = s.index := by unfold retryTaken; split <;> rfl
    rw [this]; exact h.idx
  · intro p' i'
    rw [hall]
    have h1 := h.retry p' i'
    split <;> omega
  · intro p' i'
    have : (retryTaken s p i).extYield = s.extYield := by unfold retryTaken; split <;> rfl
    unfold State.extYieldOf; rw [this]; exact h.ext p' i'
  · rw [retryTaken_collateral]; exact h.col
  · have : (retryTaken s p i).totalYield = s.totalYield := by unfold retryTaken; split <;> rfl
    rw [this]; exact h.yield
  · have : (retryTaken s p i).recipients = s.recipients := by unfold retryTaken; split <;> rfl
    rw [this]; exact h.recs
  · rw [hall]; simp

theorem incrementRetry_at {p : Int} {i : String} {a Q B n N : Int} {s : State} (hn : n ≤ 2 ^ 45) (h : Tame Q B n s)
    (h0 : 0 ≤ a) (ha : s.retryOf p i + a ≤ 2 ^ 168 + 2 ^ 132 * (n + 1)) :
    At s (incrementRetry p i a) (Dollar.incrementRetry p i a)
      (fun _ s' => Tame Q B (n + 1) s' ∧ s'.inflight = s.inflight ∧ s'.vouchers = s.vouchers) (Tame Q B N) := by
  have hr := h.retry p i
  unfold incrementRetry Dollar.incrementRetry
  refine .get_left (.lift (add_small (by omega) (by omega)) (.modify' rfl ⟨?_, rfl, rfl⟩))
  have h' := h.mono (m := n + 1) (by omega)
  refine ⟨h'.srt, h'.bal, h'.sum, h'.sup, h'.prin, h'.tot, h'.idx, fun p' i' => ?_, h'.ext, h'.col, h'.yield, h'.recs⟩
  have h1 := h'.retry p' i'
  have := retryAdded_retryOf s p i a p' i'
  change (retryAdded s p i a).retryOf p' i' = _ at this
  show 0 ≤ (retryAdded s p i a).retryOf p' i' ∧ (retryAdded s p i a).retryOf p' i' ≤ _
  rw [this]
  split
  · next e => simp only [Prod.mk.injEq] at e; rw [e.1, e.2]; omega
  · omega

theorem incrementExt_at {p : Int} {i : String} {a Q B n N : Int} {s : State} (hB : B ≤ 2 ^ 130) (hn : n ≤ 2 ^ 45)
    (h : Tame Q B n s) (h0 : 0 ≤ a) (ha : a ≤ B) :
    At s (incrementExtYield p i a) (Dollar.incrementExtYield p i a) (fun _ s' => Tame Q B (n + 1) s') (Tame Q B N) := by
  have hr := h.ext p i
  unfold incrementExtYield Dollar.incrementExtYield
  refine .get_left (.lift (add_small (by omega) (by omega)) (.modify' rfl ?_))
  have h' := h.mono (m := n + 1) (by omega)
  refine ⟨h'.srt, h'.bal, h'.sum, h'.sup, h'.prin, h'.tot, h'.idx, h'.retry, fun p' i' => ?_, h'.col, h'.yield, h'.recs⟩
  have h1 := h'.ext p' i'
  show 0 ≤ ((s.extYield.set (p, i) (s.extYieldOf p i + a)).get? (p', i')).getD 0 ∧
    ((s.extYield.set (p, i) (s.extYieldOf p i + a)).get? (p', i')).getD 0 ≤ _
  rw [getD_set]
  split
  · omega
  · exact h1

theorem retryOnError_at {e : Option Err} {p : Int} {i : String} {a Q B n N : Int} {s : State} (hn : n ≤ 2 ^ 45)
    (h : Tame Q B n s) (h0 : 0 ≤ a) (ha : s.retryOf p i + a ≤ 2 ^ 168 + 2 ^ 132 * (n + 1)) :
    At s (retryOnError e p i a) (Dollar.retryOnError e p i a) (fun _ s' => Tame Q B (n + 1) s') (Tame Q B N) := by
  unfold retryOnError Dollar.retryOnError
  cases e with
  | none => exact .pure (h.mono (by omega))
  | some e => exact (incrementRetry_at hn h h0 ha).mono (fun _ _ h => h.1) fun _ h => h

/-- After a call that may fail half-way. -/
def Kept (Q B n : Int) (s s' : State) : Prop := Tame Q B n s' ∧ s'.retry = s.retry

theorem ibcTransfer_at {c : Cfg} {env : Env} {ch : String} {a : Addr} {rcv : String} {v Q B n : Int} {s : State}
    (hB : B ≤ 2 ^ 130) (hn : n ≤ 2 ^ 45) (h : Tame Q B n s) (h0 : 0 ≤ v) :
    At s (ibcTransfer c env ch a rcv v) (Dollar.ibcTransfer c env ch a rcv v) (fun _ => Kept Q B (n + 1) s)
      (Kept Q B (n + 1) s) := by
  have send := (sendCoins_at2 (c := c) (a := a) (b := c.escrowAddr ch) hB hn h h0 (N := n + 1) (by omega)).mono
    (K := fun _ => Kept Q B (n + 1) s) (F := Kept Q B (n + 1) s) (fun _ s' h => ⟨h.1, h.2.retry⟩) fun _ h => ⟨h.1, h.2.1⟩
  have check : ∀ s', Kept Q B (n + 1) s s' →
      At s' (ics4Check ch) (ics4Check ch) (fun _ => Kept Q B (n + 1) s) (Kept Q B (n + 1) s) := fun s' h' => by
    unfold ics4Check
    exact .get (.ite (fun _ => .pure h') fun _ => .fail h')
  unfold ibcTransfer Dollar.ibcTransfer
  cases env.ibc ch with
  | failEarly => exact .fail ⟨h.mono (by omega), rfl⟩
  | failLate => exact .bind send fun _ s1 h1 => .bind (check s1 h1) fun _ s2 h2 => .fail h2
  | success =>
    exact .bind send fun _ s1 h1 => .bind (check s1 h1) fun _ s2 h2 => .modify ⟨h2.1.congr, h2.2⟩

theorem ibcOne_at {c : Cfg} {env : Env} {recips : KV String String} {ch : String} {Q B n N : Int} {s : State}
    (hB : B ≤ 2 ^ 130) (hn : n + 4 ≤ 2 ^ 45) (h : Tame Q B n s) (hN : n + 4 ≤ N) :
    At s (ibcOne c env recips ch) (Dollar.ibcOne c env recips ch) (fun _ s' => Tame Q B (n + 4) s') (Tame Q B N) := by
  unfold ibcOne Dollar.ibcOne
  refine .bind (claimModuleYield_at hB (by omega) h (by omega)) fun y s1 h1 => ?_
  refine .bind (takeRetry_at h1.1) fun r s2 h2 => ?_
  have hr := h1.1.retry IBC ch
  rw [← h2.2.1] at hr
  have hy := h1.2
  refine .lift (add_small (by omega) (by omega)) (.ite (fun ha => ?_) fun _ => .pure (h2.1.mono (by omega)))
  refine .bind (J := fun _ => Kept Q B (n + 1 + 1) s2) (.attempt ?_) fun e s3 h3 => ?_
  · exact (ibcTransfer_at hB (by omega) h2.1 (by omega)).mono (fun _ _ h => h) fun _ h _ => h
  · have hz : s3.retryOf IBC ch = 0 := by
      have := h2.2.2.1; unfold State.retryOf at *; rw [h3.2]; exact this
    refine .bind (retryOnError_at (by omega) h3.1 (by omega) (by rw [hz]; omega)) fun _ s4 h4 => ?_
    exact (incrementExt_at hB (by omega) h4 hy.1 hy.2.1).mono (fun _ _ h => h.mono (by omega)) fun _ h => h

theorem ibcLoop_at {c : Cfg} {env : Env} {recips : KV String String} {Q B N : Int} (hB : B ≤ 2 ^ 130) (hN : N ≤ 2 ^ 45)
    (ids : List String) {n : Int} {s : State} (h : Tame Q B n s) (hn : n + 4 * ids.length ≤ N) :
    At s (ibcLoop c env recips ids) (Dollar.ibcLoop c env recips ids) (fun _ s' => Tame Q B (n + 4 * ids.length) s')
      (Tame Q B N) := by
  induction ids generalizing n s with
  | nil => exact .pure (h.mono (by simp))
  | cons id t ih =>
    rw [List.length_cons] at *
    push_cast at *
    unfold ibcLoop Dollar.ibcLoop
    refine .bind (ibcOne_at hB (by omega) h (by omega)) fun _ s1 h1 => ?_
    exact (ih h1 (by omega)).mono (fun _ _ h => h.mono (by omega)) fun _ h => h

theorem ids_length (env : Env) (s : State) (p : Int) : (sortedIds env s p).length ≤ s.recipients.length := by
  unfold sortedIds
  rw [(sortStrings_perm _).length_eq, (env.mapOrder_perm _).length_eq, List.length_map]
  unfold recipientsBy
  exact List.length_filterMap_le _ _

theorem claimExternalIBC_at {c : Cfg} {env : Env} {Q B n N : Int} {s : State} (hB : B ≤ 2 ^ 130) (hN : N ≤ 2 ^ 45)
    (h : Tame Q B n s) (hn : n + 2 ^ 42 ≤ N) :
    At s (claimExternalIBC c env) (Dollar.claimExternalIBC c env) (fun _ s' => Tame Q B (n + 2 ^ 42) s') (Tame Q B N) := by
  have hl := (ids_length env s IBC).trans h.recs
  unfold claimExternalIBC Dollar.claimExternalIBC
  exact .get ((ibcLoop_at hB hN _ h (by omega)).mono (fun _ _ h => h.mono (by omega)) fun _ h => h)

theorem warpTransfer_at {c : Cfg} {env : Env} {r : Route} {d : Nat} {rcp : Bytes} {v Q B n : Int} {s : State}
    (hB : B ≤ 2 ^ 130) (hn : n ≤ 2 ^ 45) (h : Tame Q B n s) (h0 : 0 < v)
    (hr : 0 ≤ r.collateral ∧ r.collateral + B ≤ Q) (hQ : Q ≤ 2 ^ 200) :
    At s (warpTransfer c env r d rcp v) (Dollar.warpTransfer c env r d rcp v) (fun _ => Kept Q B (n + 1) s)
      (Kept Q B (n + 1) s) := by
  have send := (sendCoins_at2 (c := c) (a := c.warpAddr) (b := c.warpAddr) hB hn h h0.le (N := n + 1) (by omega)).mono
    (K := fun _ s' => Kept Q B (n + 1) s s' ∧ v ≤ B) (F := Kept Q B (n + 1) s) (fun _ s' h1 => ⟨⟨h1.1, h1.2.retry⟩, by
      rcases h1.2.enough with e | e
      · omega
      · exact e.trans (h.bal_le _)⟩) fun _ h => ⟨h.1, h.2.1⟩
  have stored : ∀ s1, Kept Q B (n + 1) s s1 → v ≤ B →
      Kept Q B (n + 1) s { s1 with collateral := s1.collateral.set r.tokenId (r.collateral + v) } := fun s1 h1 hv => by
    obtain ⟨h', h2⟩ := h1
    refine ⟨⟨h'.srt, h'.bal, h'.sum, h'.sup, h'.prin, h'.tot, h'.idx, h'.retry, h'.ext, fun k w hk => ?_, h'.yield, h'.recs⟩,
      h2⟩
    change (s1.collateral.set r.tokenId (r.collateral + v)).get? k = some w at hk
    rw [KV.get?_set] at hk
    split at hk
    · cases hk; omega
    · exact h'.col k w hk
  unfold warpTransfer Dollar.warpTransfer
  cases env.warp r.tokenId with
  | failEarly => exact .fail ⟨h.mono (by omega), rfl⟩
  | failLate =>
    exact .bind send fun _ s1 h1 => .lift (add_small (by have := h1.2; omega) (by have := h1.2; omega))
      (.modify_bind (.fail (stored s1 h1.1 h1.2)))
  | success =>
    refine .bind send fun _ s1 h1 => .lift (add_small (by have := h1.2; omega) (by have := h1.2; omega))
      (.modify_bind (.modify ?_))
    have := stored s1 h1.1 h1.2
    exact ⟨this.1.congr, this.2⟩

theorem hypOne_at {c : Cfg} {env : Env} {recips : KV String String} {total y : Int} {r : Route} {Q B n N : Int} {s : State}
    (hB : B ≤ 2 ^ 130) (hn : n + 3 ≤ 2 ^ 45) (h : Tame Q B n s) (hN : n + 3 ≤ N) (hy : 0 ≤ y) (hy' : y ≤ B)
    (hr : 0 ≤ r.collateral ∧ r.collateral + B ≤ Q) (hQ : Q ≤ 2 ^ 200) (ht : 0 < total) (hrt : r.collateral ≤ total) :
    At s (hypOne c env recips total y r) (Dollar.hypOne c env recips total y r) (fun _ s' => Tame Q B (n + 3) s')
      (Tame Q B N) := by
  have p0 : 0 ≤ Dollar.yieldPortion r.collateral total y := by
    unfold Dollar.yieldPortion Dollar.decTrunc Dollar.decMulInt Dollar.decQuoInt decOfInt
    exact Int.tdiv_nonneg (mul_nonneg (Int.tdiv_nonneg (mul_nonneg hr.1 (by decide)) ht.le) hy) (by decide)
  have p1 := Dollar.yieldPortion_le hr.1 hrt ht hy
  unfold hypOne Dollar.hypOne
  refine .lift (yieldPortion_some hr.1 ht hrt hy (by omega)) ?_
  generalize Dollar.yieldPortion r.collateral total y = portion at *
  refine .bind (takeRetry_at h) fun q s1 h1 => ?_
  have hq := h.retry HYPERLANE r.identifier
  rw [← h1.2.1] at hq
  refine .lift (add_small (by omega) (by omega)) (.ite (fun ha => ?_) fun _ => .pure (h1.1.mono (by omega)))
  refine .bind (J := fun _ s' => s' = s1) ?_ ?_
  · unfold hypRouter
    split
    · exact .pure rfl
    · exact .fail (h1.1.mono (by omega))
  · intro d s2 e
    rw [e]
    cases c.hexAddr ((recips.get? r.identifier).getD "") with
    | none => exact .fail (h1.1.mono (by omega))
    | some rcp =>
      refine .bind (J := fun _ => Kept Q B (n + 1) s1) (.attempt ?_) fun e s3 h3 => ?_
      · exact (warpTransfer_at hB (by omega) h1.1 ha hr hQ).mono (fun _ _ h => h) fun _ h _ => h
      · have hz : s3.retryOf HYPERLANE r.identifier = 0 := by
          have := h1.2.2.1; unfold State.retryOf at *; rw [h3.2]; exact this
        refine .bind (retryOnError_at (by omega) h3.1 (by omega) (by rw [hz]; omega)) fun _ s4 h4 => ?_
        exact (incrementExt_at hB (by omega) h4 p0 (by omega)).mono (fun _ _ h => h.mono (by omega)) fun _ h => h

theorem hypLoop_at {c : Cfg} {env : Env} {recips : KV String String} {total y Q B N : Int} (hQ : Q ≤ 2 ^ 200) (hB : B ≤ 2 ^ 130)
    (hN : N ≤ 2 ^ 45) (hy : 0 ≤ y) (hy' : y ≤ B) (ht : 0 < total) (rs : List Route)
    (hr : ∀ r ∈ rs, 0 ≤ r.collateral ∧ r.collateral + B ≤ Q ∧ r.collateral ≤ total)
    {n : Int} {s : State} (h : Tame Q B n s) (hn : n + 3 * rs.length ≤ N) :
    At s (hypLoop c env recips total y rs) (Dollar.hypLoop c env recips total y rs)
      (fun _ s' => Tame Q B (n + 3 * rs.length) s') (Tame Q B N) := by
  induction rs generalizing n s with
  | nil => exact .pure (h.mono (by simp))
  | cons r t ih =>
    rw [List.length_cons] at *
    push_cast at *
    obtain ⟨r1, r2, r3⟩ := hr r List.mem_cons_self
    unfold hypLoop Dollar.hypLoop
    refine .bind (hypOne_at hB (by omega) h (by omega) hy hy' ⟨r1, r2⟩ hQ ht r3) fun _ s1 h1 => ?_
    exact (ih (fun r hr' => hr r (List.mem_cons_of_mem _ hr')) h1 (by omega)).mono
      (fun _ _ h => h.mono (by omega)) fun _ h => h

theorem hypRoutes_wp {c : Cfg} {Q B n : Int} {s : State} (h : Tame Q B n s) (ids : List String) :
    wp (hypRoutes c ids) s
      (fun rs s' => s' = s ∧ rs.length = ids.length ∧ ∀ r ∈ rs, 0 ≤ r.collateral ∧ r.collateral ≤ Q)
      (fun _ s' => s' = s) := by
  induction ids with
  | nil => exact ⟨rfl, rfl, nofun⟩
  | cons id t ih =>
    unfold hypRoutes
    cases c.hexAddr id with
    | none => exact rfl
    | some raw =>
      simp only [wp.bind_iff, wp.get_iff]
      cases hc : s.collateral.get? (c.internalId raw) with
      | none => exact rfl
      | some col =>
        simp only [wp.bind_iff]
        refine ih.mono ?_ fun _ _ h => h
        rintro rs _ ⟨rfl, hl, hr⟩
        refine ⟨rfl, by rw [List.length_cons, List.length_cons, hl], fun r hr' => ?_⟩
        rcases List.mem_cons.1 hr' with rfl | hr'
        · exact h.col _ _ hc
        · exact hr r hr'

theorem claimExternalHyp_at {c : Cfg} {env : Env} {Q B n N : Int} {s : State} (hB : B ≤ 2 ^ 130) (hN : N ≤ 2 ^ 45)
    (hB0 : 0 ≤ B) (hQ : Q + B ≤ 2 ^ 200) (h : Tame Q B n s) (hn : n + 2 ^ 42 ≤ N) :
    At s (claimExternalHyperlane c env) (Dollar.claimExternalHyperlane c env)
      (fun _ s' => Tame (Q + B) B (n + 2 ^ 42) s') (Tame (Q + B) B N) := by
  have hl := (ids_length env s HYPERLANE).trans h.recs
  unfold claimExternalHyperlane Dollar.claimExternalHyperlane
  have up : ∀ {m : Int} {t : State}, Tame Q B m t → Tame (Q + B) B m t := fun h => h.raise (by omega)
  refine .get (.bind ((claimModuleYield_at hB (by omega) h (N := N) (by omega)).mono (fun _ _ h => h) fun _ h => up h)
    fun y s1 h1 => ?_)
  refine .ite (fun hy => ?_) fun _ => .pure (up (h1.1.mono (by omega)))
  refine .bind (.of rfl (hypRoutes_wp h1.1 _) (fun _ _ h => h) ?_) ?_
  · rintro _ _ rfl; exact up (h1.1.mono (by omega))
  rintro rs _ ⟨rfl, hlen, hr⟩
  have hc0 : ∀ r ∈ rs, 0 ≤ r.collateral := fun r hr' => (hr r hr').1
  have hsum : totalCollateral rs ≤ 2 ^ 200 * rs.length := by
    unfold totalCollateral
    have := List.sum_le_card_nsmul (rs.map Route.collateral) (2 ^ 200) (by
      intro x hx
      obtain ⟨r, hr', rfl⟩ := List.mem_map.1 hx
      have := (hr r hr').2
      omega)
    rw [List.length_map, nsmul_eq_mul, mul_comm] at this
    exact this
  have hs : sumFrom 0 (rs.map Route.collateral) = some (totalCollateral rs) := by
    rw [sumFrom_eq _ (le_refl 0)]
    · rw [zero_add]; rfl
    · intro x hx
      obtain ⟨r, hr', rfl⟩ := List.mem_map.1 hx
      exact hc0 r hr'
    · rw [zero_add]
      change totalCollateral rs ≤ _
      omega
  refine .lift hs (.ite (fun ht => ?_) fun _ => .pure (up (h1.1.mono (by omega))))
  refine (hypLoop_at hQ hB hN h1.2.1 h1.2.2.1 ht rs
    (fun r hr' => ⟨hc0 r hr', by have := (hr r hr').2; omega, le_totalCollateral hc0 hr'⟩) (up h1.1) (by omega)).mono
    (fun _ _ h => h.mono (by omega)) fun _ h => h

end Checked.Full
end Dollar
