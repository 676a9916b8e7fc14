import Verif.Lemmas.Live
import Verif.Props.C35
import Verif.Props.C42
import Verif.Props.C64
import Verif.Spec.Distribution

/-
C86: when an index announcement is accepted, and what it pays out of the yield account.
-/
set_option maxRecDepth 100000
set_option linter.unusedSimpArgs false
namespace Dollar
open MM Spec

theorem hypRoutes_live (c : Cfg) (ids : List String) (s : State) :
    wp (hypRoutes c ids) s (fun _ _ => True) (fun _ _ => ∃ id ∈ ids, ¬ RouteKnown c s id) := by
  induction ids with
  | nil => trivial
  | cons id t ih =>
    unfold hypRoutes
    split
    · next h =>
      refine ⟨id, by simp, ?_⟩
      rintro ⟨_, _, h1, _⟩
      unfold tokenOf at h1; rw [h] at h1; cases h1
    · next raw hraw =>
      simp only [wp.bind_iff, wp.get_iff]
      split
      · next hcol =>
        refine ⟨id, by simp, ?_⟩
        rintro ⟨t, col, h1, h2⟩
        unfold tokenOf at h1; rw [hraw] at h1
        cases h1
        rw [hcol] at h2; cases h2
      · refine wp.seq (Q := fun _ _ => True) (ih.mono (fun _ _ _ => trivial) ?_) (fun _ _ _ => trivial)
          (fun _ _ h => h)
        rintro _ _ ⟨x, hx, h⟩
        exact ⟨x, by simp [hx], h⟩

theorem broken_iff {c : Cfg} {env : Env} {s : State} (hs : s.recipients.Sorted) {r : Route} {x : String}
    (ht : tokenOf c r.identifier = some r.tokenId) (hx : s.recipients.get? (1, r.identifier) = some x) :
    Broken c env (recipientsBy s HYPERLANE) r ↔ ¬ Deliverable c env s r.identifier := by
  have hrec : (recipientsBy s HYPERLANE).get? r.identifier = some x := by
    rw [recipientsBy_get? hs]; exact hx
  unfold Broken
  rw [hrec]
  constructor
  · rintro h ⟨t, d, y, raw, h1, h2, h3, h4⟩
    rw [ht] at h1; cases h1
    rw [hx] at h3; cases h3
    rcases h with h | h
    · exact h d h2
    · have h : c.hexAddr x = none := h
      rw [h4] at h; cases h
  · intro h
    by_contra hn
    push Not at hn
    obtain ⟨⟨d, hd⟩, hh⟩ := hn
    have hh : c.hexAddr x ≠ none := hh
    obtain ⟨raw, hraw⟩ := Option.ne_none_iff_exists'.1 hh
    exact h ⟨_, d, x, raw, ht, hd, hx, hraw⟩

/-- The Hyperlane part of an index update. -/
theorem claimExternalHyperlane_live {c : Cfg} (hc : c.WF) (env : Env) {s : State}
    (hb : c.blocked c.warpAddr = false) (hg : Good c s) (hs : s.recipients.Sorted) :
    wp (claimExternalHyperlane c env) s
      (fun _ s' => s'.balance c.yieldAddr = s.balance c.yieldAddr - claimable s c.warpAddr ∧
        HypReady c env s (claimable s c.warpAddr))
      (fun _ _ => s.balance c.yieldAddr < claimable s c.warpAddr ∨ ¬ HypReady c env s (claimable s c.warpAddr)) := by
  have hwy : c.warpAddr ≠ c.yieldAddr := hc.mod_ne (by decide)
  have hv : HypView c s s (claimable s c.warpAddr) :=
    ⟨hg, rfl, rfl, rfl, fun _ => rfl, fun _ => rfl, rfl, rfl⟩
  unfold claimExternalHyperlane
  rw [wp.bind_iff, wp.get_iff]
  refine wp.seq (claimModuleYield_live hb) ?_ (fun _ _ h => .inl h.2)
  rintro y m ⟨hy, hm⟩
  have hy0 : 0 ≤ y := hy ▸ claimable_nonneg s _
  have hgm := hg.of_moved hm hy0
  have hp := hm.paid hwy
  rw [← hy] at hv ⊢
  refine wp.ite (fun hpos => ?_) (fun hn => ?_)
  swap
  · exact ⟨hp, fun h => absurd h hn⟩
  rw [sortedIds_eq env hs, ← hypIds_eq]
  have hR : wp (hypRoutes c (hypIds s)) m
      (fun rs s' => s' = m ∧ RoutesOf c s rs) (fun _ _ => ∃ id ∈ hypIds s, ¬ RouteKnown c s id) := by
    refine wp.intro ?_ ?_
    · intro rs s' hx
      obtain ⟨e, h1, h2⟩ := (hypRoutes_wp c _ m).of_ok hx
      refine ⟨e, by rw [h1, hypIds_eq], fun r hr => by rw [← hm.collateral]; exact h2 r hr⟩
    · intro e s' hx
      obtain ⟨id, h1, h2⟩ := (hypRoutes_live c _ m).of_err hx
      refine ⟨id, h1, ?_⟩
      unfold RouteKnown at h2 ⊢
      rwa [hm.collateral] at h2
  refine wp.seq hR ?_ ?_
  swap
  · rintro _ _ ⟨id, h1, h2⟩
    exact .inr fun h => h2 ((h hpos).1 id h1)
  rintro rs _ ⟨rfl, hro⟩
  have hids : rs.map Route.identifier = hypIds s := by rw [hro.1, ← hypIds_eq]
  have hknown : ∀ id ∈ hypIds s, RouteKnown c s id := by
    intro id hid
    rw [← hids] at hid
    obtain ⟨r, hr, rfl⟩ := List.mem_map.1 hid
    exact ⟨r.tokenId, r.collateral, hro.token hr, (hro.2 r hr).1⟩
  have hmem : ∀ r ∈ rs, ∃ x, s.recipients.get? (1, r.identifier) = some x := by
    intro r hx
    exact (mem_hypIds hs).1 (hids ▸ List.mem_map_of_mem hx)
  refine wp.ite (fun ht => ?_) (fun ht => ?_)
  swap
  · refine ⟨hp, fun _ => ⟨hknown, fun h => ?_⟩⟩
    rw [← hro.total] at h
    exact absurd h ht
  have facts : ∀ r ∈ rs, RouteFacts c env s _ (totalCollateral rs) y r :=
    fun r hx => routeFacts hc env hv hro ht hpos hm hx
  have hnd : (rs.map Route.identifier).Nodup := by
    rw [hids, hypIds_eq]; exact KV.nodup_keys (recipientsBy_sorted hs HYPERLANE)
  refine (hypLoop_rounds hc env _ _ _ ht hy0 rs hnd
    (fun r hr => hg.col _ (KV.mem_of_get? (hro.2 r hr).1)) hgm).mono ?_ ?_
  · intro _ s' h
    refine ⟨(h.bal _).trans hp, fun _ => ⟨hknown, fun _ id hid hpos' => ?_⟩⟩
    rw [← hids] at hid
    obtain ⟨r, hr, rfl⟩ := List.mem_map.1 hid
    obtain ⟨x, hx⟩ := hmem r hr
    have := h.sound r hr (by rw [(facts r hr).due]; exact hpos')
    rw [broken_iff hs (hro.token hr) hx] at this
    exact not_not.1 this
  · rintro _ s' ⟨done, r, rest, e, h⟩
    have hr : r ∈ rs := by rw [e]; simp
    obtain ⟨_, h1, h2⟩ := h.lost r (by simp)
    obtain ⟨x, hx⟩ := hmem r hr
    rw [broken_iff hs (hro.token hr) hx] at h1
    rw [(facts r hr).due] at h2
    refine .inr fun hrd => h1 ((hrd hpos).2 ?_ _ ?_ h2)
    · rw [← hro.total]; exact ht
    · rw [← hids]; exact List.mem_map_of_mem hr

theorem yieldAt_nn (s : State) (a : Addr) (i : Int) : 0 ≤ yieldAt s a i := by
  unfold yieldAt; split <;> omega

theorem HypView.ready {c : Cfg} {env : Env} {s m : State} {y : Int} (h : HypView c s m y) (z : Int) :
    HypReady c env m z ↔ HypReady c env s z := by
  unfold HypReady RouteKnown Deliverable hypOwed
  have e : ∀ id, m.retryOf 1 id = s.retryOf 1 id := h.retry
  simp only [h.hypIds, h.hypTotal, h.collateralOf, h.collateral, h.recipients, e]

theorem ibcIds_eq (s : State) : ibcIds s = ibcKeys s := by
  unfold ibcIds ibcKeys recipientsBy
  rw [List.map_filterMap]
  congr 1
  funext e
  by_cases h : e.1.1 = 0
  · rw [if_pos h, if_pos (show e.1.1 = IBC from h)]; rfl
  · rw [if_neg h, if_neg (show ¬ e.1.1 = IBC from h)]; rfl

/-- Every way an index update can fail without a panic, and what it pays when it does not. -/
theorem updateIndex_live {c : Cfg} (hc : c.WF) (hpay : Payable c) (env : Env) (i : Int) {s : State}
    (hg : Good c s) (hb : Backed c s) (hs : s.recipients.Sorted) (hca : CollectorApart c s) :
    wp (updateIndex c env i) s
      (fun _ s' => s.index < i ∧
        s'.balance c.yieldAddr = s.balance c.yieldAddr + (present s.totalPrincipal i - s.supply) - distribution c s i ∧
        HypReady c env s (yieldAt s c.warpAddr i))
      (fun _ _ => i ≤ s.index ∨
        s.balance c.yieldAddr + (present s.totalPrincipal i - s.supply) < distribution c s i ∨
        ¬ HypReady c env s (yieldAt s c.warpAddr i)) := by
  unfold updateIndex
  refine wp.seq (Q := fun a s' => a = s ∧ s' = s) (E := fun _ _ => False) ⟨rfl, rfl⟩ ?_
    (fun _ _ h => h.elim)
  rintro s0 s1 ⟨rfl, rfl⟩
  refine wp.ite (fun h => .inl h) (fun hlt => ?_)
  have hi : s1.index < i := by omega
  have hi0 : 0 < i := hg.index.trans hi
  have hgi := hg.indexSet hi0
  refine wp.seq (Q := fun _ s' => s' = indexSet s1 i) (E := fun _ _ => False) rfl ?_
    (fun _ _ h => h.elim)
  rintro _ _ rfl
  refine wp.seq (accrueYield_wp hc _ hgi) ?_ (fun _ _ h => h.elim)
  intro _ s2 ha
  have hg2 := ha.good hgi
  have hr2 : routeF s2 = routeF s1 := (congrArg routeF ha.frame :)
  have hsea : s2.seasonOneEnded = s1.seasonOneEnded := ha.season
  have hcol : s2.collector = s1.collector := ha.collector
  have hvs : ∀ x, ¬ VaultSide c s1 x → ¬ VaultSide c s2 x := by
    intro x hx h
    unfold VaultSide at hx h
    rw [hsea, hcol] at h
    exact hx h
  have hmono := (handleVaults_mono hc i hg2)
  have hy2 : s2.balance c.yieldAddr = s1.balance c.yieldAddr + (present s1.totalPrincipal i - s1.supply) := by
    rw [ha.bal, if_pos rfl]; rfl
  have hcl : ∀ x, x ≠ c.yieldAddr → claimable s2 x = yieldAt s1 x i := by
    intro x hx
    rw [claimable_congr (ha.same hx) ha.index, claimable_eq_yieldAt (s := indexSet s1 i) (hg.bal _) hi0]
    rfl
  have hvc : vaultClaims c s2 = yieldAt s1 c.stakedAddr i +
      (if s1.seasonOneEnded then 0 else yieldAt s1 c.flexibleAddr i) := by
    unfold vaultClaims
    rw [hcl _ hc.staked_ne_yield, hcl _ hc.flexible_ne_yield, hsea]
  have hsum0 : 0 ≤ ((ibcIds s1).map fun ch => yieldAt s1 (c.escrow "transfer" ch) i).sum := by
    apply List.sum_nonneg
    intro x hx
    obtain ⟨_, _, rfl⟩ := List.mem_map.1 hx
    exact yieldAt_nn _ _ _
  have hw0 : 0 ≤ yieldAt s1 c.warpAddr i := yieldAt_nn _ _ _
  have hdist : distribution c s1 i = vaultClaims c s2 +
      ((ibcIds s1).map fun ch => yieldAt s1 (c.escrow "transfer" ch) i).sum + yieldAt s1 c.warpAddr i := by
    rw [hvc]; rfl
  rw [hdist, ← hy2]
  have hV := handleVaults_live hc i hg2 hpay.1 hpay.2.1
  refine wp.seq (Q := fun _ m => m.balance c.yieldAddr = s2.balance c.yieldAddr - vaultClaims c s2 ∧
      Before c i s1 m ∧ ∀ ch, s1.balance (c.escrowAddr ch) ≤ m.balance (c.escrowAddr ch))
    (E := fun _ m => s2.balance c.yieldAddr < vaultClaims c s2) ?_ ?_ (fun _ _ h => .inr (.inl (by omega)))
  · refine wp.intro ?_ (fun _ _ hx => hV.of_err hx)
    · intro a m hx
      obtain ⟨h1, h2, h3⟩ := (handleVaults_good hc i hg2).of_ok hx
      refine ⟨hV.of_ok hx, ⟨h1, ((RouteF.handleVaults c i).ok hx).trans hr2, h2.trans ha.index, hi,
        h3.trans ha.recipients, ?_⟩, ?_⟩
      · intro x hx'
        rw [(handleVaults_acct (hcol ▸ hg.coll) i (hvs x hx')).of_ok hx]
        exact ha.same fun e => hx' (.inl e)
      · intro ch
        refine le_trans (le_of_eq ?_) (hmono.of_ok hx _ (hc.escrow_ne_yield ch))
        rw [ha.bal, if_neg (hc.escrow_ne_yield ch)]
        exact (Int.add_zero _).symm
  rintro _ m ⟨hmy, hm, hmm⟩
  have hbm := hm.backed hc hb hmm
  have hsm : m.recipients.Sorted := by rw [hm.recipients]; exact hs
  have hkeys : ibcKeys m = ibcIds s1 := by
    rw [ibcIds_eq]; unfold ibcKeys recipientsBy; rw [hm.recipients]
  have hrb : ∀ p, recipientsBy m p = recipientsBy s1 p := by
    intro p; unfold recipientsBy; rw [hm.recipients]
  have hcm : ibcClaims c m (ibcKeys m) = ((ibcIds s1).map fun ch => yieldAt s1 (c.escrow "transfer" ch) i).sum := by
    unfold ibcClaims
    rw [hkeys]
    congr 1
    refine List.map_congr_left fun ch _ => ?_
    exact (hm.claim hc hg (fun h => (hca h).2 ch)).2
  have hI := claimExternalIBC_live hc env hpay.2.2.2 hm.good hbm hsm
  have hI2 := claimExternalIBC_rounds hc env hm.good hbm hsm
  rw [hcm] at hI
  rw [hrb] at hI2
  generalize hS : ((ibcIds s1).map fun ch => yieldAt s1 (c.escrow "transfer" ch) i).sum = S at *
  refine wp.seq (Q := fun _ m2 => m2.balance c.yieldAddr = m.balance c.yieldAddr - S ∧
      IbcRounds c env (recipientsBy s1 IBC) ((recipientsBy s1 IBC).map Prod.fst) m m2 ∧ Good c m2)
    (E := fun _ _ => m.balance c.yieldAddr < S) ?_ ?_ (fun _ _ h => .inr (.inl (by omega)))
  · exact wp.intro (fun a s' hx => ⟨hI.of_ok hx, hI2.of_ok hx, ((claimExternalIBC_dist hc env hm.good).of_ok hx).1.1⟩)
      (fun e s' hx => hI.of_err hx)
  rintro _ m2 ⟨hy3, hr3, hg3⟩
  have hs3 : m2.recipients.Sorted := by rw [hr3.recipients]; exact hsm
  have hv := hypView hc hm hr3 hg3 (fun h => (hca h).1)
  have hH := claimExternalHyperlane_live hc env hpay.2.2.1 hg3 hs3
  rw [hv.claim, hv.ready] at hH
  refine wp.seq hH ?_ ?_
  · rintro _ m3 ⟨h1, h2⟩
    refine (show s1.index < i ∧ m3.balance c.yieldAddr = _ ∧ _ from ⟨hi, by omega, h2⟩)
  · rintro _ _ (h | h)
    · exact .inr (.inl (by omega))
    · exact .inr (.inr h)

/-- When an index update goes through. -/
theorem updateIndex_ok_iff {c : Cfg} (hc : c.WF) (hpay : Payable c) (env : Env) (i : Int) {s : State}
    (hg : Good c s) (hb : Backed c s) (hs : s.recipients.Sorted) (hca : CollectorApart c s) :
    (∃ s', updateIndex c env i s = .ok () s') ↔ s.index < i ∧ s.supply ≤ (s.totalPrincipal * i).tdiv (10 ^ 12) ∧
      distribution c s i ≤ s.balance c.yieldAddr + ((s.totalPrincipal * i).tdiv (10 ^ 12) - s.supply) ∧
      HypReady c env s (yieldAt s c.warpAddr i) := by
  have hl := updateIndex_live hc hpay env i hg hb hs hca
  have hp := updateIndex_panic_iff (c := c) (env := env) (i := i) hg.index
  have hpr : present s.totalPrincipal i = (s.totalPrincipal * i).tdiv (10 ^ 12) := rfl
  rw [hpr] at hp hl
  constructor
  · rintro ⟨s', h⟩
    obtain ⟨h1, h2, h3⟩ := hl.of_ok h
    have hnp : ¬ (s.index < i ∧ (s.totalPrincipal * i).tdiv (10 ^ 12) < s.supply) := by
      rw [← hp, h]; intro e; cases e
    have h0 : 0 ≤ s'.balance c.yieldAddr := by
      obtain ⟨hU, _⟩ := (updateIndex_wp hc env i hg).of_ok h
      exact hU.good.bal _
    refine ⟨h1, by omega, by omega, h3⟩
  · rintro ⟨h1, h2, h3, h4⟩
    cases hx : updateIndex c env i s with
    | ok u s' => exact ⟨s', rfl⟩
    | err e s' =>
      exfalso
      rcases hl.of_err hx with h | h | h
      · omega
      · omega
      · exact h h4
    | panic =>
      have := hp.1 hx
      omega

/-! ### The sum of what is paid is at most the sum over all accounts -/

theorem sum_le_of_subset {f : Addr → Int} {L F : List Addr} (h0 : ∀ a, 0 ≤ f a) (hL : L.Nodup)
    (hsub : ∀ a ∈ L, f a ≠ 0 → a ∈ F) : (L.map f).sum ≤ (F.map f).sum := by
  induction L generalizing F with
  | nil =>
    apply List.sum_nonneg
    intro x hx
    obtain ⟨a, _, rfl⟩ := List.mem_map.1 hx
    exact h0 a
  | cons a t ih =>
    rw [List.nodup_cons] at hL
    rw [List.map_cons, List.sum_cons]
    by_cases hz : f a = 0
    · rw [hz, Int.zero_add]
      exact ih hL.2 fun b hb => hsub b (List.mem_cons_of_mem _ hb)
    · have ha := hsub a List.mem_cons_self hz
      have h1 := (List.perm_cons_erase ha).map f
      rw [h1.sum_eq, List.map_cons, List.sum_cons]
      have h2 := ih (F := F.erase a) hL.2 fun b hb hne =>
        (List.mem_erase_of_ne (by rintro rfl; exact hL.1 hb)).2 (hsub b (List.mem_cons_of_mem _ hb) hne)
      omega

/-- The accounts an index update pays. -/
def paidAccounts (c : Cfg) (s : State) : List Addr :=
  c.stakedAddr :: ((if s.seasonOneEnded then [] else [c.flexibleAddr]) ++ ((ibcIds s).map c.escrowAddr ++ [c.warpAddr]))

theorem paidAccounts_sum (c : Cfg) (s : State) (i : Int) :
    ((paidAccounts c s).map fun a => yieldAt s a i).sum = distribution c s i := by
  have e : ((if s.seasonOneEnded = true then [] else [c.flexibleAddr]).map fun a => yieldAt s a i).sum =
      if s.seasonOneEnded = true then 0 else yieldAt s (c.modAddr "dollar/vaults/flexible") i := by
    split
    · rfl
    · simp only [List.map_cons, List.map_nil, List.sum_cons, List.sum_nil, Int.add_zero]; rfl
  unfold paidAccounts distribution
  rw [List.map_cons, List.sum_cons, List.map_append, List.sum_append, List.map_append, List.sum_append, e, List.map_map]
  simp only [List.map_cons, List.map_nil, List.sum_cons, List.sum_nil, Int.add_zero]
  show yieldAt s (c.modAddr "dollar/vaults/staked") i + (_ + (((ibcIds s).map fun ch => yieldAt s (c.escrow "transfer" ch) i).sum +
    yieldAt s (c.modAddr "warp") i)) = _
  omega

theorem paidAccounts_nodup {c : Cfg} (hc : c.WF) {s : State} (hs : s.recipients.Sorted) :
    (paidAccounts c s).Nodup := by
  have hesc : ∀ n ch, c.modAddr n ≠ c.escrowAddr ch := fun n ch => hc.mod_ne_escrow n _ ch
  have h1 : ((ibcIds s).map c.escrowAddr).Nodup := by
    rw [ibcIds_eq]
    exact (ibcKeys_nodup hs).map fun a b => hc.escrow_inj a b
  have h2 : ((ibcIds s).map c.escrowAddr ++ [c.warpAddr]).Nodup := by
    refine List.nodup_append.2 ⟨h1, by simp, ?_⟩
    intro a ha b hb
    obtain ⟨ch, _, rfl⟩ := List.mem_map.1 ha
    rw [List.mem_singleton.1 hb]
    exact (hesc _ ch).symm
  unfold paidAccounts
  rw [List.nodup_cons]
  constructor
  · rw [List.mem_append, List.mem_append]
    rintro (h | h | h)
    · split at h
      · cases h
      · exact hc.mod_ne (m := "dollar/vaults/staked") (n := "dollar/vaults/flexible") (by decide) (List.mem_singleton.1 h)
    · obtain ⟨ch, _, e⟩ := List.mem_map.1 h
      exact hesc _ ch e.symm
    · exact hc.mod_ne (m := "dollar/vaults/staked") (n := "warp") (by decide) (List.mem_singleton.1 h)
  · split
    · exact h2
    · rw [List.singleton_append, List.nodup_cons]
      refine ⟨?_, h2⟩
      rw [List.mem_append]
      rintro (h | h)
      · obtain ⟨ch, _, e⟩ := List.mem_map.1 h
        exact hesc _ ch e.symm
      · exact hc.mod_ne (m := "dollar/vaults/flexible") (n := "warp") (by decide) (List.mem_singleton.1 h)

theorem paidAccounts_ne_yield {c : Cfg} (hc : c.WF) {s : State} {a : Addr} (h : a ∈ paidAccounts c s) :
    a ≠ c.yieldAddr := by
  unfold paidAccounts at h
  rw [List.mem_cons, List.mem_append, List.mem_append] at h
  rcases h with rfl | h | h | h
  · exact hc.staked_ne_yield
  · split at h
    · cases h
    · rw [List.mem_singleton.1 h]; exact hc.flexible_ne_yield
  · obtain ⟨ch, _, rfl⟩ := List.mem_map.1 h
    exact hc.escrow_ne_yield ch
  · rw [List.mem_singleton.1 h]; exact hc.mod_ne (by decide)

/-- If at the new index no balance exceeds the value of its principal, the supply and what has to be
paid are covered. -/
theorem covered_update {c : Cfg} (hc : c.WF) {s : State} (hs : Shape s) (hl : Led c s)
    (hy : s.principalOf c.yieldAddr = 0) {i : Int} (hi : 0 < i)
    (hd : ∀ a, a ≠ c.yieldAddr → s.balance a ≤ s.principalOf a * i / 10 ^ 12) :
    distribution c s i ≤ s.balance c.yieldAddr + ((s.totalPrincipal * i).tdiv (10 ^ 12) - s.supply) := by
  have hb0 := hl.good.bal
  have hA := accounts_nodup' s
  generalize hF : (accounts s).filter (fun a => decide (a ≠ c.yieldAddr)) = F
  have e2 : (F.map s.balance).sum + s.balance c.yieldAddr = s.supply := by
    have h1 := sum_filter_split (f := s.balance) (y := c.yieldAddr) hA (by
      intro hn
      unfold State.balance
      cases hx : s.bal.get? c.yieldAddr with
      | none => rfl
      | some v =>
        exact absurd (List.mem_dedup.2 (List.mem_append_left _
          (List.mem_map_of_mem (f := Prod.fst) (KV.mem_of_get? hx)))) hn)
    rw [hF, sum_balances hs.bal] at h1
    exact h1.trans hl.sum
  have e3 : (F.map s.principalOf).sum ≤ s.totalPrincipal := by
    have h1 : (F.map s.principalOf).sum = ((accounts s).map s.principalOf).sum := by
      rw [← hF]
      refine sum_filter_zero _ fun a _ ha => ?_
      have ha : a = c.yieldAddr := by simpa using ha
      rw [ha]; exact hy
    rw [h1, sum_principals hs.principal]
    exact hl.gap
  have e4 := sum_floor_le s.principalOf i F
  have e5 := sum_pointwise (f := fun a => yieldAt s a i) (g := s.balance)
    (h := fun a => s.principalOf a * i / 10 ^ 12) (k := fun _ => 0) F fun a ha => by
      rw [← hF] at ha
      have ha : a ≠ c.yieldAddr := by simpa using (List.mem_filter.1 ha).2
      have := hd a ha
      unfold yieldAt
      split <;> omega
  have e6 : (F.map fun _ : Addr => (0 : Int)).sum = 0 := by
    apply List.sum_eq_zero
    intro x hx
    obtain ⟨_, _, rfl⟩ := List.mem_map.1 hx
    rfl
  have e7 : (F.map s.principalOf).sum * i ≤ s.totalPrincipal * i :=
    Int.mul_le_mul_of_nonneg_right e3 hi.le
  have e8 : (F.map fun a => s.principalOf a * i / 10 ^ 12).sum ≤ (s.totalPrincipal * i).tdiv (10 ^ 12) := by
    have h1 : (F.map fun a => s.principalOf a * i / 10 ^ 12).sum ≤
        s.totalPrincipal * i / 10 ^ 12 :=
      Int.le_ediv_of_mul_le (by decide) (e4.trans e7)
    refine h1.trans ?_
    by_cases h0 : 0 ≤ s.totalPrincipal * i
    · rw [Int.tdiv_eq_ediv_of_nonneg h0]
    · rw [Int.tdiv_eq_ediv]
      have : (0 : Int) ≤ if 0 ≤ s.totalPrincipal * i ∨ (10 ^ 12 : Int) ∣ s.totalPrincipal * i
          then 0 else (10 ^ 12 : Int).sign := by split <;> decide
      omega
  have e9 : distribution c s i ≤ (F.map fun a => yieldAt s a i).sum := by
    rw [← paidAccounts_sum]
    refine sum_le_of_subset (fun a => yieldAt_nn s a i) (paidAccounts_nodup hc hs.recipients) fun a ha hne => ?_
    rw [← hF, List.mem_filter]
    refine ⟨?_, by simpa using paidAccounts_ne_yield hc ha⟩
    by_contra hn
    apply hne
    have hp : s.principalOf a = 0 := by
      unfold State.principalOf
      cases hx : s.principal.get? a with
      | none => rfl
      | some v =>
        exact absurd (List.mem_dedup.2 (List.mem_append_right _
          (List.mem_map_of_mem (f := Prod.fst) (KV.mem_of_get? hx)))) hn
    unfold yieldAt
    rw [hp, if_neg]
    have := hb0 a
    simp only [Int.zero_mul, Int.zero_ediv]
    omega
  omega

theorem distribution_nonneg (c : Cfg) (s : State) (i : Int) : 0 ≤ distribution c s i := by
  rw [← paidAccounts_sum]
  apply List.sum_nonneg
  intro x hx
  obtain ⟨_, _, rfl⟩ := List.mem_map.1 hx
  exact yieldAt_nn _ _ _

/-! ### The claim -/

theorem content_index {env : Env} {vaa : Bytes} {v : VAA} {i : Int} {ch : Nat} (hv : env.verify vaa = some v)
    {t : TransceiverMessage Sl} (hpt : parseTransceiver v.payload = .ok t)
    (hq : content env vaa = some (.index i ch)) :
    ∃ mm, parseManager t.managerPayload = .ok mm ∧ payloadType mm.payload = .ok .index ∧
      decodeIndex mm.payload = .ok (i, ch) := by
  unfold content innerPayload at hq
  simp only [hv, hpt] at hq
  cases hmm : parseManager t.managerPayload with
  | err => simp [hmm] at hq
  | panic => simp [hmm] at hq
  | ok mm =>
    simp only [hmm] at hq
    unfold contentOf at hq
    refine ⟨mm, rfl, ?_⟩
    cases hty : payloadType mm.payload with
    | err => simp [hty] at hq
    | panic => simp [hty] at hq
    | ok ty =>
      cases ty with
      | unknown => simp [hty] at hq
      | token =>
        simp only [hty] at hq
        cases hd : decodeToken mm.payload with
        | err => simp [hd] at hq
        | panic => simp [hd] at hq
        | ok p => simp [hd] at hq
      | index =>
        simp only [hty] at hq
        cases hd : decodeIndex mm.payload with
        | err => simp [hd] at hq
        | panic => simp [hd] at hq
        | ok p =>
          simp only [hd, Option.some.injEq, Content.index.injEq] at hq
          obtain ⟨rfl, rfl⟩ := hq
          exact ⟨rfl, rfl⟩

/-- An index announcement is accepted exactly when it is admitted and made for this chain, its index is
larger than the current one, the total principal is worth at least the supply at that index, the yield
account with the new coins covers what has to be paid out, and the warp routes are ready for their part. -/
theorem C86_accepted_iff {c : Cfg} (hc : c.WF) (hpay : Payable c) {s : State} (hr : Reachable c s)
    (hca : CollectorApart c s) (env : Env) (vaa : Bytes) (v : VAA) (hv : env.verify vaa = some v)
    (i : Int) (chain : Nat) (hq : content env vaa = some (.index i chain)) :
    (∃ s', exec c env (.deliver vaa) s = .ok () s') ↔
      Admitted c s v ∧ chain = c.chain ∧ s.index < i ∧ s.supply ≤ (s.totalPrincipal * i).tdiv (10 ^ 12) ∧
      distribution c s i ≤
        s.balance (c.modAddr "dollar/yield") + ((s.totalPrincipal * i).tdiv (10 ^ 12) - s.supply) ∧
      HypReady c env s (yieldAt s (c.modAddr "warp") i) := by
  have hup : ∀ d : Bytes, (∃ s', updateIndex c env i { s with archive := s.archive ++ [d] } = .ok () s') ↔
      s.index < i ∧ s.supply ≤ (s.totalPrincipal * i).tdiv (10 ^ 12) ∧
      distribution c s i ≤
        s.balance (c.modAddr "dollar/yield") + ((s.totalPrincipal * i).tdiv (10 ^ 12) - s.supply) ∧
      HypReady c env s (yieldAt s (c.modAddr "warp") i) := fun d =>
    updateIndex_ok_iff (s := { s with archive := s.archive ++ [d] }) hc hpay env i (hr.led hc).good.congr
      (hr.backed hc) hr.shape.recipients hca
  constructor
  · rintro ⟨s', h⟩
    obtain ⟨hp, w, peer, t, mm, n, h1, h2, h3, h4, h5, h6, h7, h8, h9, rfl⟩ :=
      (deliver_ok (show deliver c env vaa s = .ok () s' from h)).run
    rw [hv] at h1
    cases h1
    obtain ⟨mm', g1, g2, g3⟩ := content_index hv h5 hq
    rw [h8] at g1; cases g1
    cases h9 with
    | ignored hpt e => rw [g2] at hpt; cases hpt
    | token p m1 hpt => rw [g2] at hpt; cases hpt
    | index j hpt hd hx =>
      rw [g3] at hd
      cases hd
      exact ⟨⟨hp, h2, peer, t, h3, h4, h5, h6.symm, h7.symm⟩, rfl, (hup _).1 ⟨_, hx⟩⟩
  · rintro ⟨⟨hp, hn, peer, t, h3, h4, h5, h6, h7⟩, rfl, hx⟩
    obtain ⟨s1, h1⟩ := (hup v.digest).2 hx
    obtain ⟨mm, hmm, hty, hdt⟩ := content_index hv h5 hq
    have h7 : t.recipientManager.bytes = c.paddedManager := h7
    show ∃ s', deliver c env vaa s = .ok () s'
    simp only [hp] at h1
    unfold deliver deliverInner verifyVAA
    simp only [bind_apply, get_apply, hp, Bool.false_eq_true, if_false, hv, if_neg hn, modify_apply, pure_apply, h3,
      h4, ne_eq, not_true_eq_false]
    unfold deliverPayload
    simp only [bind_apply, parse, h5, hmm, pure_apply, h6, h7, ne_eq, not_true_eq_false, if_false]
    unfold handlePayload
    simp only [bind_apply, parse, hty, pure_apply]
    unfold handleIndex
    simp only [bind_apply, parse, hdt, pure_apply, ne_eq, not_true_eq_false, if_false, h1]
    exact ⟨_, rfl⟩

/-- What an accepted announcement leaves in the yield account: what was there, plus the new coins, minus
what was paid to the vaults, the escrow accounts and the warp account. -/
theorem C86_yield_account {c : Cfg} (hc : c.WF) (hpay : Payable c) {s s' : State} (hr : Reachable c s)
    (hca : CollectorApart c s) (env : Env) (vaa : Bytes)
    (i : Int) (chain : Nat) (hq : content env vaa = some (.index i chain))
    (h : exec c env (.deliver vaa) s = .ok () s') :
    s'.balance (c.modAddr "dollar/yield") =
      s.balance (c.modAddr "dollar/yield") + (s'.supply - s.supply) - distribution c s i := by
  obtain ⟨_, _, _, hsup, _⟩ := C03_delivered_index hc hr env vaa i chain hq h
  obtain ⟨hp, v, peer, t, mm, n, h1, h2, h3, h4, h5, h6, h7, h8, h9, rfl⟩ :=
    (deliver_ok (show deliver c env vaa s = .ok () s' from h)).run
  obtain ⟨mm', g1, g2, g3⟩ := content_index h1 h5 hq
  rw [h8] at g1; cases g1
  cases h9 with
  | ignored hpt e => rw [g2] at hpt; cases hpt
  | token p m1 hpt => rw [g2] at hpt; cases hpt
  | index j hpt hd hx =>
    rw [g3] at hd
    cases hd
    obtain ⟨_, e, _⟩ := (updateIndex_live (s := { s with archive := s.archive ++ [v.digest] }) hc hpay env i
      (hr.led hc).good.congr (hr.backed hc) hr.shape.recipients hca).of_ok hx
    rw [hsup]
    exact e

/-- If at the announced index no balance (outside the yield account) exceeds the value of its principal,
the yield account always suffices: the announcement is then accepted exactly when it is admitted, for this
chain, larger, does not shrink the supply, and the warp routes are ready. -/
theorem C86_covered {c : Cfg} (hc : c.WF) (hpay : Payable c) {s : State} (hr : Reachable c s)
    (hca : CollectorApart c s) (env : Env) (vaa : Bytes) (v : VAA) (hv : env.verify vaa = some v)
    (i : Int) (chain : Nat) (hq : content env vaa = some (.index i chain))
    (hd : ∀ a, a ≠ c.modAddr "dollar/yield" → s.balance a ≤ s.principalOf a * i / 10 ^ 12) :
    (∃ s', exec c env (.deliver vaa) s = .ok () s') ↔
      Admitted c s v ∧ chain = c.chain ∧ s.index < i ∧ s.supply ≤ (s.totalPrincipal * i).tdiv (10 ^ 12) ∧
      HypReady c env s (yieldAt s (c.modAddr "warp") i) := by
  rw [C86_accepted_iff hc hpay hr hca env vaa v hv i chain hq]
  constructor
  · rintro ⟨h1, h2, h3, h4, _, h6⟩
    exact ⟨h1, h2, h3, h4, h6⟩
  · rintro ⟨h1, h2, h3, h4, h6⟩
    exact ⟨h1, h2, h3, h4, covered_update hc hr.shape (hr.led hc) (C08_principal_constant hc hr)
      ((hr.led hc).good.index.trans h3) hd, h6⟩

/-- An accepted token delivery reports an index update exactly when the index it quotes is larger than
the current one, the yield account with the new coins covers what has to be paid out, and the warp routes
are ready. -/
theorem C86_transfer_updates_iff {c : Cfg} (hc : c.WF) (hpay : Payable c) {s s' : State} (hr : Reachable c s)
    (hca : CollectorApart c s) (env : Env) (vaa : Bytes) (amount : Nat) (i : Int) (r : Bytes) (chain : Nat)
    (token : Bytes) (hq : content env vaa = some (.token amount i r chain token))
    (h : exec c env (.deliver vaa) s = .ok () s') :
    (∃ a b p y, .indexUpdated a b p y ∈ s'.events.drop s.events.length) ↔
      s.index < i ∧
      distribution c s i ≤
        s.balance (c.modAddr "dollar/yield") + ((s.totalPrincipal * i).tdiv (10 ^ 12) - s.supply) ∧
      HypReady c env s (yieldAt s (c.modAddr "warp") i) := by
  obtain ⟨hp, v, peer, t, mm, n, h1, h2, h3, h4, h5, h6, h7, h8, h9, rfl⟩ :=
    (deliver_ok (show deliver c env vaa s = .ok () s' from h)).run
  have hacc := ((C64_token_accepted_iff hc hr env vaa v h1 amount i r chain token hq).1 ⟨_, h⟩).2.2.2.2
  have hcon : content env vaa = contentOf mm.payload := by
    unfold content innerPayload
    simp only [h1, h5, h8]
  rw [hcon] at hq
  have hg : Good c { s with archive := s.archive ++ [v.digest] } := (hr.led hc).good.congr
  have hup := updateIndex_ok_iff (s := { s with archive := s.archive ++ [v.digest] }) hc hpay env i hg
      (hr.backed hc) hr.shape.recipients hca
  cases h9 with
  | ignored hpt e =>
    exfalso
    unfold contentOf at hq; rw [hpt] at hq; cases hq
  | index i hpt hd _ =>
    exfalso
    unfold contentOf at hq; rw [hpt] at hq; simp only [hd] at hq; cases hq
  | token p m1 hpt hd e1 e2 hmint e =>
    unfold contentOf at hq; rw [hpt] at hq; simp only [hd] at hq
    cases hq
    obtain ⟨s1, hi, hu, hmk⟩ := mint_ok hc hg hmint
    have e1 : m1.events = s1.events := hmk.moved.events
    have e3 : ∀ l, s1.events = s.events ++ l →
        List.drop s.events.length (n.events ++ [.delivered vaa]) = l ++
          [.mTokenReceived v.emitterChain p.token mm.sender.bytes p.recipient p.amount p.index
            (managerDigest c v.emitterChain mm.bytes),
           .transferRedeemed (managerDigest c v.emitterChain mm.bytes), .delivered vaa] := by
      intro l hl
      rw [e]
      show List.drop _ (m1.events ++ _ ++ _ ++ _) = _
      rw [e1, hl]
      simp only [List.append_assoc]
      rw [List.drop_left]
      rfl
    show (∃ a b q y, .indexUpdated a b q y ∈ List.drop s.events.length (n.events ++ [.delivered vaa])) ↔ _
    rw [ignore_ok] at hi
    constructor
    · rintro ⟨a, b, q, y, hmem⟩
      rcases hi with hi | ⟨er, hi⟩
      · obtain ⟨k1, _, k3, k4⟩ := hup.1 ⟨_, hi⟩
        exact ⟨k1, k3, k4⟩
      · exfalso
        rw [e3 [] (by rw [(EvF.updateIndex_err c env hi).1]; simp)] at hmem
        simp at hmem
    · rintro ⟨k1, k2, k3⟩
      obtain ⟨s2, hx⟩ := hup.2 ⟨k1, by
        show s.supply ≤ (s.totalPrincipal * _).tdiv _
        by_contra hn
        exact hacc ⟨k1, by omega⟩, k2, k3⟩
      rcases hi with hi | ⟨er, hi⟩
      · obtain ⟨_, hU⟩ := (updateIndex_wp hc env p.index hg).of_ok hi
        rw [e3 _ hU.events]
        exact ⟨_, _, _, _, List.mem_cons_self⟩
      · rw [hx] at hi; cases hi

/-! ### Demo -/

namespace Demo

theorem payable : Payable cfg := by
  refine ⟨by decide, by decide, by decide, fun ch => ?_⟩
  have h : cfg.escrow "transfer" ch ≠ cfg.modAddr "dollar" := fun e => cfg_wf.mod_ne_escrow _ _ _ e.symm
  exact decide_eq_false h

/-- 300 units arrive at index 3 (principal 100), and alice sends one of them over IBC, which moves a whole
unit of principal, worth 3, into the escrow account. -/
def histDust : History :=
  [(env3 1, .deliver [1]), (env3 2, .ibcTransfer alice "channel-0" "noble1remote" 1)]

theorem histDust_signed : History.Signed cfg histDust := by
  intro e he
  simp only [histDust, List.mem_cons, List.not_mem_nil, or_false] at he
  rcases he with rfl | rfl
  · trivial
  · exact alice_user

theorem covered_accounts {s : State} {y : Addr} {i : Int}
    (h : ∀ a ∈ accounts s, a ≠ y → s.balance a ≤ s.principalOf a * i / 10 ^ 12) :
    ∀ a, a ≠ y → s.balance a ≤ s.principalOf a * i / 10 ^ 12 := by
  intro a ha
  by_cases hm : a ∈ accounts s
  · exact h a hm ha
  have hb : s.balance a = 0 := by
    unfold State.balance
    cases hx : s.bal.get? a with
    | none => rfl
    | some v =>
      exact absurd (List.mem_dedup.2 (List.mem_append_left _
        (List.mem_map_of_mem (f := Prod.fst) (KV.mem_of_get? hx)))) hm
  have hp : s.principalOf a = 0 := by
    unfold State.principalOf
    cases hx : s.principal.get? a with
    | none => rfl
    | some v =>
      exact absurd (List.mem_dedup.2 (List.mem_append_right _
        (List.mem_map_of_mem (f := Prod.fst) (KV.mem_of_get? hx)))) hm
  rw [hb, hp]
  simp

end Demo

/-- The condition on the yield account matters: a user's IBC transfer of one unit can make a correct
announcement of a larger index fail, although the supply would not shrink and no warp route is involved. -/
theorem C86_dust_blocks_announcement : ∃ (c : Cfg) (s : State) (env : Env) (vaa : Bytes) (v : VAA) (i : Int),
    c.WF ∧ Payable c ∧ Reachable c s ∧ CollectorApart c s ∧ env.verify vaa = some v ∧
    content env vaa = some (.index i c.chain) ∧ Admitted c s v ∧ s.index < i ∧
    s.supply ≤ (s.totalPrincipal * i).tdiv (10 ^ 12) ∧ hypIds s = [] ∧
    ¬ ∃ s', exec c env (.deliver vaa) s = .ok () s' := by
  have hq : content (Demo.env3 3) [2] = some (.index 3000000000001 4009) := by decide +kernel
  have hadm : Admitted Demo.cfg (run Demo.cfg Demo.histDust Demo.start3) (Demo.vaaIndex 2 3000000000001) := by
    -- the same message is accepted when it comes directly after the delivery
    have h := exec_of_isOk (c := Demo.cfg) (s := run Demo.cfg (Demo.histDust.take 1) Demo.start3) (m := .deliver [2])
      (env := Demo.env3 3) (by decide +kernel)
    obtain ⟨_, v, peer, t, mm, n, h1, _, h3, h4, h5, h6, h7, _⟩ :=
      (deliver_ok (show deliver _ _ _ _ = .ok () _ from h)).run
    cases h1
    refine ⟨by decide +kernel, by decide +kernel, peer, t, ?_, h4, h5, h6.symm, h7.symm⟩
    rw [← h3]
    decide +kernel
  refine ⟨Demo.cfg, run Demo.cfg Demo.histDust Demo.start3, Demo.env3 3, [2], _, 3000000000001,
    Demo.cfg_wf, Demo.payable, .of_run Demo.start3_initial Demo.histDust_signed, ?_, rfl, hq, hadm,
    by decide +kernel, by decide +kernel, by decide +kernel, ?_⟩
  · intro h
    exact absurd h (by decide +kernel)
  · rintro ⟨s', h⟩
    have : (exec Demo.cfg (Demo.env3 3) (.deliver [2]) (run Demo.cfg Demo.histDust Demo.start3)).isOk = false := by
      decide +kernel
    rw [h] at this
    cases this

/-- Non-vacuity: with two Hyperlane routes and an IBC channel, an announcement meets the conditions; 0.3 of
the 1.0 new USDN is paid out. -/
example : ∃ s', exec Demo.cfg (Demo.env 8) (.deliver [3]) (run Demo.cfg Demo.histExt Demo.start) = .ok () s' ∧
    distribution Demo.cfg (run Demo.cfg Demo.histExt Demo.start) 1100000000000 = 300000 ∧
    s'.balance (Demo.cfg.modAddr "dollar/yield") = 700000 := by
  have hca : CollectorApart Demo.cfg (run Demo.cfg Demo.histExt Demo.start) := fun h =>
    absurd h (by decide +kernel)
  have hq : content (Demo.env 8) [3] = some (.index 1100000000000 4009) := by decide +kernel
  have hx := exec_of_isOk (c := Demo.cfg) (s := run Demo.cfg Demo.histExt Demo.start) (m := .deliver [3])
    (env := Demo.env 8) (by decide +kernel)
  obtain ⟨h1, h2, h3, h4, h5⟩ := (C86_covered Demo.cfg_wf Demo.payable Demo.reachExt hca (Demo.env 8) [3] _ rfl _ _ hq
    (Demo.covered_accounts (by decide +kernel))).1 ⟨_, hx⟩
  obtain ⟨s', hs⟩ := (C86_accepted_iff Demo.cfg_wf Demo.payable Demo.reachExt hca (Demo.env 8) [3] _ rfl _ _ hq).2
    ⟨h1, h2, h3, h4, by decide +kernel, h5⟩
  refine ⟨s', hs, by decide +kernel, ?_⟩
  have e := C86_yield_account Demo.cfg_wf Demo.payable Demo.reachExt hca (Demo.env 8) [3] _ _ hq hs
  rw [e, (C03_delivered_index Demo.cfg_wf Demo.reachExt (Demo.env 8) [3] _ _ hq hs).2.2.2.1]
  decide +kernel

/-- Non-vacuity: a token delivery that quotes a larger index and reports the update, and the same when the
routers are missing: accepted without a report. -/
example : (content (Demo.env 9) [4]).isSome ∧
    (exec Demo.cfg (Demo.env 9) (.deliver [4]) (run Demo.cfg Demo.histExt Demo.start)).isOk ∧
    ((step Demo.cfg (Demo.env 9) (.deliver [4]) (run Demo.cfg Demo.histExt Demo.start)).events.drop
      (run Demo.cfg Demo.histExt Demo.start).events.length).length = 4 ∧
    ((step Demo.cfg { Demo.env 9 with routers := fun _ => [] } (.deliver [4])
      (run Demo.cfg Demo.histExt Demo.start)).events.drop
      (run Demo.cfg Demo.histExt Demo.start).events.length).length = 3 :=
  ⟨by decide +kernel, by decide +kernel, by decide +kernel, by decide +kernel⟩

end Dollar
