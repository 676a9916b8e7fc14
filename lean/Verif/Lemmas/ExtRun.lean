import Verif.Lemmas.ExtHyp

/-
What an index update does to the external routes, whether it succeeds or fails.
-/
set_option linter.unusedSimpArgs false
set_option linter.unusedTactic false
set_option linter.unreachableTactic false
namespace Dollar
open MM

theorem Leaves.err {β α : Type} {f : State → β} {x : M α} (h : Leaves f x) {s s' : State} {e : Err}
    (hx : x s = .err e s') : f s' = f s := by
  have := (h (f s)).steps s
  rw [hx] at this
  exact this rfl

/-! ### Vault handling leaves the routes alone -/

namespace RouteF
variable (c : Cfg)

theorem sendModuleToAccount (a b : Addr) (v : Int) : Leaves routeF (sendModuleToAccount c a b v) :=
  (Other.sendModuleToAccount c a b v).mono fun _ _ h => congrArg Prod.snd h

theorem handleVaults (i : Int) : Leaves routeF (handleVaults c i) := by
  unfold Dollar.handleVaults handleSeasonOne handleSeasonTwo claimStakedVaultYield addPrincipal
  leaves <;> first
    | exact claimModuleYield _ _ _ | exact sendCoins _ _ _ _ _ | exact sendModuleToAccount _ _ _ _ _

end RouteF

theorem Acct.handleSeasonOne (c : Cfg) {x : Addr} (hy : x ≠ c.yieldAddr) (hs : x ≠ c.stakedAddr)
    (hf : x ≠ c.flexibleAddr) (i : Int) : Leaves (bp x) (handleSeasonOne c i) := by
  unfold Dollar.handleSeasonOne claimStakedVaultYield
  leaves <;> first
    | exact Acct.claimModuleYield _ hy hf _
    | exact Acct.sendModuleToAccount _ hy hf _ _
    | exact Acct.addPrincipal hs _ _
    | exact Acct.addPrincipal hf _ _

/-- Accounts that vault handling may touch. -/
def VaultSide (c : Cfg) (s : State) (x : Addr) : Prop :=
  x = c.yieldAddr ∨ x = c.stakedAddr ∨ x = c.flexibleAddr ∨
    (s.seasonOneEnded = true ∧ x = s.collector)

theorem handleVaults_acct {c : Cfg} {s : State} (hcol : s.collector ≠ c.yieldAddr) (i : Int) {x : Addr} (hx : ¬ VaultSide c s x) :
    wp (handleVaults c i) s (fun _ s' => bp x s' = bp x s) (fun _ s' => bp x s' = bp x s) := by
  have h1 : x ≠ c.yieldAddr := fun e => hx (.inl e)
  have h2 : x ≠ c.stakedAddr := fun e => hx (.inr (.inl e))
  have h3 : x ≠ c.flexibleAddr := fun e => hx (.inr (.inr (.inl e)))
  unfold handleVaults
  simp only [wp.bind_iff, wp.get_iff]
  refine wp.ite (fun hs => ?_) (fun _ => ?_)
  · have h4 : x ≠ s.collector := fun e => hx (.inr (.inr (.inr ⟨hs, e⟩)))
    unfold handleSeasonTwo
    refine wp.seq (claimModuleYield_wp c _ s) ?_ (fun _ _ h => by rw [h])
    rintro y m ⟨_, hm⟩
    have e1 : bp x m = bp x s := by
      unfold bp; rw [hm.same h1 h2, hm.prin_same h1 h2]
    refine wp.ite (fun _ => ?_) (fun _ => e1)
    simp only [wp.bind_iff, wp.get_iff]
    have hcm : m.collector = s.collector := hm.collector
    have h5 : x ≠ m.collector := by rw [hcm]; exact h4
    refine (sendCoins_wp c _ _ _ m).mono ?_ ?_
    · intro _ s' h
      rw [← e1]; unfold bp; rw [h.same h2 h5, h.prin_same h2 h5]
    · intro _ s' h
      rw [h.of_ne (by rw [hcm]; exact hcol)]; exact e1
  · exact wp.intro (fun a s' hx' => (Acct.handleSeasonOne c h1 h2 h3 i).ok hx')
      (fun e s' hx' => (Acct.handleSeasonOne c h1 h2 h3 i).err hx')

/-- The state before the external routes are served. -/
structure Before (c : Cfg) (i : Int) (s m : State) : Prop where
  good : Good c m
  route : routeF m = routeF s
  index : m.index = i
  greater : s.index < i
  recipients : m.recipients = s.recipients
  acct : ∀ x, ¬ VaultSide c s x → bp x m = bp x s

theorem handleVaults_good {c : Cfg} (hc : c.WF) (i : Int) {s : State} (hg : Good c s) :
    wp (handleVaults c i) s (fun _ s' => Good c s' ∧ s'.index = s.index ∧ s'.recipients = s.recipients)
      (fun _ _ => True) := by
  unfold handleVaults
  simp only [wp.bind_iff, wp.get_iff]
  refine wp.ite (fun _ => ?_) (fun _ => ?_)
  · exact (handleSeasonTwo_wp hc hg).mono (fun _ _ h => ⟨h.1, h.2.index, h.2.recipients⟩)
      (fun _ _ _ => trivial)
  · refine (handleSeasonOne_wp hc i hg).mono ?_ (fun _ _ _ => trivial)
    rintro _ s' ⟨m, r, h1, h2, _, _, rfl⟩
    exact ⟨h1.congr, h2.index, h2.recipients⟩

theorem handleVaults_mono {c : Cfg} (hc : c.WF) (i : Int) {s : State} (hg : Good c s) :
    wp (handleVaults c i) s (fun _ s' => ∀ x, x ≠ c.yieldAddr → s.balance x ≤ s'.balance x)
      (fun _ _ => True) := by
  unfold handleVaults
  simp only [wp.bind_iff, wp.get_iff]
  refine wp.ite (fun _ => ?_) (fun _ => ?_)
  · exact (handleSeasonTwo_wp hc hg).mono (fun _ _ h => h.2.mono) (fun _ _ _ => trivial)
  · refine (handleSeasonOne_wp hc i hg).mono ?_ (fun _ _ _ => trivial)
    rintro _ s' ⟨m, r, h1, h2, _, _, rfl⟩
    exact h2.mono

/-- The routes read in the first pass. -/
def RoutesOf (c : Cfg) (s : State) (rs : List Route) : Prop :=
  rs.map Route.identifier = (recipientsBy s HYPERLANE).map Prod.fst ∧
  ∀ r ∈ rs, s.collateral.get? r.tokenId = some r.collateral ∧
    ∃ raw, c.hexAddr r.identifier = some raw ∧ r.tokenId = c.internalId raw

/-- A successful Hyperlane round from `s`. -/
def HypDone (c : Cfg) (env : Env) (s s' : State) : Prop :=
  ∃ m, Moved c s c.yieldAddr c.warpAddr (claimable s c.warpAddr) m ∧
    ((claimable s c.warpAddr = 0 ∧ s' = m) ∨
     (0 < claimable s c.warpAddr ∧ ∃ rs, RoutesOf c s rs ∧
       ((totalCollateral rs ≤ 0 ∧ s' = m) ∨
        (0 < totalCollateral rs ∧ HypRounds c env (recipientsBy s HYPERLANE) (totalCollateral rs)
          (claimable s c.warpAddr) rs [] m s'))))

/-- A failed Hyperlane round from `s`. -/
def HypFailed (c : Cfg) (env : Env) (s s' : State) : Prop :=
  s' = s ∨ ∃ m, Moved c s c.yieldAddr c.warpAddr (claimable s c.warpAddr) m ∧
    (s' = m ∨ (0 < claimable s c.warpAddr ∧ ∃ rs done r rest, RoutesOf c s rs ∧
      rs = done ++ r :: rest ∧ 0 < totalCollateral rs ∧
      HypRounds c env (recipientsBy s HYPERLANE) (totalCollateral rs) (claimable s c.warpAddr)
        done [r] m s'))

theorem claimExternalHyperlane_rounds {c : Cfg} (hc : c.WF) (env : Env) {s : State} (hg : Good c s)
    (hs : s.recipients.Sorted) :
    wp (claimExternalHyperlane c env) s (fun _ s' => HypDone c env s s')
      (fun _ s' => HypFailed c env s s') := by
  unfold claimExternalHyperlane
  rw [wp.bind_iff, wp.get_iff]
  refine wp.seq (claimModuleYield_wp c _ s) ?_ (fun _ _ h => .inl h)
  rintro y m ⟨hy, hm⟩
  have hy0 : 0 ≤ y := hy ▸ claimable_nonneg s _
  have hgm := hg.of_moved hm hy0
  subst hy
  refine wp.ite (fun hpos => ?_) (fun hn => ?_)
  swap
  · exact ⟨m, hm, .inl ⟨by omega, rfl⟩⟩
  rw [sortedIds_eq env hs]
  refine wp.seq (hypRoutes_wp c _ m) ?_ ?_
  swap
  · rintro _ s' rfl
    exact .inr ⟨_, hm, .inl rfl⟩
  rintro rs s' ⟨rfl, h1, h2⟩
  have hro : RoutesOf c s rs := ⟨h1, fun r hr => by rw [← hm.collateral]; exact h2 r hr⟩
  refine wp.ite (fun ht => ?_) (fun ht => ?_)
  swap
  · exact ⟨_, hm, .inr ⟨hpos, rs, hro, .inl ⟨by omega, rfl⟩⟩⟩
  have hnd : (rs.map Route.identifier).Nodup := by
    rw [h1]; exact KV.nodup_keys (recipientsBy_sorted hs HYPERLANE)
  refine (hypLoop_rounds hc env _ _ _ ht hy0 rs hnd
    (fun r hr => hgm.col _ (KV.mem_of_get? (h2 r hr).1)) hgm).mono ?_ ?_
  · intro _ s' h
    exact ⟨_, hm, .inr ⟨hpos, rs, hro, .inr ⟨ht, h⟩⟩⟩
  · rintro _ s' ⟨done, r, rest, e, h⟩
    exact .inr ⟨_, hm, .inr ⟨hpos, rs, done, r, rest, hro, e, ht, h⟩⟩

/-- The channels with a recipient. -/
def ibcKeys (s : State) : List String := (recipientsBy s IBC).map Prod.fst

/-- A successful index update. -/
def ExtDone (c : Cfg) (env : Env) (i : Int) (s s' : State) : Prop :=
  ∃ m m2 m3, Before c i s m ∧ Backed c m ∧ IbcRounds c env (recipientsBy s IBC) (ibcKeys s) m m2 ∧
    Good c m2 ∧ HypDone c env m2 m3 ∧ s' = { m3 with events := s'.events }

/-- A failed index update. -/
def ExtFailed (c : Cfg) (env : Env) (i : Int) (s s' : State) : Prop :=
  routeF s' = routeF s ∨
  ∃ m, Before c i s m ∧ Backed c m ∧
    ((∃ done, done <+: ibcKeys s ∧ IbcRounds c env (recipientsBy s IBC) done m s') ∨
     (∃ m2, IbcRounds c env (recipientsBy s IBC) (ibcKeys s) m m2 ∧ Good c m2 ∧
       HypFailed c env m2 s'))

theorem Before.backed {c : Cfg} (hc : c.WF) {i : Int} {s m : State} (h : Before c i s m)
    (hb : Backed c s) (hm : ∀ ch, s.balance (c.escrowAddr ch) ≤ m.balance (c.escrowAddr ch)) :
    Backed c m := by
  intro ch
  have e1 : m.vouchers = s.vouchers := (congrArg (fun x => x.2.2.2.2.2.1) h.route :)
  have e2 : m.retry = s.retry := (congrArg (fun x => x.2.1) h.route :)
  have h1 := hb ch
  have h2 := hm ch
  unfold State.vouchersOf State.retryOf at *
  rw [e1, e2]
  omega

theorem updateIndex_ext {c : Cfg} (hc : c.WF) (env : Env) (i : Int) {s : State} (hg : Good c s)
    (hb : Backed c s) (hs : s.recipients.Sorted) :
    wp (updateIndex c env i) s (fun _ s' => ExtDone c env i s s') (fun _ s' => ExtFailed c env i s s') := by
  unfold updateIndex
  refine wp.seq (Q := fun a s' => a = s ∧ s' = s) (E := fun _ _ => False) ⟨rfl, rfl⟩ ?_
    (fun _ _ h => h.elim)
  rintro s0 s1 ⟨rfl, rfl⟩
  refine wp.ite (fun _ => .inl rfl) (fun hlt => ?_)
  have hi : s1.index < i := by omega
  have hgi := hg.indexSet (hg.index.trans hi)
  refine wp.seq (Q := fun _ s' => s' = indexSet s1 i) (E := fun _ _ => False) rfl ?_
    (fun _ _ h => h.elim)
  rintro _ _ rfl
  refine wp.seq (accrueYield_wp hc _ hgi) ?_ (fun _ _ h => h.elim)
  intro _ s2 ha
  have hg2 := ha.good hgi
  have hr2 : routeF s2 = routeF s1 := (congrArg routeF ha.frame :)
  have hsea : s2.seasonOneEnded = s1.seasonOneEnded := ha.season
  have hcol : s2.collector = s1.collector := ha.collector
  have hvs : ∀ x, ¬ VaultSide c s1 x → ¬ VaultSide c s2 x := by
    intro x hx h
    unfold VaultSide at hx h
    rw [hsea, hcol] at h
    exact hx h
  have hmono := (handleVaults_mono hc i hg2)
  refine wp.seq (Q := fun _ m => Before c i s1 m ∧ ∀ ch, s1.balance (c.escrowAddr ch) ≤ m.balance (c.escrowAddr ch))
    (E := fun _ m => routeF m = routeF s1) ?_ ?_ (fun _ _ h => .inl h)
  · refine wp.intro ?_ ?_
    · intro a m hx
      obtain ⟨h1, h2, h3⟩ := (handleVaults_good hc i hg2).of_ok hx
      refine ⟨⟨h1, ((RouteF.handleVaults c i).ok hx).trans hr2, h2.trans ha.index, hi,
        h3.trans ha.recipients, ?_⟩, ?_⟩
      · intro x hx'
        rw [(handleVaults_acct (hcol ▸ hg.coll) i (hvs x hx')).of_ok hx]
        exact ha.same fun e => hx' (.inl e)
      · intro ch
        refine le_trans (le_of_eq ?_) (hmono.of_ok hx _ (hc.escrow_ne_yield ch))
        rw [ha.bal, if_neg (hc.escrow_ne_yield ch)]
        exact (Int.add_zero _).symm
    · intro e m hx
      exact ((RouteF.handleVaults c i).err hx).trans hr2
  rintro _ m ⟨hm, hmm⟩
  have hbm := hm.backed hc hb hmm
  have hsm : m.recipients.Sorted := by rw [hm.recipients]; exact hs
  have hrb : ∀ p, recipientsBy m p = recipientsBy s1 p := by
    intro p; unfold recipientsBy; rw [hm.recipients]
  have hI := claimExternalIBC_rounds hc env hm.good hbm hsm
  rw [hrb] at hI
  refine wp.seq (Q := fun _ m2 => IbcRounds c env (recipientsBy s1 IBC) (ibcKeys s1) m m2 ∧ Good c m2)
    (E := fun _ s' => ∃ done, done <+: ibcKeys s1 ∧ IbcRounds c env (recipientsBy s1 IBC) done m s') ?_ ?_ ?_
  · exact wp.intro (fun a s' hx => ⟨hI.of_ok hx, ((claimExternalIBC_dist hc env hm.good).of_ok hx).1.1⟩)
      (fun e s' hx => hI.of_err hx)
  · rintro _ m2 ⟨h2, hg2⟩
    have hs2 : m2.recipients.Sorted := by rw [h2.recipients]; exact hsm
    refine wp.seq (claimExternalHyperlane_rounds hc env hg2 hs2) ?_ ?_
    · intro _ m3 h3
      exact ⟨m, m2, m3, hm, hbm, h2, hg2, h3, rfl⟩
    · intro _ s' h3
      exact .inr ⟨m, hm, hbm, .inr ⟨m2, h2, hg2, h3⟩⟩
  · intro _ s' h
    exact .inr ⟨m, hm, hbm, .inl h⟩

end Dollar
