import Verif.Lemmas.ExtRun
import Verif.Lemmas.NoPanic
import Verif.Lemmas.RNN

/-
When an index update goes through: every way it can fail, and what the yield account pays.
-/
set_option linter.unusedSimpArgs false
namespace Dollar
open MM

/-- A module claim fails only when the yield account cannot pay it. -/
theorem claimModuleYield_live {c : Cfg} {a : Addr} {s : State} (hb : c.blocked a = false) :
    wp (claimModuleYield c a) s
      (fun y s' => y = claimable s a ∧ Moved c s c.yieldAddr a y s')
      (fun _ s' => s' = s ∧ s.balance c.yieldAddr < claimable s a) := by
  unfold claimModuleYield
  simp only [wp.bind_iff, wp.get_iff]
  refine wp.ite (fun h => ?_) (fun h => ?_)
  · unfold sendModuleToAccount
    rw [hb]
    refine wp.seq (sendCoins_wp c c.yieldAddr a (claimable s a) s) (fun _ _ hm => ⟨rfl, hm⟩) ?_
    intro _ s' hf
    rcases hf with ⟨h1, h2⟩ | hf
    · exact ⟨h1, h2⟩
    · exact absurd rfl hf.2.2.1
  · have h0 : claimable s a = 0 := by have := claimable_nonneg s a; omega
    simp only [wp.pure_iff]
    refine ⟨trivial, ?_⟩
    rw [h0]; exact Moved.refl _ _ _ _

/-- The yield account pays what the account claims. -/
theorem Moved.paid {c : Cfg} {s s' : State} {a : Addr} {y : Int} (h : Moved c s c.yieldAddr a y s')
    (ha : a ≠ c.yieldAddr) : s'.balance c.yieldAddr = s.balance c.yieldAddr - y := by
  rw [h.bal, if_pos rfl, if_neg ha.symm]; omega

theorem YieldLeaves.ibcRest {c : Cfg} (hc : c.WF) (env : Env) (recips : KV String String) (ch : String) (y : Int) :
    Leaves (bp c.yieldAddr) (do
      let r ← takeRetry IBC ch
      if 0 < y + r then do
        let e ← attempt (ibcTransfer c env ch (c.escrowAddr ch) ((recips.get? ch).getD "") (y + r))
        retryOnError e IBC ch (y + r)
        incrementExtYield IBC ch y
      else pure ()) := by
  unfold takeRetry retryOnError incrementRetry incrementExtYield
  leaves
  exact Acct.ibcTransfer c env (hc.escrow_ne_yield ch).symm (hc.escrow_ne_yield ch).symm _ _ _

/-- One channel: pays its yield, fails only when the yield account cannot pay. -/
theorem ibcOne_live {c : Cfg} (hc : c.WF) (env : Env) (recips : KV String String) (ch : String) {s : State}
    (hb : c.blocked (c.escrowAddr ch) = false) :
    wp (ibcOne c env recips ch) s
      (fun _ s' => s'.balance c.yieldAddr = s.balance c.yieldAddr - claimable s (c.escrowAddr ch))
      (fun _ _ => s.balance c.yieldAddr < claimable s (c.escrowAddr ch)) := by
  unfold ibcOne
  refine wp.seq (claimModuleYield_live hb) ?_ (fun _ _ h => h.2)
  rintro y s1 ⟨rfl, hm⟩
  refine wp.intro ?_ ?_
  · intro _ s' hx
    have := (YieldLeaves.ibcRest hc env recips ch _).ok hx
    rw [← hm.paid (hc.escrow_ne_yield ch)]
    exact (congrArg Prod.fst this :)
  · intro e s' hx
    exfalso
    have hw : wp (do
        let r ← takeRetry IBC ch
        if 0 < claimable s (c.escrowAddr ch) + r then do
          let e ← attempt (ibcTransfer c env ch (c.escrowAddr ch) ((recips.get? ch).getD "")
            (claimable s (c.escrowAddr ch) + r))
          retryOnError e IBC ch (claimable s (c.escrowAddr ch) + r)
          incrementExtYield IBC ch (claimable s (c.escrowAddr ch))
        else pure ()) s1 (fun _ _ => True) (fun _ _ => False) := by
      simp only [wp.bind_iff]
      unfold wp
      simp only [takeRetry_eq]
      refine (show wp _ _ (fun _ _ => True) (fun _ _ => False) from ?_)
      refine wp.ite (fun _ => ?_) (fun _ => trivial)
      simp only [wp.bind_iff, wp.attempt_iff]
      refine wp.intro (fun _ _ _ => ?_) (fun _ _ _ => ?_) <;>
        simp [retryOnError, incrementRetry, incrementExtYield]
    exact hw.of_err hx

/-- What the channels claim together. -/
def ibcClaims (c : Cfg) (s : State) (l : List String) : Int :=
  (l.map fun ch => claimable s (c.escrowAddr ch)).sum

theorem ibcClaims_nonneg (c : Cfg) (s : State) (l : List String) : 0 ≤ ibcClaims c s l := by
  unfold ibcClaims
  apply List.sum_nonneg
  intro x hx
  obtain ⟨_, _, rfl⟩ := List.mem_map.1 hx
  exact claimable_nonneg _ _

theorem ibcClaims_cons (c : Cfg) (s : State) (ch : String) (t : List String) :
    ibcClaims c s (ch :: t) = claimable s (c.escrowAddr ch) + ibcClaims c s t := rfl

/-- A claim on one channel does not change the claims of other channels. -/
theorem IbcRounds.claims {c : Cfg} (hc : c.WF) {env : Env} {recips : KV String String} {ch : String}
    {s m : State} (h : IbcRounds c env recips [ch] s m) {l : List String} (hl : ch ∉ l) :
    ibcClaims c m l = ibcClaims c s l := by
  unfold ibcClaims
  congr 1
  refine List.map_congr_left fun x hx => ?_
  refine claimable_of ?_ (h.prin _) h.index
  refine h.bal _ (hc.escrow_ne_yield x) fun z hz e => ?_
  rw [List.mem_singleton.1 hz] at e
  have := hc.escrow_inj _ _ e
  exact hl (this ▸ hx)

/-- All channels. -/
theorem ibcLoop_live {c : Cfg} (hc : c.WF) (env : Env) (recips : KV String String)
    (hbl : ∀ ch, c.blocked (c.escrowAddr ch) = false) (l : List String) (hl : l.Nodup) :
    ∀ {s : State}, Good c s → Backed c s → (∀ ch ∈ l, hasYieldRecipient s IBC ch = true) →
    wp (ibcLoop c env recips l) s
      (fun _ s' => s'.balance c.yieldAddr = s.balance c.yieldAddr - ibcClaims c s l)
      (fun _ _ => s.balance c.yieldAddr < ibcClaims c s l) := by
  induction l with
  | nil => intro s _ _ _; exact (Int.sub_zero _).symm
  | cons ch t ih =>
    intro s hg hb hy
    rw [List.nodup_cons] at hl
    unfold ibcLoop
    have h0 := ibcOne_live hc env recips ch (s := s) (hbl ch)
    have h1 := ibcOne_round hc env recips ch hg hb (hy ch (by simp))
    have h2 := ibcOne_dist hc env recips ch hg
    have hn := ibcClaims_nonneg c s t
    rw [ibcClaims_cons]
    refine wp.seq (Q := fun _ m => m.balance c.yieldAddr = s.balance c.yieldAddr - claimable s (c.escrowAddr ch) ∧
        IbcRounds c env recips [ch] s m ∧ Good c m)
      (E := fun _ _ => s.balance c.yieldAddr < claimable s (c.escrowAddr ch)) ?_ ?_ (fun _ _ h => by omega)
    · exact wp.intro (fun a s' hx => ⟨h0.of_ok hx, h1.of_ok hx, (h2.of_ok hx).1.1⟩) (fun e s' hx => h0.of_err hx)
    · rintro _ m ⟨hp, hm, hgm⟩
      have hbm := hm.backed hc hg hb
      have hym : ∀ x ∈ t, hasYieldRecipient m IBC x = true := by
        intro x hx
        have := hy x (by simp [hx])
        unfold hasYieldRecipient at this ⊢
        rwa [hm.recipients]
      have := ih hl.2 hgm hbm hym
      rw [hm.claims hc hl.1, hp] at this
      exact this.mono (fun _ _ h => by omega) (fun _ _ h => by omega)

theorem claimExternalIBC_live {c : Cfg} (hc : c.WF) (env : Env) {s : State}
    (hbl : ∀ ch, c.blocked (c.escrowAddr ch) = false) (hg : Good c s) (hb : Backed c s) (hs : s.recipients.Sorted) :
    wp (claimExternalIBC c env) s
      (fun _ s' => s'.balance c.yieldAddr = s.balance c.yieldAddr - ibcClaims c s (ibcKeys s))
      (fun _ _ => s.balance c.yieldAddr < ibcClaims c s (ibcKeys s)) := by
  unfold claimExternalIBC
  simp only [wp.bind_iff, wp.get_iff]
  rw [sortedIds_eq env hs]
  refine ibcLoop_live hc env _ hbl _ (KV.nodup_keys (recipientsBy_sorted hs IBC)) hg hb ?_
  intro ch hch
  obtain ⟨⟨x, r⟩, he, rfl⟩ := List.mem_map.1 hch
  have := KV.get?_of_mem hs (mem_recipientsBy.1 he)
  unfold hasYieldRecipient KV.has
  rw [this]; rfl

/-! ### Vaults -/

/-- What the vaults claim. -/
def vaultClaims (c : Cfg) (s : State) : Int :=
  claimable s c.stakedAddr + if s.seasonOneEnded then 0 else claimable s c.flexibleAddr

theorem claimStaked_live {c : Cfg} (hc : c.WF) {s : State} (hb : c.blocked c.flexibleAddr = false) :
    wp (claimStakedVaultYield c) s
      (fun _ s' => s'.balance c.yieldAddr = s.balance c.yieldAddr - claimable s c.stakedAddr)
      (fun _ _ => s.balance c.yieldAddr < claimable s c.stakedAddr) := by
  unfold claimStakedVaultYield
  simp only [wp.bind_iff, wp.get_iff]
  refine wp.ite (fun h => ?_) (fun h => ?_)
  swap
  · have h0 : claimable s c.stakedAddr = 0 := by have := claimable_nonneg s c.stakedAddr; omega
    rw [h0]; exact (Int.sub_zero _).symm
  unfold sendModuleToAccount
  rw [hb]
  refine wp.seq (sendCoins_wp c c.yieldAddr c.flexibleAddr (claimable s c.stakedAddr) s) ?_ ?_
  · intro _ m hm
    simp only [wp.bind_iff, wp.get_iff]
    refine wp.ite (fun _ => trivial) (fun _ => ?_)
    simp only [addPrincipal, wp.bind_iff, wp.modify_iff, wp.pure_iff]
    exact hm.paid hc.flexible_ne_yield
  · intro _ s' hf
    rcases hf with ⟨_, h2⟩ | hf
    · exact h2
    · exact absurd rfl hf.2.2.1

theorem handleVaults_live {c : Cfg} (hc : c.WF) (i : Int) {s : State} (hg : Good c s)
    (h1 : c.blocked c.stakedAddr = false) (h2 : c.blocked c.flexibleAddr = false) :
    wp (handleVaults c i) s
      (fun _ s' => s'.balance c.yieldAddr = s.balance c.yieldAddr - vaultClaims c s)
      (fun _ _ => s.balance c.yieldAddr < vaultClaims c s) := by
  unfold handleVaults vaultClaims
  simp only [wp.bind_iff, wp.get_iff]
  refine wp.ite (fun hs => ?_) (fun hs => ?_)
  · rw [if_pos hs]
    unfold handleSeasonTwo
    refine wp.seq (claimModuleYield_live h1) ?_ (fun _ _ h => by omega)
    rintro y m ⟨rfl, hm⟩
    have hp := hm.paid hc.staked_ne_yield
    refine wp.ite (fun hpos => ?_) (fun _ => by show m.balance _ = _; omega)
    simp only [wp.bind_iff, wp.get_iff]
    have hcm : m.collector = s.collector := hm.collector
    have hne : m.collector ≠ c.yieldAddr := by rw [hcm]; exact hg.coll
    refine (sendCoins_wp c _ _ _ m).mono ?_ ?_
    · intro _ s' h
      rw [h.same hc.staked_ne_yield.symm hne.symm]; omega
    · intro _ s' hf
      exfalso
      rcases hf with ⟨_, hlt⟩ | hf
      · have := hg.bal c.stakedAddr
        rw [hm.bal, if_neg hc.staked_ne_yield, if_pos rfl] at hlt
        omega
      · exact hne hf.2.1
  · rw [if_neg hs]
    unfold handleSeasonOne
    refine wp.seq (claimModuleYield_live h2) ?_ (fun _ _ h => by have := claimable_nonneg s c.stakedAddr; omega)
    rintro y m ⟨rfl, hm⟩
    have hp := hm.paid hc.flexible_ne_yield
    have hcl : claimable m c.stakedAddr = claimable s c.stakedAddr :=
      hm.claimable_same hc.staked_ne_yield hc.staked_ne_flexible
    refine wp.seq (claimStaked_live hc h2) ?_ ?_
    · intro _ m2 h
      rw [hcl] at h
      show m2.balance _ = _
      omega
    · intro _ _ h
      rw [hcl] at h
      omega

end Dollar
