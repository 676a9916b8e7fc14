import Verif.Lemmas.Sweep
import Verif.Lemmas.NoPanic2
import Verif.Lemmas.PosKeys
import Verif.Props.C28

/-
C78: ending season one pays every flexible position out.
-/
set_option maxRecDepth 100000
set_option linter.unnecessarySeqFocus false
namespace Dollar
open MM Spec

/-- C78: the routine that ends season one pays out every flexible position, provided the yield account holds the
yield (as shown by the Yield query) of the accounts of the flexible positions: nothing is left in the flexible
vault, every user gets at least the locked amount, and stakes, supply and index stay as they are. -/
theorem C78_sweep {c : Cfg} (hc : c.WF) (s : State) (h : ReachableSmall c s)
    (hdec : ∀ x a, c.decode x = some a → c.decode (c.encode a) = some a)
    (hbl : ∀ a t, c.blocked (vaultAccount c a 2 t) = false)
    (hy : (s.positions.map fun e => if e.1.2.1 = 2 then
        yieldAt s (vaultAccount c e.1.1 2 e.1.2.2) s.index else 0).sum ≤ s.balance (c.modAddr "dollar/yield")) :
    ∃ s', endVaultsSeasonOne c s = .ok () s' ∧
      (∀ user, lockedBy s' user 2 = 0) ∧
      (∀ user, c.IsUser user → s.balance user + lockedBy s user 2 ≤ s'.balance user) ∧
      (∀ user, c.IsUser user → (∀ time, s.positions.get? (user, 2, time) = none) →
        s'.balance user = s.balance user) ∧
      (∀ user time, s'.positions.get? (user, 1, time) = s.positions.get? (user, 1, time)) ∧
      s'.balance (c.modAddr "dollar/vaults/staked") = s.balance (c.modAddr "dollar/vaults/staked") ∧
      s'.supply = s.supply ∧ s'.index = s.index ∧
      -- if the vaults are open, this is what the users' own Unlock messages would have done
      (s.seasonOneEnded = false → s.vPaused = 0 → ∀ env : Env, ∃ h : History,
        (∀ e ∈ h, ∃ user amount, e = (env, .unlock user 2 (some amount))) ∧ h.Signed c ∧ run c h s = s') := by
  have hr := h.reachable
  have hv := hr.vinv hc
  have hled := hr.led hc
  have hown : ∀ e ∈ s.positions, c.decode (c.encode e.1.1) = some e.1.1 := fun e he => by
    obtain ⟨x, hx⟩ := hr.owners hc e he
    exact hdec x _ hx
  have inv : SweepInv c s := ⟨hled, hv, h.rnn hc, h.small.pb hv.toV0⟩
  have e0 : ∀ a t, vaultAccount c a 2 t = flexAcct c a t := fun a t => by
    unfold vaultAccount flexAcct; rw [if_pos rfl]
  have hlk : ∀ s a, lockedTotal s a 2 = lockedBy s a 2 := fun s a => lockedTotal_eq s a 2
  generalize hL : flexibleTotals c (allPositions s) = L
  have hsort : L.Sorted := hL ▸ flexibleTotals_sorted c _
  -- every key belongs to a user and carries what the user has locked
  have hkey : ∀ (w : PosEntry → Int) a, keyTotal c w (c.encode a) (allPositions s) =
      ((positionsOf s a 2).map w).sum := by
    intro w a
    unfold keyTotal allPositions positionsOf
    generalize s.positions = l
    induction l with
    | nil => rfl
    | cons e t ih =>
      rw [List.map_cons, List.map_cons, List.sum_cons, ih, List.filterMap_cons]
      by_cases hm : e.1.1 = a ∧ e.1.2.1 = 2
      · simp only [hm, and_self, if_true, List.map_cons, List.sum_cons]
      · have : ¬ (e.1.2.1 = 2 ∧ c.encode e.1.1 = c.encode a) := fun hh => hm ⟨hc.encode_inj _ _ hh.2, hh.1⟩
        simp only [hm, this, if_false]; omega
  have hmem : ∀ e ∈ L, ∃ a, e.1 = c.encode a ∧ c.decode e.1 = some a ∧ c.IsUser a ∧ e.2 = lockedTotal s a 2 := by
    intro e he
    have hg := KV.get?_of_mem hsort (k := e.1) (v := e.2) he
    obtain ⟨p, hp, p1, p2⟩ := (flexibleTotals_has c (allPositions s) e.1).1 (by rw [hL, hg]; rfl)
    obtain ⟨q, hq, rfl⟩ := List.mem_map.1 hp
    have hu : c.IsUser q.1.1 := (hv.toV0.entry q hq).user
    refine ⟨q.1.1, p2.symm, by rw [← p2]; exact hown q hq, hu, ?_⟩
    have := flexibleTotals_getD c (allPositions s) e.1
    rw [hL, hg, ← p2, hkey] at this
    exact this
  have hpw : L.Pairwise fun e e' => c.decode e.1 ≠ c.decode e'.1 := by
    refine List.Pairwise.imp_of_mem ?_ hsort
    intro e e' he he' hlt hee
    obtain ⟨a, a1, a2, _⟩ := hmem e he
    obtain ⟨b, b1, b2, _⟩ := hmem e' he'
    have : a = b := Option.some.inj (a2.symm.trans (hee.trans b2))
    subst this
    rw [a1, b1, LawfulKeyOrd.irrefl] at hlt
    cases hlt
  have hyy : (L.map fun e => userYield c s e.1).sum ≤ s.balance c.yieldAddr := by
    have h1 : (L.map fun e => userYield c s e.1) =
        (L.map Prod.fst).map fun k => keyTotal c (fun p => claimable s (flexAcct c p.address p.time)) k
          (allPositions s) := by
      rw [List.map_map]
      refine List.map_congr_left fun e he => ?_
      obtain ⟨a, a1, a2, a3, _⟩ := hmem e he
      show userYield c s e.1 = keyTotal c _ e.1 _
      unfold userYield
      rw [a2, a1, hkey]
      show yieldOf c s a _ = _
      unfold yieldOf
      congr 1
      refine List.map_congr_left fun p hp => ?_
      rw [(positionsOf_mem hp).1]
    rw [h1]
    refine le_trans (keyTotal_sum c _ (fun p => claimable_nonneg _ _) _ (KV.nodup_keys hsort) _) ?_
    refine le_trans (le_of_eq ?_) hy
    unfold allPositions
    rw [List.map_map]
    congr 1
    refine List.map_congr_left fun e he => ?_
    show (if e.1.2.1 = 2 then claimable s (flexAcct c e.1.1 e.2.time) else 0) = _
    split
    · rw [(hv.toV0.entry e he).time, e0]
      exact claimable_eq_yieldAt (hled.good.bal _) hled.good.index
    · rfl
  obtain ⟨s', r1, r2⟩ := endSeasonLoop_swept hc (fun a t => by rw [← e0]; exact hbl a t) L hpw inv
    (fun e he => by obtain ⟨a, _, q⟩ := hmem e he; exact ⟨a, q⟩) hyy
  -- users that are not in the list have nothing locked
  have hnot : ∀ a, (∀ e ∈ L, c.decode e.1 ≠ some a) → positionsOf s a 2 = [] := by
    intro a ha
    cases hp : positionsOf s a 2 with
    | nil => rfl
    | cons p t =>
      exfalso
      have hp' : p ∈ positionsOf s a 2 := by rw [hp]; exact List.mem_cons_self
      obtain ⟨e, he, hee⟩ := List.mem_filterMap.1 hp'
      by_cases hm : e.1.1 = a ∧ e.1.2.1 = 2
      · have hs := (flexibleTotals_has c (allPositions s) (c.encode a)).2
          ⟨_, List.mem_map.2 ⟨e, he, rfl⟩, hm.2, by rw [← hm.1]⟩
        rw [hL] at hs
        obtain ⟨v, hv'⟩ := Option.isSome_iff_exists.1 hs
        exact ha _ (KV.mem_of_get? hv') (hm.1 ▸ hown e he)
      · rw [if_neg hm] at hee; cases hee
  have hnot0 : ∀ a, (∀ e ∈ L, c.decode e.1 ≠ some a) → lockedTotal s a 2 = 0 := by
    intro a ha; unfold lockedTotal; rw [hnot a ha]; rfl
  have hstk : ∀ a, c.IsUser a → a ≠ c.stakedAddr := fun a hu => hu.ne_staked
  refine ⟨s', ?_, ?_, ?_, ?_, ?_, ?_, r2.quiet.supply, r2.quiet.index, ?_⟩
  · unfold endVaultsSeasonOne
    simp only [bind_apply, get_apply, hL, r1]
  · intro a
    rw [← hlk]
    by_cases ha : ∀ e ∈ L, c.decode e.1 ≠ some a
    · unfold lockedTotal; rw [r2.entries a ha, hnot a ha]; rfl
    · push Not at ha
      obtain ⟨e, he, hd⟩ := ha
      exact r2.mine e he a hd
  · intro a hu
    rw [← hlk]
    by_cases ha : ∀ e ∈ L, c.decode e.1 ≠ some a
    · rw [hnot0 a ha, r2.same a ha hu.ne_flexible hu.ne_yield fun b t =>
        (VaultAcct.ne_user (.inr (.inr ⟨_, _, rfl⟩)) hu).symm]
      omega
    · push Not at ha
      obtain ⟨e, he, hd⟩ := ha
      obtain ⟨b, _, b2, _, b4⟩ := hmem e he
      have : b = a := Option.some.inj (b2.symm.trans hd)
      subst this
      rw [← b4]
      exact r2.paid e he b hd
  · intro a hu hno
    refine r2.same a (fun e he hd => ?_) hu.ne_flexible hu.ne_yield fun b t =>
        (VaultAcct.ne_user (.inr (.inr ⟨_, _, rfl⟩)) hu).symm
    obtain ⟨b, b1, b2, _⟩ := hmem e he
    have : b = a := Option.some.inj (b2.symm.trans hd)
    subst this
    have hg := KV.get?_of_mem hsort (k := e.1) (v := e.2) he
    obtain ⟨p, hp, p1, p2⟩ := (flexibleTotals_has c (allPositions s) e.1).1 (by rw [hL, hg]; rfl)
    obtain ⟨q, hq, rfl⟩ := List.mem_map.1 hp
    have hb : q.1.1 = b := hc.encode_inj _ _ (p2.trans b1)
    have p1 : q.1.2.1 = 2 := p1
    have := KV.get?_of_mem hv.toV0.sorted (k := q.1) (v := q.2) hq
    rw [show q.1 = (b, 2, q.1.2.2) by rw [← hb, ← p1], hno] at this
    cases this
  · intro a t
    refine r2.others (a, 1, t) fun e _ hh => ?_
    have : (1 : Int) = 2 := hh.2
    omega
  · refine r2.same c.stakedAddr (fun e he hd => ?_) ?_ ?_ ?_
    · obtain ⟨b, _, b2, b3, _⟩ := hmem e he
      have : b = c.stakedAddr := Option.some.inj (b2.symm.trans hd)
      exact hstk b b3 this
    · exact hc.staked_ne_flexible
    · exact hc.staked_ne_yield
    · intro a t; exact (flexAcct_ne_staked hc a t).symm
  · intro g1 g2 env
    refine ⟨_, ?_, ?_, r2.own g1 g2 env⟩
    · intro e he
      obtain ⟨q, _, rfl⟩ := List.mem_map.1 he
      exact ⟨_, _, rfl⟩
    · intro e he
      obtain ⟨q, hq, rfl⟩ := List.mem_map.1 he
      obtain ⟨a, _, b2, b3, _⟩ := hmem q hq
      intro b hb
      rw [b2] at hb
      cases hb
      exact b3

/-! ### When the yield account cannot pay -/

/-- Positions are well formed and the staked ones are those of `ps`. -/
structure StakesAs (ps : KV PKey Position) (s : State) : Prop where
  wf : ∀ e ∈ s.positions, 0 < e.2.index ∧ 0 ≤ e.2.amount
  staked : ∀ user time, s.positions.get? (user, 1, time) = ps.get? (user, 1, time)

namespace StakesAs
variable {ps : KV PKey Position} {c : Cfg}

theorem congr {s s' : State} (h : StakesAs ps s) (e : s'.positions = s.positions) : StakesAs ps s' :=
  ⟨by rw [e]; exact h.wf, by rw [e]; exact h.staked⟩

theorem leaves {α : Type} {x : M α} (h : Leaves otherF x) : Keeps (StakesAs ps) x := by
  refine ⟨fun s => ?_⟩
  have := (h (otherF s)).steps s
  unfold Res.Ends at this ⊢
  generalize x s = r at *
  cases r with
  | ok _ s' => exact fun hs => hs.congr (congrArg (fun z => z.1.1) (this rfl) :)
  | err _ s' => exact fun hs => hs.congr (congrArg (fun z => z.1.1) (this rfl) :)
  | panic => trivial

theorem unlockOne (x : String) (a : Addr) (v : Int) (p : PosEntry) (hp : 0 < p.index) (hv : p.vault = 2) (r : Int) :
    Keeps (StakesAs ps) (unlockOne c x a v p r) := by
  unfold Dollar.unlockOne unlockPayout unlockFlexible addTotalFlexible incrementDistributed claimRewards
  keeps <;> first
    | exact leaves (Other.emit _) | exact leaves (Other.sendCoins _ _ _ _)
    | exact leaves (Other.claimModuleYield _ _)
    | exact Keeps.modify fun _ h => h.congr rfl
    | skip
  unfold updatePosition
  refine Keeps.modify fun s h => ?_
  have hne : ∀ (u : Addr) (t : Int), ((u, 1, t) : PKey) ≠ (p.address, p.vault, p.time) := by
    intro u t e
    rw [hv] at e
    cases e
  split
  · refine ⟨fun e he => h.wf e (List.mem_filter.1 he).1, fun u t => ?_⟩
    show KV.get? (KV.erase _ _) _ = _
    rw [KV.get?_erase, if_neg (hne u t)]
    exact h.staked u t
  · refine ⟨fun e he => ?_, fun u t => ?_⟩
    · rcases KV.mem_set he with he | he
      · rw [he]
        refine ⟨hp, ?_⟩
        show 0 ≤ p.amount - _
        omega
      · exact h.wf e he
    · show KV.get? (KV.set _ _ _) _ = _
      rw [KV.get?_set_ne _ _ (hne u t)]
      exact h.staked u t

theorem unlockLoop (x : String) (a : Addr) (v : Int) (l : List PosEntry)
    (hl : ∀ p ∈ l, 0 < p.index ∧ p.vault = 2) (m n : Int) : Keeps (StakesAs ps) (unlockLoop c x a v l m n) := by
  induction l generalizing m n with
  | nil => exact Keeps.pure _
  | cons e t ih =>
    unfold Dollar.unlockLoop
    keeps
    · exact unlockOne _ _ _ _ (hl e List.mem_cons_self).1 (hl e List.mem_cons_self).2 _
    · exact ih (fun p hp => hl p (List.mem_cons_of_mem _ hp)) _ _

theorem get_bind {α : Type} {g : State → M α} (h : ∀ s, StakesAs ps s → Keeps (StakesAs ps) (g s)) :
    Keeps (StakesAs ps) (MM.get >>= g) := by
  refine ⟨fun s => ?_⟩
  by_cases hs : StakesAs ps s
  · exact (h s hs).steps s
  · show (g s s).Ends _
    unfold Res.Ends
    cases g s s with
    | ok _ _ => exact fun h => absurd h hs
    | err _ _ => exact fun h => absurd h hs
    | panic => trivial

theorem unlockInner (x : String) (a : Option Int) : Keeps (StakesAs ps) (unlockInner c x 2 a) := by
  unfold Dollar.unlockInner
  cases c.decode x with
  | none => exact Keeps.fail _
  | some addr =>
  cases a with
  | none => exact Keeps.fail _
  | some amt =>
  refine Keeps.ite (Keeps.fail _) (Keeps.ite (Keeps.fail _) (get_bind fun s hs => ?_))
  refine Keeps.ite (Keeps.fail _) (Keeps.ite (Keeps.fail _) (Keeps.bind ?_ fun r => ?_))
  · refine unlockLoop _ _ _ _ (fun p hp => ?_) _ _
    obtain ⟨e, he, hee⟩ := List.mem_filterMap.1 hp
    by_cases hm : e.1.1 = addr ∧ e.1.2.1 = 2
    · rw [if_pos hm] at hee
      cases hee
      exact ⟨(hs.wf e he).1, hm.2⟩
    · rw [if_neg hm] at hee; cases hee
  · unfold countGoneUser addVaultPrincipal decrementVaultUsers
    keeps <;> exact Keeps.modify fun _ h => h.congr rfl

end StakesAs

theorem endSeasonLoop_stakes {c : Cfg} {ps : KV PKey Position} (l : List (String × Int)) {s : State}
    (hi : s.index ≠ 0) (h : StakesAs ps s) :
    ∃ s', endSeasonLoop c l s = .ok () s' ∧ StakesAs ps s' ∧ s'.index = s.index := by
  induction l generalizing s with
  | nil => exact ⟨s, rfl, h, rfl⟩
  | cons e t ih =>
    obtain ⟨k, v⟩ := e
    have h1 := unlockInner_safe (c := c) (signer := k) (v := 2) (a := some v) hi h.wf
    have h2 := (StakesAs.unlockInner (c := c) (ps := ps) k (some v)).steps s
    obtain ⟨h0, h1⟩ := h1
    unfold Res.Ends at h1 h2
    have : ∃ m, ignore (unlockInner c k FLEXIBLE (some v)) s = .ok () m ∧ StakesAs ps m ∧ m.index = s.index := by
      have e2 : unlockInner c k FLEXIBLE (some v) s = unlockInner c k 2 (some v) s := rfl
      unfold MM.ignore
      rw [e2]
      cases hr : unlockInner c k 2 (some v) s with
      | ok _ m => rw [hr] at h1 h2; exact ⟨m, rfl, h2 h, h1⟩
      | err _ m => rw [hr] at h1 h2; exact ⟨m, rfl, h2 h, h1⟩
      | panic => exact absurd hr h0
    obtain ⟨m, m1, m2, m3⟩ := this
    obtain ⟨s', r1, r2, r3⟩ := ih (by rw [m3]; exact hi) m2
    refine ⟨s', ?_, r2, r3.trans m3⟩
    unfold endSeasonLoop
    simp only [bind_apply, m1, r1]

/-- C78: whatever the yield account holds, the routine neither fails nor panics, and it touches no staked position. -/
theorem C78_survives {c : Cfg} (hc : c.WF) (s : State) (h : Reachable c s) :
    ∃ s', endVaultsSeasonOne c s = .ok () s' ∧
      (∀ user time, s'.positions.get? (user, 1, time) = s.positions.get? (user, 1, time)) ∧ s'.index = s.index := by
  have hv := (h.vinv hc).toV0
  obtain ⟨s', r1, r2, r3⟩ := endSeasonLoop_stakes (c := c) (ps := s.positions)
    (flexibleTotals c (allPositions s)) (s := s) (h.led hc).good.index.ne'
    ⟨fun e he => ⟨(hv.entry e he).idx, (hv.entry e he).amount⟩, fun _ _ => rfl⟩
  refine ⟨s', ?_, r2.staked, r3⟩
  unfold endVaultsSeasonOne
  simp only [bind_apply, get_apply, r1]

theorem Demo.decode_encode_of_short (a : Addr) (hlen : a.length ≤ 255) :
    Demo.cfg.decode (Demo.cfg.encode a) = some a := by
  have hv : ∀ z : UInt8, (Demo.charOf z).toNat = z.toNat + 256 := fun z =>
    Demo.toNat_ofNat (Or.inl (by have := z.toNat_lt; omega))
  have hlow : ∀ z : UInt8, (Demo.charOf z).toLower = Demo.charOf z := by
    intro z
    have := hv z
    unfold Char.toLower
    have hlt : ¬ ((Demo.charOf z).val ≥ 65 ∧ (Demo.charOf z).val ≤ 90) := by
      rintro ⟨_, h⟩
      have h : (Demo.charOf z).val.toNat ≤ 90 := h
      have h' : (Demo.charOf z).toNat ≤ 90 := h
      omega
    split
    · next h => exact absurd h hlt
    · rfl
  show Demo.decode (Demo.encode a) = some a
  unfold Demo.decode Demo.encode
  simp only [String.toList_ofList, List.map_map]
  have e1 : a.map (Char.toLower ∘ Demo.charOf) = a.map Demo.charOf :=
    List.map_congr_left fun z _ => hlow z
  rw [e1, if_pos]
  · congr 1
    have : a.map (Demo.byteOf ∘ Char.toLower ∘ Demo.charOf) = a.map id := List.map_congr_left fun z _ => by
      show UInt8.ofNat ((Demo.charOf z).toLower.toNat - 256) = z
      rw [hlow, hv]
      simp
    rw [this, List.map_id]
  · rw [List.all_eq_true]
    refine ⟨by rw [List.length_map]; exact hlen, fun ch hch => ?_⟩
    obtain ⟨z, _, rfl⟩ := List.mem_map.1 hch
    have := z.toNat_lt
    rw [hv]
    exact decide_eq_true (by omega)

theorem Demo.decode_encode (x : String) (a : Addr) (h : Demo.cfg.decode x = some a) :
    Demo.cfg.decode (Demo.cfg.encode a) = some a := Demo.decode_encode_of_short a (Demo.decode_short h)

/-- Alice's flexible position is paid out by the routine. -/
example : ∃ s', endVaultsSeasonOne Demo.cfg (run Demo.cfg Demo.hist1 Demo.start) = .ok () s' ∧
    lockedBy (run Demo.cfg Demo.hist1 Demo.start) Demo.alice 2 = 2000000 ∧
    lockedBy s' Demo.alice 2 = 0 ∧
    (run Demo.cfg Demo.hist1 Demo.start).balance Demo.alice + 2000000 ≤ s'.balance Demo.alice := by
  have hl : lockedBy (run Demo.cfg Demo.hist1 Demo.start) Demo.alice 2 = 2000000 := by decide +kernel
  obtain ⟨s', h1, h2, h3, _⟩ := C78_sweep Demo.cfg_wf _ Demo.small1 Demo.decode_encode
    (fun a t => by
      have h1 : vaultAccount Demo.cfg a 2 t ≠ Demo.cfg.moduleAddr := by
        have := flexAcct_ne_module Demo.cfg_wf a t
        unfold vaultAccount; rw [if_pos rfl]; exact this
      exact decide_eq_false h1) (by decide +kernel)
  have h3 := h3 Demo.alice Demo.alice_user
  rw [hl] at h3
  exact ⟨s', h1, hl, h2 _, h3⟩

end Dollar
