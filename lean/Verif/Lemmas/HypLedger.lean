import Verif.Lemmas.IbcLedger
import Verif.Lemmas.ExtRun

/-
The books of Hyperlane yield: what was claimed is dispatched or kept for retry.
-/
set_option linter.unnecessarySeqFocus false
namespace Dollar
open MM

/-- Total of the entries of a store under the Hyperlane identifiers of a token. -/
def hypSum (c : Cfg) (t : Nat) (m : KV (Int × String) Int) : Int :=
  m.sum fun k v => if k.1 = HYPERLANE ∧ (c.hexAddr k.2).map c.internalId = some t then v else 0

/-- Total of the warp messages of a token. -/
def warpSum (t : Nat) (l : List WarpOut) : Int := (l.map fun w => if w.tokenId = t then w.amount else 0).sum

theorem warpSum_append (t : Nat) (l l' : List WarpOut) :
    warpSum t (l ++ l') = warpSum t l + warpSum t l' := by
  unfold warpSum; rw [List.map_append, List.sum_append]

/-- What the books of a token are off by. -/
def hypOff (c : Cfg) (t : Nat) (s : State) : Int :=
  hypSum c t s.extYield - hypSum c t s.retry - warpSum t s.warpOut

/-- What the accounting needs to know about the state. -/
structure HypInv (s : State) : Prop where
  sorted : s.retry.Sorted
  retry : ∀ p i, 0 ≤ s.retryOf p i
  col : ∀ e ∈ s.collateral, 0 ≤ e.2

theorem HypInv.congr {s s' : State} (h : HypInv s) (e : routeF s' = routeF s) : HypInv s' := by
  simp only [routeF, Prod.mk.injEq] at e
  obtain ⟨_, e2, e3, _⟩ := e
  exact ⟨e2 ▸ h.sorted, fun p i => by unfold State.retryOf; rw [e2]; exact h.retry p i, e3 ▸ h.col⟩

theorem hypOff_congr (c : Cfg) (t : Nat) {s s' : State} (e : routeF s' = routeF s) :
    hypOff c t s' = hypOff c t s := by
  simp only [routeF, Prod.mk.injEq] at e
  obtain ⟨e1, e2, _, _, _, _, e7⟩ := e
  unfold hypOff; rw [e1, e2, e7]

/-- `d` of the entries under a key belongs to the token. -/
def hypPart (c : Cfg) (t : Nat) (p : Int) (id : String) (d : Int) : Int :=
  if p = HYPERLANE ∧ (c.hexAddr id).map c.internalId = some t then d else 0

theorem hypSum_set (c : Cfg) (t : Nat) (m : KV (Int × String) Int) (p : Int) (id : String) (d : Int) :
    hypSum c t (m.set (p, id) ((m.get? (p, id)).getD 0 + d)) = hypSum c t m + hypPart c t p id d := by
  unfold hypSum hypPart
  rw [KV.sum_set]
  unfold KV.at'
  cases h : m.get? (p, id) with
  | none => simp only [Option.getD_none]; split <;> omega
  | some v => simp only [Option.getD_some]; split <;> omega

theorem hypSum_erase (c : Cfg) (t : Nat) {m : KV (Int × String) Int} (hs : m.Sorted) (p : Int) (id : String) :
    hypSum c t (m.erase (p, id)) = hypSum c t m - hypPart c t p id ((m.get? (p, id)).getD 0) := by
  unfold hypSum hypPart
  rw [KV.sum_erase hs]
  unfold KV.at'
  cases h : m.get? (p, id) with
  | none => simp only [Option.getD_none, ite_self]
  | some v => simp only [Option.getD_some]

theorem hypOff_retryAdded (c : Cfg) (t : Nat) (s : State) (p : Int) (id : String) (d : Int) :
    hypOff c t (retryAdded s p id d) = hypOff c t s - hypPart c t p id d := by
  unfold hypOff
  show hypSum c t s.extYield - hypSum c t (s.retry.set (p, id) (s.retryOf p id + d)) - warpSum t s.warpOut = _
  unfold State.retryOf
  rw [hypSum_set]; omega

theorem hypOff_extAdded (c : Cfg) (t : Nat) (s : State) (p : Int) (id : String) (d : Int) :
    hypOff c t (extAdded s p id d) = hypOff c t s + hypPart c t p id d := by
  unfold hypOff
  show hypSum c t (s.extYield.set (p, id) (s.extYieldOf p id + d)) - hypSum c t s.retry - warpSum t s.warpOut = _
  unfold State.extYieldOf
  rw [hypSum_set]; omega

theorem hypOff_retryTaken (c : Cfg) (t : Nat) {s : State} (hi : HypInv s) (p : Int) (id : String) :
    hypOff c t (retryTaken s p id) = hypOff c t s + hypPart c t p id (s.retryOf p id) := by
  have h0 := hi.retry p id
  unfold retryTaken
  split
  · unfold hypOff
    show hypSum c t s.extYield - hypSum c t (s.retry.erase (p, id)) - warpSum t s.warpOut = _
    rw [hypSum_erase c t hi.sorted]
    unfold State.retryOf; omega
  · have : s.retryOf p id = 0 := by omega
    rw [this]; unfold hypPart; rw [ite_self, add_zero]

theorem HypInv.retryAdded {s : State} (h : HypInv s) (p : Int) (id : String) {d : Int} (hd : 0 ≤ d) :
    HypInv (retryAdded s p id d) :=
  ⟨KV.sorted_set _ _ h.sorted, fun p' i' => by
    rw [retryAdded_retryOf]; have := h.retry p' i'; split <;> omega, h.col⟩

theorem HypInv.extAdded {s : State} (h : HypInv s) (p : Int) (id : String) (d : Int) :
    HypInv (extAdded s p id d) := ⟨h.sorted, h.retry, h.col⟩

theorem HypInv.retryTaken {s : State} (h : HypInv s) (p : Int) (id : String) : HypInv (retryTaken s p id) := by
  refine ⟨?_, fun p' i' => ?_, ?_⟩
  · unfold Dollar.retryTaken
    split
    · exact KV.sorted_erase _ h.sorted
    · exact h.sorted
  · rw [retryTaken_retryOf s p id (h.retry p id)]
    split
    · exact le_refl _
    · exact h.retry _ _
  · rw [retryTaken_collateral]; exact h.col

/-- A run keeps the books when it succeeds, and does not lower what they are off by when it fails. -/
def Tally (c : Cfg) (t : Nat) {α : Type} (x : M α) : Prop :=
  ∀ s, HypInv s → wp x s (fun _ s' => HypInv s' ∧ hypOff c t s' = hypOff c t s)
    (fun _ s' => HypInv s' ∧ hypOff c t s ≤ hypOff c t s')

namespace Tally
variable {c : Cfg} {t : Nat} {α β : Type}

theorem pure (a : α) : Tally c t (Pure.pure a : M α) := fun _ h => ⟨h, rfl⟩
theorem get : Tally c t (MM.get : M State) := fun _ h => ⟨h, rfl⟩
theorem fail (e : Err) : Tally c t (MM.fail e : M α) := fun _ h => ⟨h, le_refl _⟩
theorem crash : Tally c t (MM.crash : M α) := fun _ _ => trivial

theorem bind {x : M α} {f : α → M β} (hx : Tally c t x) (hf : ∀ a, Tally c t (f a)) : Tally c t (x >>= f) := by
  intro s hs
  refine wp.seq (hx s hs) ?_ (fun _ _ h => h)
  rintro a s1 ⟨h1, e1⟩
  exact (hf a s1 h1).mono (fun _ _ h => ⟨h.1, h.2.trans e1⟩) fun _ _ h => ⟨h.1, e1 ▸ h.2⟩

theorem ite {p : Prop} [Decidable p] {x y : M α} (hx : Tally c t x) (hy : Tally c t y) :
    Tally c t (if p then x else y) := by
  split
  · exact hx
  · exact hy

theorem leaves {x : M α} (h : Leaves routeF x) : Tally c t x := by
  intro s hs
  have := (h (routeF s)).steps s
  unfold wp
  unfold Res.Ends at this
  generalize x s = r at *
  cases r with
  | ok _ s' => exact ⟨hs.congr (this rfl), hypOff_congr c t (this rfl)⟩
  | err _ s' => exact ⟨hs.congr (this rfl), (hypOff_congr c t (this rfl)).ge⟩
  | panic => trivial

theorem keeps {x : M α} (h : Tally c t x) (q : Int) : Keeps (fun s => HypInv s ∧ q ≤ hypOff c t s) x := by
  refine ⟨fun s => ?_⟩
  have k : HypInv s → wp x s _ _ := h s
  unfold wp at k
  unfold Res.Ends
  generalize x s = r at *
  cases r with
  | ok _ s' => exact fun hs => ⟨(k hs.1).1, (k hs.1).2 ▸ hs.2⟩
  | err _ s' => exact fun hs => ⟨(k hs.1).1, hs.2.trans (k hs.1).2⟩
  | panic => trivial

/-- The part of a provider other than Hyperlane is nothing. -/
theorem part_ibc (id : String) (d : Int) : hypPart c t IBC id d = 0 := by
  unfold hypPart; rw [if_neg (by simp [IBC, HYPERLANE])]

theorem ibcOne (hc : c.WF) (env : Env) (rs : KV String String) (id : String) :
    Tally c t (ibcOne c env rs id) := by
  intro s hs
  unfold Dollar.ibcOne
  refine wp.seq (leaves (RouteF.claimModuleYield c _) s hs) ?_ (fun _ _ h => h)
  rintro y s1 ⟨h1, e1⟩
  simp only [wp.bind_iff]
  unfold wp
  simp only [takeRetry_eq]
  have h2 := h1.retryTaken IBC id
  have e2 : hypOff c t (retryTaken s1 IBC id) = hypOff c t s := by
    rw [hypOff_retryTaken c t h1, part_ibc, add_zero, e1]
  generalize s1.retryOf IBC id = r
  generalize retryTaken s1 IBC id = s2 at h2 e2
  by_cases hpos : 0 < y + r
  swap
  · simp only [hpos, if_false, pure_apply]
    exact ⟨h2, e2⟩
  simp only [hpos, if_true]
  have ht := ibcTransfer_wp hc env id (c.escrowAddr id) ((rs.get? id).getD "") (y + r) s2
  unfold wp at ht
  rw [bind_apply, attempt_apply]
  generalize Dollar.ibcTransfer c env id (c.escrowAddr id) ((rs.get? id).getD "") (y + r) s2 = res at ht ⊢
  have mv : ∀ {a b x} {m : State}, Moved c s2 a b x m → HypInv m ∧ hypOff c t m = hypOff c t s2 := by
    intro a b x m hm
    refine ⟨⟨hm.retry ▸ h2.sorted, fun p i => by rw [hm.retryOf]; exact h2.retry p i,
      hm.collateral ▸ h2.col⟩, ?_⟩
    unfold hypOff; rw [hm.extYield, hm.retry, hm.warpOut]
  cases res with
  | ok u s3 =>
    obtain ⟨_, _, m, hm, rfl⟩ := ht
    show HypInv (extAdded (booked m _) IBC id y) ∧ hypOff c t (extAdded (booked m _) IBC id y) = _
    obtain ⟨k1, k2⟩ := mv hm
    refine ⟨⟨k1.sorted, k1.retry, k1.col⟩, ?_⟩
    rw [hypOff_extAdded, part_ibc, add_zero]
    exact k2.trans e2
  | err e s3 =>
    show HypInv (extAdded (retryAdded s3 IBC id (y + r)) IBC id y) ∧
      hypOff c t (extAdded (retryAdded s3 IBC id (y + r)) IBC id y) = _
    have k : HypInv s3 ∧ hypOff c t s3 = hypOff c t s := by
      rcases ht with rfl | hm
      · exact ⟨h2, e2⟩
      · exact ⟨(mv hm).1, (mv hm).2.trans e2⟩
    refine ⟨(k.1.retryAdded _ _ hpos.le).extAdded _ _ _, ?_⟩
    rw [hypOff_extAdded, hypOff_retryAdded, part_ibc, part_ibc, k.2]; omega
  | panic => trivial

theorem ibcLoop (hc : c.WF) (env : Env) (rs : KV String String) (l : List String) :
    Tally c t (ibcLoop c env rs l) := by
  induction l with
  | nil => exact pure _
  | cons e r ih =>
    unfold Dollar.ibcLoop
    exact bind (ibcOne hc env _ _) fun _ => ih

/-- The warp transfer of `v` for a route: it sends all of it or nothing. -/
theorem warpTransfer_wp (env : Env) (r : Route) (hr : 0 ≤ r.collateral) (d : Nat) (bz : Bytes) {v : Int}
    (hv : 0 ≤ v) {s : State} (hs : HypInv s) :
    wp (warpTransfer c env r d bz v) s
      (fun _ s' => HypInv s' ∧ hypOff c t s' = hypOff c t s - (if r.tokenId = t then v else 0))
      (fun _ s' => HypInv s' ∧ hypOff c t s' = hypOff c t s) := by
  have hsend := leaves (c := c) (t := t) (RouteF.sendCoins c c.warpAddr c.warpAddr v)
  have hl : ∀ {s s' : State}, routeF s' = routeF s → HypInv s → HypInv s' ∧ hypOff c t s' = hypOff c t s :=
    fun e h => ⟨h.congr e, hypOff_congr c t e⟩
  have hset : ∀ {m : State}, HypInv m →
      HypInv { m with collateral := m.collateral.set r.tokenId (r.collateral + v) } := by
    intro m hm
    refine ⟨hm.sorted, hm.retry, fun e he => ?_⟩
    rcases KV.mem_set he with rfl | h
    · show 0 ≤ r.collateral + v; omega
    · exact hm.col _ h
  have hsend : wp (sendCoins c c.warpAddr c.warpAddr v) s
      (fun _ s' => HypInv s' ∧ hypOff c t s' = hypOff c t s)
      (fun _ s' => HypInv s' ∧ hypOff c t s' = hypOff c t s) := by
    have := ((RouteF.sendCoins c c.warpAddr c.warpAddr v) (routeF s)).steps s
    unfold wp
    unfold Res.Ends at this
    generalize sendCoins c c.warpAddr c.warpAddr v s = x at *
    cases x with
    | ok _ s' => exact hl (this rfl) hs
    | err _ s' => exact hl (this rfl) hs
    | panic => trivial
  unfold Dollar.warpTransfer
  split
  · exact ⟨hs, rfl⟩
  · refine wp.seq hsend ?_ (fun _ _ h => h)
    rintro _ m ⟨h1, e1⟩
    simp only [wp.bind_iff, wp.modify_iff, wp.fail_iff]
    exact ⟨hset h1, e1⟩
  · refine wp.seq hsend ?_ (fun _ _ h => h)
    rintro _ m ⟨h1, e1⟩
    simp only [wp.bind_iff, wp.modify_iff]
    have h2 := hset h1
    refine ⟨⟨h2.sorted, h2.retry, h2.col⟩, ?_⟩
    rw [← e1]
    unfold hypOff
    show hypSum c t m.extYield - hypSum c t m.retry - warpSum t (m.warpOut ++ [_]) = _
    rw [warpSum_append]
    show hypSum c t m.extYield - hypSum c t m.retry - (_ + ((if r.tokenId = t then v else 0) + 0)) = _
    omega

theorem hypOne (env : Env) (rs : KV String String) (total y : Int) (ht : 0 < total) (hy : 0 ≤ y) (r : Route)
    (hr : 0 ≤ r.collateral) (hid : (c.hexAddr r.identifier).map c.internalId = some r.tokenId) :
    Tally c t (hypOne c env rs total y r) := by
  intro s hs
  have hp : 0 ≤ yieldPortion r.collateral total y := yieldPortion_nonneg hr ht hy
  have hpart : ∀ d, hypPart c t HYPERLANE r.identifier d = if r.tokenId = t then d else 0 := by
    intro d
    unfold hypPart
    rw [hid]
    simp only [true_and, Option.some.injEq]
  unfold Dollar.hypOne
  simp only [wp.bind_iff]
  unfold wp
  simp only [takeRetry_eq]
  have h2 := hs.retryTaken HYPERLANE r.identifier
  have e2 := hypOff_retryTaken c t hs HYPERLANE r.identifier
  rw [hpart] at e2
  have hn := hs.retry HYPERLANE r.identifier
  generalize s.retryOf HYPERLANE r.identifier = q at *
  generalize retryTaken s HYPERLANE r.identifier = s2 at h2 e2
  generalize yieldPortion r.collateral total y = y' at *
  by_cases hpos : 0 < y' + q
  swap
  · simp only [hpos, if_false, pure_apply]
    have : q = 0 := by omega
    subst this
    exact ⟨h2, by rw [e2, ite_self, add_zero]⟩
  simp only [hpos, if_true]
  have up : hypOff c t s ≤ hypOff c t s2 := by rw [e2]; split <;> omega
  have key : wp (do
      let domain ← hypRouter env r.tokenId
      match c.hexAddr ((rs.get? r.identifier).getD "") with
      | none => MM.fail .badHexRecipient
      | some recipient => do
        let e ← attempt (warpTransfer c env r domain recipient (y' + q))
        retryOnError e HYPERLANE r.identifier (y' + q)
        incrementExtYield HYPERLANE r.identifier y' : M Unit) s2
      (fun _ s' => HypInv s' ∧ hypOff c t s' = hypOff c t s)
      (fun _ s' => HypInv s' ∧ hypOff c t s ≤ hypOff c t s') := by
    have hro : wp (hypRouter env r.tokenId) s2 (fun _ s' => s' = s2) (fun _ s' => s' = s2) := by
      unfold hypRouter
      split
      · rfl
      · rfl
    refine wp.seq hro ?_ (fun _ _ h => h ▸ ⟨h2, up⟩)
    rintro d _ rfl
    split
    · exact ⟨h2, up⟩
    · next bz _ =>
      rw [wp.bind_iff, wp.attempt_iff]
      refine (warpTransfer_wp (t := t) env r hr d bz hpos.le h2).mono ?_ ?_
      · rintro _ s3 ⟨k1, k2⟩
        show HypInv (extAdded s3 HYPERLANE r.identifier y') ∧
          hypOff c t (extAdded s3 HYPERLANE r.identifier y') = _
        refine ⟨k1.extAdded _ _ _, ?_⟩
        rw [hypOff_extAdded, hpart, k2, e2]
        split <;> omega
      · rintro e s3 ⟨k1, k2⟩
        show HypInv (extAdded (Dollar.retryAdded s3 HYPERLANE r.identifier (y' + q)) HYPERLANE r.identifier y') ∧
          hypOff c t (extAdded (Dollar.retryAdded s3 HYPERLANE r.identifier (y' + q)) HYPERLANE r.identifier y') = _
        refine ⟨(k1.retryAdded _ _ hpos.le).extAdded _ _ _, ?_⟩
        rw [hypOff_extAdded, hypOff_retryAdded, hpart, hpart, k2, e2]
        split <;> omega
  exact key

theorem hypLoop (env : Env) (rs : KV String String) (total y : Int) (ht : 0 < total) (hy : 0 ≤ y)
    (l : List Route) (hl : ∀ r ∈ l, 0 ≤ r.collateral ∧ (c.hexAddr r.identifier).map c.internalId = some r.tokenId) :
    Tally c t (hypLoop c env rs total y l) := by
  induction l with
  | nil => exact pure _
  | cons r l ih =>
    unfold Dollar.hypLoop
    have h1 := hl r List.mem_cons_self
    exact bind (hypOne env rs total y ht hy r h1.1 h1.2) fun _ => ih fun r hr => hl r (List.mem_cons_of_mem _ hr)

theorem claimExternalHyperlane (env : Env) : Tally c t (claimExternalHyperlane c env) := by
  intro s hs
  unfold Dollar.claimExternalHyperlane
  rw [wp.bind_iff, wp.get_iff]
  refine wp.seq (leaves (RouteF.claimModuleYield c _) s hs) ?_ (fun _ _ h => h)
  rintro y m ⟨h1, e1⟩
  refine wp.ite (fun hpos => ?_) (fun _ => ⟨h1, e1⟩)
  refine wp.seq (hypRoutes_wp c _ m) ?_ (fun _ _ h => h ▸ ⟨h1, e1.ge⟩)
  rintro rs _ ⟨rfl, _, h2⟩
  refine wp.ite (fun ht => ?_) (fun _ => ⟨h1, e1⟩)
  rw [← e1]
  refine hypLoop env _ _ _ ht hpos.le rs (fun r hr => ?_) _ h1
  obtain ⟨h3, raw, h4, h5⟩ := h2 r hr
  exact ⟨h1.col _ (KV.mem_of_get? h3), by rw [h4, h5]; rfl⟩

theorem updateIndex (hc : c.WF) (env : Env) (i : Int) : Tally c t (updateIndex c env i) := by
  unfold Dollar.updateIndex
  refine bind get fun s => ite (fail _) (bind (leaves ?_) fun _ => bind (leaves ?_) fun _ => bind (leaves ?_)
    fun _ => bind ?_ fun _ => bind (claimExternalHyperlane env) fun _ => leaves (RouteF.emit _))
  · leaves
  · unfold accrueYield incrementTotalYield
    have h1 := fun v => (Other.mintCoins c v).mono (g := routeF) fun _ _ h => congrArg Prod.snd h
    leaves <;> first | exact h1 _ _ | exact RouteF.sendCoins c _ _ _ _
  · have h1 := fun a b v => (Other.sendModuleToAccount c a b v).mono (g := routeF) fun _ _ h => congrArg Prod.snd h
    unfold handleVaults handleSeasonOne handleSeasonTwo claimStakedVaultYield addPrincipal
    leaves <;> first
      | exact RouteF.sendCoins c _ _ _ _ | exact RouteF.claimModuleYield c _ _ | exact h1 _ _ _ _
  · unfold claimExternalIBC
    exact bind get fun s => ibcLoop hc env _ _

end Tally
end Dollar
