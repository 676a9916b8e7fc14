import Verif.Lemmas.HypLedger
import Verif.Lemmas.Backed
import Verif.Props.C35

/-
What the warp account holds beyond what is claimed of it.
-/
set_option linter.unnecessarySeqFocus false
namespace Dollar
open MM Spec

/-- Total of the Hyperlane entries of a store. -/
def hypAll (m : KV (Int × String) Int) : Int := m.sum fun k v => if k.1 = HYPERLANE then v else 0

theorem hypAll_set (m : KV (Int × String) Int) (p : Int) (id : String) (d : Int) :
    hypAll (m.set (p, id) ((m.get? (p, id)).getD 0 + d)) = hypAll m + if p = HYPERLANE then d else 0 := by
  unfold hypAll
  rw [KV.sum_set]
  unfold KV.at'
  cases h : m.get? (p, id) with
  | none => simp only [Option.getD_none]; split <;> omega
  | some v => simp only [Option.getD_some]; split <;> omega

theorem hypAll_erase {m : KV (Int × String) Int} (hs : m.Sorted) (p : Int) (id : String) :
    hypAll (m.erase (p, id)) = hypAll m - if p = HYPERLANE then (m.get? (p, id)).getD 0 else 0 := by
  unfold hypAll
  rw [KV.sum_erase hs]
  unfold KV.at'
  cases h : m.get? (p, id) with
  | none => simp only [Option.getD_none, ite_self]
  | some v => simp only [Option.getD_some]

theorem hypAll_retryAdded (s : State) (p : Int) (id : String) (d : Int) :
    hypAll (retryAdded s p id d).retry = hypAll s.retry + if p = HYPERLANE then d else 0 := by
  show hypAll (s.retry.set (p, id) (s.retryOf p id + d)) = _
  unfold State.retryOf
  exact hypAll_set _ _ _ _

theorem hypAll_retryTaken {s : State} (hi : HypInv s) (p : Int) (id : String) :
    hypAll (retryTaken s p id).retry = hypAll s.retry - if p = HYPERLANE then s.retryOf p id else 0 := by
  have h0 := hi.retry p id
  unfold retryTaken
  split
  · show hypAll (s.retry.erase (p, id)) = _
    rw [hypAll_erase hi.sorted]; rfl
  · have : s.retryOf p id = 0 := by omega
    rw [this, ite_self, sub_zero]

/-- The warp account holds at least `k` beyond what `W` says is claimed of it and what waits for a retry. -/
structure Room (c : Cfg) (W : KV Nat Int → List WarpOut → Int) (k : Int) (s : State) : Prop where
  inv : HypInv s
  room : k ≤ s.balance c.warpAddr - W s.collateral s.warpOut - hypAll s.retry

namespace Room
variable {c : Cfg} {W : KV Nat Int → List WarpOut → Int} {k : Int} {s s' : State}

theorem mono (h : Room c W k s) {j : Int} (hj : j ≤ k) : Room c W j s := ⟨h.inv, hj.trans h.room⟩

theorem of_route (h : Room c W k s) (e : routeF s' = routeF s) (hb : s.balance c.warpAddr ≤ s'.balance c.warpAddr) :
    Room c W k s' := by
  refine ⟨h.inv.congr e, ?_⟩
  simp only [routeF, Prod.mk.injEq] at e
  obtain ⟨_, e2, e3, _, _, _, e7⟩ := e
  rw [e2, e3, e7]
  have := h.room
  omega

theorem modify {f : State → State} (e : ∀ s, routeF (f s) = routeF s := by intro _; rfl)
    (hb : ∀ s, s.balance c.warpAddr ≤ (f s).balance c.warpAddr := by intro _; exact le_refl _) :
    Keeps (Room c W k) (MM.modify f) := Keeps.modify fun s hs => hs.of_route (e s) (hb s)

theorem emit (e : Event) : Keeps (Room c W k) (emit e) :=
  Keeps.modify fun _ h => ⟨⟨h.inv.sorted, h.inv.retry, h.inv.col⟩, h.room⟩

theorem moved {x y : Addr} {v : Int} (h : Room c W k s) (hm : Moved c s x y v s') (h0 : 0 ≤ v) (hx : x ≠ c.warpAddr) :
    Room c W k s' := by
  refine ⟨⟨hm.retry ▸ h.inv.sorted, fun p i => by rw [hm.retryOf]; exact h.inv.retry p i, hm.collateral ▸ h.inv.col⟩, ?_⟩
  rw [hm.bal, if_neg hx.symm, hm.collateral, hm.warpOut, hm.retry]
  have := h.room
  split <;> omega

theorem sendCoins {x y : Addr} {v : Int} (h0 : 0 ≤ v) (hx : x ≠ c.warpAddr) :
    Keeps (Room c W k) (sendCoins c x y v) := ⟨fun s => by
  have := sendCoins_wp c x y v s
  unfold wp at this
  unfold Res.Ends
  generalize Dollar.sendCoins c x y v s = r at *
  cases r with
  | ok _ s' => exact fun hs => hs.moved this h0 hx
  | err e s' =>
    intro hs
    rcases this with ⟨e, _⟩ | ⟨_, _, _, _, rfl⟩
    · rw [e]; exact hs
    · exact hs.of_route rfl (by rw [balance_debit, if_neg hx.symm]; omega)
  | panic => trivial⟩

theorem takeRetry (p : Int) (id : String) : Keeps (Room c W k) (takeRetry p id) := ⟨fun s => by
  rw [takeRetry_eq]
  intro hs
  refine ⟨hs.inv.retryTaken p id, ?_⟩
  rw [hypAll_retryTaken hs.inv]
  have e1 : (retryTaken s p id).balance c.warpAddr = s.balance c.warpAddr := by unfold retryTaken; split <;> rfl
  have e2 : (retryTaken s p id).collateral = s.collateral := by unfold retryTaken; split <;> rfl
  have e3 : (retryTaken s p id).warpOut = s.warpOut := by unfold retryTaken; split <;> rfl
  rw [e1, e2, e3]
  have := hs.room
  have := hs.inv.retry p id
  split <;> omega⟩

theorem retryAdded (h : Room c W k s) (id : String) {d : Int} (hd : 0 ≤ d) : Room c W k (retryAdded s IBC id d) := by
  refine ⟨h.inv.retryAdded _ _ hd, ?_⟩
  rw [hypAll_retryAdded, if_neg (by decide), add_zero]
  exact h.room

theorem booked (h : Room c W k s) (p : IbcOut) : Room c W k (booked s p) :=
  ⟨⟨h.inv.sorted, h.inv.retry, h.inv.col⟩, h.room⟩

theorem extAdded (h : Room c W k s) (p : Int) (id : String) (d : Int) : Room c W k (extAdded s p id d) :=
  ⟨h.inv.extAdded p id d, h.room⟩

theorem hypRoutes (l : List String) : Keeps (Room c W k) (hypRoutes c l) := by
  induction l with
  | nil => exact Keeps.pure _
  | cons e t ih => unfold Dollar.hypRoutes; keeps

variable (hc : c.WF) (env : Env)
include hc

theorem fromYield {y : Addr} {v : Int} (h0 : 0 ≤ v) :
    Keeps (Room c W k) (sendModuleToAccount c c.yieldAddr y v) := by
  unfold sendModuleToAccount
  exact Keeps.ite (Keeps.fail _) (sendCoins h0 hc.warp_ne_yield.symm)

theorem claimModuleYield (y : Addr) : Keeps (Room c W k) (claimModuleYield c y) := by
  unfold Dollar.claimModuleYield
  refine Keeps.bind Keeps.get fun s => HLe.ite (fun h => ?_) fun _ => Keeps.pure _
  exact Keeps.bind (fromYield hc h.le) fun _ => Keeps.pure _

theorem ibcOne (r : KV String String) (ch : String) : Keeps (Room c W k) (ibcOne c env r ch) := by
  unfold Dollar.ibcOne
  refine Keeps.bind (claimModuleYield hc _) fun y => Keeps.bind (takeRetry _ _) fun q =>
    HLe.ite (fun h => ?_) fun _ => Keeps.pure _
  refine ⟨fun s => ?_⟩
  have ht := ibcTransfer_wp hc env ch (c.escrowAddr ch) ((r.get? ch).getD "") (y + q) s
  unfold wp at ht
  rw [bind_apply, attempt_apply]
  have hx : c.escrowAddr ch ≠ c.warpAddr := hc.escrow_ne_mod ch _
  generalize Dollar.ibcTransfer c env ch (c.escrowAddr ch) ((r.get? ch).getD "") (y + q) s = res at ht ⊢
  cases res with
  | ok u s3 =>
    intro hs
    obtain ⟨_, _, m, hm, rfl⟩ := ht
    exact ((hs.moved hm h.le hx).booked _).extAdded IBC ch y
  | err e s3 =>
    intro hs
    show Room c W k (Dollar.extAdded (Dollar.retryAdded s3 IBC ch (y + q)) IBC ch y)
    rcases ht with rfl | hm
    · exact (hs.retryAdded _ h.le).extAdded _ _ _
    · exact ((hs.moved hm h.le hx).retryAdded _ h.le).extAdded _ _ _
  | panic => trivial

theorem ibcLoop (r : KV String String) (l : List String) : Keeps (Room c W k) (ibcLoop c env r l) := by
  induction l with
  | nil => exact Keeps.pure _
  | cons e t ih =>
    unfold Dollar.ibcLoop
    exact Keeps.bind (ibcOne hc env _ _) fun _ => ih

theorem claimStakedVaultYield : Keeps (Room c W k) (claimStakedVaultYield c) := by
  unfold Dollar.claimStakedVaultYield addPrincipal
  refine Keeps.bind Keeps.get fun s => HLe.ite (fun h => ?_) fun _ => Keeps.pure _
  have := fromYield (W := W) (k := k) (y := c.flexibleAddr) hc h.le
  keeps <;> exact modify

theorem mintCoins (v : Int) : Keeps (Room c W k) (mintCoins c v) := by
  unfold Dollar.mintCoins
  refine Keeps.bind ?_ fun _ => modify
  refine ⟨fun s => ?_⟩
  rw [addCoins_eq]
  exact fun hs => hs.of_route rfl (by rw [balance_credit, if_neg hc.warp_ne_module]; omega)

theorem handleSeasonTwo : Keeps (Room c W k) (handleSeasonTwo c) := by
  unfold Dollar.handleSeasonTwo
  refine Keeps.bind (claimModuleYield hc _) fun y => HLe.ite (fun h => ?_) fun _ => Keeps.pure _
  exact Keeps.bind Keeps.get fun s => sendCoins h.le (fun e => absurd (hc.mod_inj _ _ e) (by decide))

theorem accrueYield (d : Int) : Keeps (Room c W k) (accrueYield c d) := by
  unfold Dollar.accrueYield
  refine Keeps.bind (Keeps.newCoin _) fun _ => HLe.ite (fun h => ?_) fun _ => Keeps.pure _
  exact Keeps.bind (mintCoins hc _) fun _ => Keeps.bind
    (sendCoins h.le hc.warp_ne_module.symm) fun _ => modify

end Room

/-! ### The Hyperlane routes -/

/-- `W` grows by at most what is dispatched, and not at all when a transfer fails after it was booked. -/
structure Gauge (env : Env) (W : KV Nat Int → List WarpOut → Int) : Prop where
  sent : ∀ (col : KV Nat Int) out t d bz (x v : Int), x ≤ (col.get? t).getD 0 → 0 ≤ v →
    W (col.set t (x + v)) (out ++ [⟨t, d, bz, v⟩]) ≤ W col out + v
  new : ∀ (col : KV Nat Int) out t, col.get? t = none → W (col.set t 0) out ≤ W col out
  late : ∀ (col : KV Nat Int) out t (x v : Int), env.warp t = .failLate → x ≤ (col.get? t).getD 0 → 0 ≤ v →
    W (col.set t (x + v)) out ≤ W col out

/-- What the loop knows about the routes still to be served. -/
structure Fresh (l : List Route) (s : State) : Prop where
  nonneg : ∀ r ∈ l, 0 ≤ r.collateral
  le : ∀ r ∈ l, r.collateral ≤ (s.collateral.get? r.tokenId).getD 0
  same : ∀ r ∈ l, ∀ r' ∈ l, r.tokenId = r'.tokenId → r.collateral = r'.collateral

theorem Fresh.tail {r : Route} {l : List Route} {s : State} (h : Fresh (r :: l) s) : Fresh l s :=
  ⟨fun x hx => h.nonneg x (List.mem_cons_of_mem _ hx), fun x hx => h.le x (List.mem_cons_of_mem _ hx),
   fun x hx y hy => h.same x (List.mem_cons_of_mem _ hx) y (List.mem_cons_of_mem _ hy)⟩

theorem Fresh.congr {l : List Route} {s s' : State} (h : Fresh l s) (e : s'.collateral = s.collateral) : Fresh l s' :=
  ⟨h.nonneg, e ▸ h.le, h.same⟩

theorem Fresh.set {r : Route} {l : List Route} {s s' : State} (h : Fresh (r :: l) s) {v : Int} (hv : 0 ≤ v)
    (e : s'.collateral = s.collateral.set r.tokenId (r.collateral + v)) : Fresh l s' := by
  refine ⟨h.tail.nonneg, fun x hx => ?_, h.tail.same⟩
  rw [e, KV.get?_set]
  split
  · next he =>
    have := h.same x (List.mem_cons_of_mem _ hx) r List.mem_cons_self he
    simp only [Option.getD_some]; omega
  · exact h.tail.le x hx

namespace Room
variable {c : Cfg} {W : KV Nat Int → List WarpOut → Int} {k : Int} {s s' : State}

theorem warpTransfer_wp (hc : c.WF) {env : Env} (g : Gauge env W) {r : Route} {l : List Route} (d : Nat) (bz : Bytes)
    {v : Int} (hv : 0 ≤ v) (hf : Fresh (r :: l) s) (hs : Room c W k s) :
    wp (warpTransfer c env r d bz v) s (fun _ s' => Fresh l s' ∧ Room c W (k - v) s')
      (fun _ s' => Fresh l s' ∧ Room c W k s') := by
  have hr0 := hf.nonneg r List.mem_cons_self
  have hr1 := hf.le r List.mem_cons_self
  have hset : ∀ {m : State}, HypInv m →
      HypInv { m with collateral := m.collateral.set r.tokenId (r.collateral + v) } := by
    intro m hm
    refine ⟨hm.sorted, hm.retry, fun e he => ?_⟩
    rcases KV.mem_set he with rfl | h
    · show 0 ≤ r.collateral + v; omega
    · exact hm.col _ h
  have hmv : ∀ {m : State}, Moved c s c.warpAddr c.warpAddr v m → HypInv m := fun hm =>
    ⟨hm.retry ▸ hs.inv.sorted, fun p i => by rw [hm.retryOf]; exact hs.inv.retry p i, hm.collateral ▸ hs.inv.col⟩
  have hfail : ∀ {m : State}, SendFailed c s c.warpAddr c.warpAddr v m → Fresh l m ∧ Room c W k m := by
    intro m h
    rw [h.of_ne hc.warp_ne_yield]; exact ⟨hf.tail, hs⟩
  unfold Dollar.warpTransfer
  cases henv : env.warp r.tokenId with
  | failEarly => exact ⟨hf.tail, hs⟩
  | failLate =>
    refine wp.seq (sendCoins_wp c _ _ _ s) ?_ (fun _ _ h => hfail h)
    rintro _ m hm
    simp only [wp.bind_iff, wp.modify_iff, wp.fail_iff]
    refine ⟨hf.set hv (by rw [← hm.collateral]), hset (hmv hm), ?_⟩
    show k ≤ m.balance _ - W (m.collateral.set _ _) m.warpOut - hypAll m.retry
    rw [hm.self, hm.collateral, hm.warpOut, hm.retry]
    have := g.late s.collateral s.warpOut r.tokenId r.collateral v henv hr1 hv
    have := hs.room
    omega
  | success =>
    refine wp.seq (sendCoins_wp c _ _ _ s) ?_ (fun _ _ h => hfail h)
    rintro _ m hm
    simp only [wp.bind_iff, wp.modify_iff]
    have h2 := hset (hmv hm)
    refine ⟨hf.set hv (by rw [← hm.collateral]), ⟨h2.sorted, h2.retry, h2.col⟩, ?_⟩
    show k - v ≤ m.balance _ - W (m.collateral.set _ _) (m.warpOut ++ [⟨r.tokenId, d, bz, v⟩]) - hypAll m.retry
    rw [hm.self, hm.collateral, hm.warpOut, hm.retry]
    have := g.sent s.collateral s.warpOut r.tokenId d bz r.collateral v hr1 hv
    have := hs.room
    omega

theorem hypOne_wp (hc : c.WF) {env : Env} (g : Gauge env W) (rs : KV String String) {total y : Int} (ht : 0 < total)
    (hy : 0 ≤ y) {r : Route} {l : List Route} (hf : Fresh (r :: l) s) (hs : Room c W k s) :
    wp (hypOne c env rs total y r) s
      (fun _ s' => Fresh l s' ∧ Room c W (k - yieldPortion r.collateral total y) s')
      (fun _ s' => Room c W (k - yieldPortion r.collateral total y) s') := by
  have hp : 0 ≤ yieldPortion r.collateral total y :=
    yieldPortion_nonneg (hf.nonneg r List.mem_cons_self) ht hy
  unfold Dollar.hypOne
  simp only [wp.bind_iff]
  unfold wp
  simp only [takeRetry_eq]
  have e1 : (retryTaken s HYPERLANE r.identifier).balance c.warpAddr = s.balance c.warpAddr := by
    unfold retryTaken; split <;> rfl
  have e2 : (retryTaken s HYPERLANE r.identifier).collateral = s.collateral := by unfold retryTaken; split <;> rfl
  have e3 : (retryTaken s HYPERLANE r.identifier).warpOut = s.warpOut := by unfold retryTaken; split <;> rfl
  have hn := hs.inv.retry HYPERLANE r.identifier
  have h2 : Room c W (k + s.retryOf HYPERLANE r.identifier) (retryTaken s HYPERLANE r.identifier) := by
    refine ⟨hs.inv.retryTaken _ _, ?_⟩
    rw [hypAll_retryTaken hs.inv, e1, e2, e3, if_pos rfl]
    have := hs.room
    omega
  have hf2 : Fresh (r :: l) (retryTaken s HYPERLANE r.identifier) := hf.congr e2
  generalize s.retryOf HYPERLANE r.identifier = q at *
  generalize retryTaken s HYPERLANE r.identifier = s2 at h2 hf2
  generalize yieldPortion r.collateral total y = p at *
  by_cases hpos : 0 < p + q
  swap
  · simp only [hpos, if_false, pure_apply]
    exact ⟨hf2.tail, h2.mono (by omega)⟩
  simp only [hpos, if_true]
  have key : wp (do
      let domain ← hypRouter env r.tokenId
      match c.hexAddr ((rs.get? r.identifier).getD "") with
      | none => MM.fail .badHexRecipient
      | some recipient => do
        let e ← attempt (warpTransfer c env r domain recipient (p + q))
        retryOnError e HYPERLANE r.identifier (p + q)
        incrementExtYield HYPERLANE r.identifier p : M Unit) s2
      (fun _ s' => Fresh l s' ∧ Room c W (k - p) s') (fun _ s' => Room c W (k - p) s') := by
    have hro : wp (hypRouter env r.tokenId) s2 (fun _ s' => s' = s2) (fun _ s' => s' = s2) := by
      unfold hypRouter
      split
      · rfl
      · rfl
    refine wp.seq hro ?_ (fun _ _ h => h ▸ h2.mono (by omega))
    rintro d _ rfl
    split
    · exact h2.mono (by omega)
    · next bz _ =>
      rw [wp.bind_iff, wp.attempt_iff]
      refine (warpTransfer_wp hc g d bz hpos.le hf2 h2).mono ?_ ?_
      · rintro _ s3 ⟨k1, k2⟩
        exact ⟨k1.congr rfl, (k2.mono (by omega)).extAdded _ _ _⟩
      · rintro e s3 ⟨k1, k2⟩
        show Fresh l (Dollar.extAdded (Dollar.retryAdded s3 HYPERLANE r.identifier (p + q)) HYPERLANE r.identifier p) ∧
          Room c W (k - p) (Dollar.extAdded (Dollar.retryAdded s3 HYPERLANE r.identifier (p + q)) HYPERLANE r.identifier p)
        refine ⟨k1.congr rfl, Room.extAdded ⟨k2.inv.retryAdded _ _ hpos.le, ?_⟩ _ _ _⟩
        rw [hypAll_retryAdded, if_pos rfl]
        have := k2.room
        show _ ≤ s3.balance _ - W s3.collateral s3.warpOut - _
        omega
  exact key

theorem hypLoop_wp (hc : c.WF) {env : Env} (g : Gauge env W) (rs : KV String String) {total y : Int} (ht : 0 < total)
    (hy : 0 ≤ y) (l : List Route) (hf : Fresh l s) (hs : Room c W k s) :
    wp (hypLoop c env rs total y l) s
      (fun _ s' => Room c W (k - (l.map fun r => yieldPortion r.collateral total y).sum) s')
      (fun _ s' => Room c W (k - (l.map fun r => yieldPortion r.collateral total y).sum) s') := by
  induction l generalizing s k with
  | nil => exact hs.mono (by simp)
  | cons r l ih =>
    have h0 : 0 ≤ (l.map fun r => yieldPortion r.collateral total y).sum :=
      List.sum_nonneg fun x hx => by
        obtain ⟨r', hr', rfl⟩ := List.mem_map.1 hx
        exact yieldPortion_nonneg (hf.tail.nonneg r' hr') ht hy
    unfold Dollar.hypLoop
    rw [List.map_cons, List.sum_cons]
    refine wp.seq (hypOne_wp hc g rs ht hy hf hs) ?_ (fun _ _ h => h.mono (by omega))
    rintro _ s1 ⟨h1, h2⟩
    exact (ih h1 h2).mono (fun _ _ h => h.mono (by omega)) (fun _ _ h => h.mono (by omega))

theorem portions_le {rs : List Route} {y : Int} (hn : ∀ r ∈ rs, 0 ≤ r.collateral) (ht : 0 < totalCollateral rs)
    (hy : 0 ≤ y) : (rs.map fun r => yieldPortion r.collateral (totalCollateral rs) y).sum ≤ y := by
  have := C35_shares_sum (rs.map Route.collateral) y
    (fun x hx => by obtain ⟨r, hr, rfl⟩ := List.mem_map.1 hx; exact hn r hr) ht hy
  rw [List.map_map] at this
  refine le_trans (le_of_eq ?_) this
  congr 1
  refine List.map_congr_left fun r hr => ?_
  exact yieldPortion_eq (hn r hr) ht hy

theorem claimExternalHyperlane (hc : c.WF) {env : Env} (g : Gauge env W) :
    Keeps (Room c W k) (claimExternalHyperlane c env) := by
  refine ⟨fun s => ?_⟩
  suffices h : Room c W k s → wp (Dollar.claimExternalHyperlane c env) s (fun _ s' => Room c W k s')
      (fun _ s' => Room c W k s') by
    unfold wp at h
    unfold Res.Ends
    generalize Dollar.claimExternalHyperlane c env s = r at *
    cases r with
    | ok _ _ => exact h
    | err _ _ => exact h
    | panic => trivial
  intro hs
  unfold Dollar.claimExternalHyperlane
  rw [wp.bind_iff, wp.get_iff]
  refine wp.seq (claimModuleYield_wp c _ s) ?_ (fun _ _ h => h ▸ hs)
  rintro y m ⟨hy, hm⟩
  have hy0 : 0 ≤ y := hy ▸ claimable_nonneg s _
  have h1 : Room c W (k + y) m := by
    refine ⟨⟨hm.retry ▸ hs.inv.sorted, fun p i => by rw [hm.retryOf]; exact hs.inv.retry p i,
      hm.collateral ▸ hs.inv.col⟩, ?_⟩
    rw [hm.bal, if_neg hc.warp_ne_yield, if_pos rfl, hm.collateral, hm.warpOut, hm.retry]
    have := hs.room
    omega
  refine wp.ite (fun hpos => ?_) (fun _ => h1.mono (by omega))
  refine wp.seq (hypRoutes_wp c _ m) ?_ (fun _ _ h => h ▸ h1.mono (by omega))
  rintro rs m' ⟨e, _, h2⟩
  subst e
  refine wp.ite (fun ht => ?_) (fun _ => h1.mono (by omega))
  have hf : Fresh rs m' := by
    refine ⟨fun r hr => h1.inv.col _ (KV.mem_of_get? (h2 r hr).1), fun r hr => ?_, fun r hr r' hr' e => ?_⟩
    · rw [(h2 r hr).1]; exact le_refl _
    · have := (h2 r hr).1
      rw [e, (h2 r' hr').1] at this
      exact (Option.some.inj this).symm
  have := portions_le hf.nonneg ht hpos.le
  exact (hypLoop_wp hc g _ ht hpos.le rs hf h1).mono (fun _ _ h => h.mono (by omega)) (fun _ _ h => h.mono (by omega))

theorem updateIndex (hc : c.WF) {env : Env} (g : Gauge env W) (i : Int) : Keeps (Room c W k) (updateIndex c env i) := by
  have h1 := accrueYield (W := W) (k := k) hc
  have h3 := handleSeasonTwo (W := W) (k := k) hc
  have h4 := claimStakedVaultYield (W := W) (k := k) hc
  have h5 := claimExternalHyperlane (k := k) hc g
  unfold Dollar.updateIndex handleVaults handleSeasonOne claimExternalIBC
  keeps <;> first
    | exact emit _ | exact h1 _ | exact claimModuleYield hc _ | exact ibcLoop hc _ _ _ | exact modify

end Room

/-! ### Messages -/

/-- The messages of the portal and of the bank never lower the balance of the warp account. -/
theorem warp_mono_plain {c : Cfg} (hc : c.WF) {env : Env} {m : Msg} {s s' : State} (hl : Led c s)
    (hm : m.SignedByUser c) (ho : m.noOther = true) (h : exec c env m s = .ok () s') :
    s.balance c.warpAddr ≤ s'.balance c.warpAddr := by
  have mv : ∀ {s s' : State} {a b : Addr} {x : Int}, Moved c s a b x s' → 0 ≤ x → c.warpAddr ≠ a →
      s.balance c.warpAddr ≤ s'.balance c.warpAddr := by
    intro s s' a b x hv h0 h1
    rw [hv.bal, if_neg h1]
    split <;> omega
  cases m with
  | claimYield signer =>
    obtain ⟨_, a, m, hd, hb, hmv, rfl⟩ := claimYield_ok h
    exact (mv hmv (claimable_nonneg s a) hc.warp_ne_yield :)
  | setPaused a b => obtain ⟨_, rfl⟩ := setPaused_ok h; exact le_refl _
  | setYieldRecipient a b i r => obtain ⟨_, _, rfl⟩ := setYieldRecipient_ok h; exact le_refl _
  | transfer signer amt? chain token rcp =>
    obtain ⟨amt, rfl, ht⟩ := transfer_ok (show transfer c env signer amt? chain token rcp s = .ok () s' from h)
    obtain ⟨a, ha⟩ := ht.sender
    have hu : c.IsUser a := hm a ha
    rw [(ht.did ha).bal, if_neg (fun e => hu.ne_warp e.symm)]; omega
  | portalSetPaused a b => obtain ⟨_, _, rfl⟩ := portalSetPaused_ok h; exact le_refl _
  | setPeer a b t r => obtain ⟨_, _, _, _, _, _, _, _, rfl⟩ := setPeer_ok h; exact le_refl _
  | setBridgingPath a b t r => obtain ⟨_, _, _, _, _, rfl⟩ := setBridgingPath_ok h; exact le_refl _
  | transferOwnership a b => obtain ⟨_, _, _, _, rfl⟩ := transferOwnership_ok h; exact le_refl _
  | vaultsSetPaused a b => obtain ⟨_, _, _, rfl⟩ := vaultsSetPaused_ok h; exact le_refl _
  | bankSend a b x =>
    have hu : c.IsUser a := hm
    obtain ⟨h0, _, hv⟩ := bankSend_ok (show bankSend c a b x s = .ok () s' from h)
    exact mv hv h0.le hu.ne_warp.symm
  | keeperSend a b x =>
    have hu : c.IsUser a := hm.1
    obtain ⟨h0, hv⟩ := keeperSend_ok (show keeperSend c a b x s = .ok () s' from h)
    exact mv hv h0 hu.ne_warp.symm
  | bankMultiSend a outs =>
    have hu : c.IsUser a := hm
    have hv := bankMultiSend_ok hc hu.ne_yield hu.ne_module hl.good.index.ne'
      (show bankMultiSend c a outs s = .ok () s' from h)
    rw [hv.bal, if_neg (fun e => hu.ne_warp e.symm)]
    have := outTo_nonneg hv.pos c.warpAddr
    omega
  | _ => exact Bool.noConfusion ho

/-- A message other than a warp transfer coming back. -/
theorem room_exec {c : Cfg} (hc : c.WF) {W : KV Nat Int → List WarpOut → Int} {k : Int} {env : Env} (g : Gauge env W)
    {m : Msg} {s s' : State} (hl : Led c s) (hi : VInv c s) (hm : m.SignedByUser c)
    (hn : ∀ t a x, m ≠ .warpReceive t a x) (h : exec c env m s = .ok () s') (hs : Room c W k s) : Room c W k s' := by
  by_cases ho : m.noOther = true
  · have := (Other.msg c env m ho).ok h
    exact hs.of_route (congrArg Prod.snd this :) (warp_mono_plain hc hl hm ho h)
  have failed : ∀ {p : IbcOut} {b : Bool}, packetFailed c p b s = .ok () s' → Room c W k s' := by
    intro p b hp
    obtain ⟨hin, h1, m, hmv, rfl⟩ := packetFailed_ok hp
    have h0 := (hl.good.infl p hin).1
    have h2 : Room c W k (if ownPacket c p then _root_.Dollar.retryAdded s IBC p.channel p.amount else s) := by
      split
      · exact hs.retryAdded _ h0.le
      · exact hs
    have h3 := h2.moved hmv h0.le (hc.escrow_ne_mod _ _)
    exact ⟨⟨h3.inv.sorted, h3.inv.retry, h3.inv.col⟩, h3.room⟩
  cases m with
  | lock signer v amt? =>
    have hr := (RouteF.lock c env signer v amt?).ok (show lock c env signer v amt? s = .ok () s' from h)
    refine hs.of_route hr ?_
    obtain ⟨amt, a, rfl, hk⟩ := lock_ok (show lock c env signer v amt? s = .ok () s' from h)
    obtain ⟨q, hv, rfl⟩ := hk.run
    have hu : c.IsUser a := hm a hk.dec
    show _ ≤ q.balance _
    have := hk.nonneg
    rw [hv.bal, if_neg (fun e => hu.ne_warp e.symm)]
    split <;> omega
  | unlock signer v amt? =>
    have hr := (RouteF.unlock c signer v amt?).ok (show unlock c signer v amt? s = .ok () s' from h)
    refine hs.of_route hr ?_
    obtain ⟨hv, _, amt, a, rfl, hk⟩ := unlock_ok (show unlock c signer v amt? s = .ok () s' from h)
    have hu : c.IsUser a := hm a hk.dec
    obtain ⟨m, removed, hlp, rfl⟩ := hk.run
    show _ ≤ m.balance _
    have hpend := pending_positionsOf hi.toV0 a v
    rcases hk.vault with hv | hv
    · have := hlp.pay_staked hc hk.dec hv hpend.vault c.warpAddr
      have h7 : c.warpAddr ≠ c.stakedAddr := fun e => absurd (hc.mod_inj _ _ e) (by decide)
      rw [this, if_neg h7, if_neg (fun e => hu.ne_warp e.symm)]
      omega
    · have := (hlp.pay_flexible hc hk.dec hu hv hi.toV0 hpend hk.pos.le).1.other c.warpAddr
        (fun e => hu.ne_warp e.symm) (fun e => absurd (hc.mod_inj _ _ e) (by decide)) hc.warp_ne_yield
        (fun t => (flexAcct_ne_warp hc _ _).symm)
      rw [this]
  | deliver vaa =>
    obtain ⟨v, sA, _, _, rfl, hA, hR, hd⟩ := deliver_did hc hl
      (show deliver c env vaa s = .ok () s' from h)
    have hsA : Room c W k { { s with archive := s.archive ++ [v.digest] } with archive := s'.archive } :=
      hs.of_route rfl (le_refl _)
    generalize content env vaa = q at hd
    cases hd with
    | ignored _ _ _ _ _ _ _ _ e => rw [e]; exact hs.of_route rfl (le_refl _)
    | token amount i rcp s1 hx hu hmt =>
      have h1 : Room c W k s1 := (Room.updateIndex hc g i).ignore.ok hx hsA
      refine h1.of_route ?_ ?_
      · have : routeF { s' with events := s1.events } = routeF s1 := by
          unfold routeF
          rw [hmt.moved.extYield, hmt.moved.retry, hmt.moved.collateral, hmt.moved.ibcOut, hmt.moved.inflight,
            hmt.moved.vouchers, hmt.moved.warpOut]
          rfl
        exact this
      · have h2 : s'.balance c.warpAddr = s1.balance c.warpAddr + (if c.warpAddr = rcp then (amount : Int) else 0) :=
          hmt.bal _
        rw [h2]
        split <;> omega
    | index i m hx e hu _ =>
      have h1 : Room c W k m := (Room.updateIndex hc g i).ok hx hsA
      rw [e]
      exact h1.of_route rfl (le_refl _)
  | ibcTransfer a ch r amt =>
    obtain ⟨h0, hy, m, hmv, rfl⟩ := userIbcTransfer_ok (show userIbcTransfer c env a ch r amt s = .ok () s' from h)
    have hu : c.IsUser a := hm
    exact (hs.moved hmv h0.le hu.ne_warp).booked _
  | ibcReceive ch r amt =>
    obtain ⟨h0, h1, _, m, hmv, rfl⟩ := ibcReceive_ok (show ibcReceive c ch r amt s = .ok () s' from h)
    have h3 := hs.moved hmv h0.le (hc.escrow_ne_mod _ _)
    exact ⟨⟨h3.inv.sorted, h3.inv.retry, h3.inv.col⟩, h3.room⟩
  | ibcTimeout p => exact failed h
  | ibcAckError p => exact failed h
  | ibcAckSuccess p =>
    obtain ⟨_, rfl⟩ := packetAcked_ok (show packetAcked c p s = .ok () s' from h)
    exact ⟨⟨hs.inv.sorted, hs.inv.retry, hs.inv.col⟩, hs.room⟩
  | warpCreate t =>
    have h : warpCreate t s = .ok () s' := h
    unfold warpCreate at h
    have h := modify_ok.1 h
    subst h
    split
    · exact hs
    · next hh =>
      refine ⟨⟨hs.inv.sorted, hs.inv.retry, fun e he => ?_⟩, ?_⟩
      · rcases KV.mem_set he with rfl | h
        · exact le_refl _
        · exact hs.inv.col _ h
      · have hg : s.collateral.get? t = none := by
          unfold KV.has at hh
          cases e : s.collateral.get? t with
          | none => rfl
          | some v => rw [e] at hh; exact absurd rfl hh
        have := g.new s.collateral s.warpOut t hg
        have := hs.room
        show k ≤ s.balance _ - W (s.collateral.set t 0) s.warpOut - hypAll s.retry
        omega
  | warpTransfer a t d r amt =>
    obtain ⟨h0, col, m, hcol, hmv, rfl⟩ := warpSend_ok (show warpSend c t d a r amt s = .ok () s' from h)
    have hu : c.IsUser a := hm
    have h2 := hs.inv.col _ (KV.mem_of_get? hcol)
    refine ⟨⟨hmv.retry ▸ hs.inv.sorted, fun p i => by
        have := hmv.retryOf (p := p) (i := i); exact this ▸ hs.inv.retry p i, fun e he => ?_⟩, ?_⟩
    · rcases KV.mem_set he with rfl | h
      · show 0 ≤ col + amt; have : 0 ≤ col := h2; omega
      · rw [hmv.collateral] at h; exact hs.inv.col _ h
    · show k ≤ m.balance _ - W (m.collateral.set t (col + amt)) (m.warpOut ++ [⟨t, d, r, amt⟩]) - hypAll m.retry
      rw [hmv.bal, if_neg hu.ne_warp.symm, if_pos rfl, hmv.collateral, hmv.warpOut, hmv.retry]
      have := g.sent s.collateral s.warpOut t d r col amt (by rw [hcol]; exact le_refl _) h0.le
      have := hs.room
      omega
  | warpReceive t a x => exact absurd rfl (hn t a x)
  | _ => exact absurd rfl ho

end Dollar
