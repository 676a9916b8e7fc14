import Verif.Lemmas.Kept
import Verif.Lemmas.Local
import Verif.Lemmas.ExtIbc

/-
The books of IBC yield: what was claimed is sent or kept for retry.
-/
set_option linter.unnecessarySeqFocus false
namespace Dollar
open MM

/-- Total of the packets a channel's escrow account sent over the channel. -/
def ownSent (c : Cfg) (l : List IbcOut) (ch : String) : Int :=
  (l.map fun p => if p.channel = ch ∧ p.sender = c.escrow "transfer" ch then p.amount else 0).sum

theorem ownSent_append (c : Cfg) (l l' : List IbcOut) (ch : String) :
    ownSent c (l ++ l') ch = ownSent c l ch + ownSent c l' ch := by
  unfold ownSent; rw [List.map_append, List.sum_append]

/-- The books of a channel are off by `q`. -/
structure Books (c : Cfg) (ch : String) (q : Int) (s : State) : Prop where
  eq : s.extYieldOf IBC ch = q + ownSent c s.ibcOut ch + s.retryOf IBC ch
  nonneg : 0 ≤ s.retryOf IBC ch

namespace Books
variable {c : Cfg} {ch : String} {q : Int} {s s' : State}

theorem of_eq (h : Books c ch q s) (h1 : s'.extYieldOf IBC ch = s.extYieldOf IBC ch)
    (h2 : s'.ibcOut = s.ibcOut) (h3 : s'.retryOf IBC ch = s.retryOf IBC ch) : Books c ch q s' :=
  ⟨by rw [h1, h2, h3]; exact h.eq, h3 ▸ h.nonneg⟩

theorem congr (h : Books c ch q s) (e : routeF s' = routeF s) : Books c ch q s' := by
  simp only [routeF, Prod.mk.injEq] at e
  obtain ⟨e1, e2, _, e3, _⟩ := e
  exact h.of_eq (by unfold State.extYieldOf; rw [e1]) e3 (by unfold State.retryOf; rw [e2])

theorem leaves {α : Type} {x : M α} (h : Leaves routeF x) : Keeps (Books c ch q) x := by
  refine ⟨fun s => ?_⟩
  have := (h (routeF s)).steps s
  unfold Res.Ends at this ⊢
  generalize x s = r at *
  cases r with
  | ok _ s' => exact fun hs => hs.congr (this rfl)
  | err _ s' => exact fun hs => hs.congr (this rfl)
  | panic => trivial

theorem modify {f : State → State} (h : ∀ s, routeF (f s) = routeF s := by intro _; rfl) :
    Keeps (Books c ch q) (MM.modify f) := Keeps.modify fun s hs => hs.congr (h s)

/-- Another provider's stores do not matter. -/
theorem takeRetry_other (id : String) : Keeps (Books c ch q) (takeRetry HYPERLANE id) := by
  unfold Dollar.takeRetry
  keeps
  refine Keeps.modify fun s hs => hs.of_eq rfl rfl ?_
  show ((s.retry.erase (HYPERLANE, id)).get? (IBC, ch)).getD 0 = _
  rw [KV.get?_erase, if_neg (by simp [HYPERLANE, IBC])]
  rfl

theorem retryOnError_other (e : Option Err) (id : String) (v : Int) :
    Keeps (Books c ch q) (retryOnError e HYPERLANE id v) := by
  unfold Dollar.retryOnError incrementRetry
  keeps
  refine Keeps.modify fun s hs => hs.of_eq rfl rfl ?_
  show (retryAdded s HYPERLANE id v).retryOf IBC ch = _
  rw [retryAdded_retryOf, if_neg (by simp [HYPERLANE, IBC]), add_zero]

theorem incrementExtYield_other (id : String) (v : Int) :
    Keeps (Books c ch q) (incrementExtYield HYPERLANE id v) := by
  unfold incrementExtYield
  refine Keeps.modify fun s hs => hs.of_eq ?_ rfl rfl
  show (extAdded s HYPERLANE id v).extYieldOf IBC ch = _
  rw [extAdded_extYieldOf, if_neg (by simp [HYPERLANE, IBC]), add_zero]

theorem warpTransfer (env : Env) (r : Route) (d : Nat) (bz : Bytes) (v : Int) :
    Keeps (Books c ch q) (warpTransfer c env r d bz v) := by
  have := leaves (c := c) (ch := ch) (q := q) (RouteF.sendCoins c c.warpAddr c.warpAddr v)
  unfold Dollar.warpTransfer
  keeps <;> exact Keeps.modify fun s hs => hs.of_eq rfl rfl rfl

theorem hypOne (env : Env) (rs : KV String String) (t y : Int) (r : Route) :
    Keeps (Books c ch q) (hypOne c env rs t y r) := by
  unfold Dollar.hypOne
  keeps <;> first
    | exact takeRetry_other _ | exact retryOnError_other _ _ _ | exact incrementExtYield_other _ _
    | exact warpTransfer _ _ _ _ _

theorem hypLoop (env : Env) (rs : KV String String) (t y : Int) (l : List Route) :
    Keeps (Books c ch q) (hypLoop c env rs t y l) := by
  induction l with
  | nil => exact Keeps.pure _
  | cons e t ih =>
    unfold Dollar.hypLoop
    exact Keeps.bind (hypOne env _ _ _ _) fun _ => ih

theorem ibcOne (hc : c.WF) (env : Env) (rs : KV String String) (id : String) :
    Keeps (Books c ch q) (ibcOne c env rs id) := by
  refine ⟨fun s => ?_⟩
  have key : wp (Dollar.ibcOne c env rs id) s (fun _ s' => Books c ch q s → Books c ch q s')
      (fun _ s' => Books c ch q s → Books c ch q s') := by
    unfold Dollar.ibcOne
    refine wp.seq (claimModuleYield_wp c _ s) ?_ (fun _ _ h => by rw [h]; exact fun h => h)
    rintro y s1 ⟨hyy, hm1⟩
    have hy0 : 0 ≤ y := hyy ▸ claimable_nonneg s _
    have hX1 : s1.extYieldOf IBC ch = s.extYieldOf IBC ch := by unfold State.extYieldOf; rw [hm1.extYield]
    have hR1 : s1.retryOf IBC ch = s.retryOf IBC ch := hm1.retryOf _ _
    have hO1 : s1.ibcOut = s.ibcOut := hm1.ibcOut
    have hX2 : (retryTaken s1 IBC id).extYieldOf IBC ch = s.extYieldOf IBC ch := by
      rw [← hX1]; unfold State.extYieldOf; rw [(retryTaken_fields s1 IBC id).2.2.2]
    have hO2 : (retryTaken s1 IBC id).ibcOut = s.ibcOut := by rw [retryTaken_ibcOut, hO1]
    have hR2 : Books c ch q s → (retryTaken s1 IBC id).retryOf IBC ch =
        s.retryOf IBC ch - (if ch = id then s1.retryOf IBC id else 0) := by
      intro hB
      by_cases e : ch = id
      · subst e
        rw [retryTaken_retryOf s1 IBC ch (by rw [hR1]; exact hB.nonneg), if_pos rfl, if_pos rfl]
        omega
      · rw [if_neg e, sub_zero, ← hR1]
        unfold retryTaken
        split
        · show ((s1.retry.erase (IBC, id)).get? (IBC, ch)).getD 0 = _
          rw [KV.get?_erase, if_neg (by simpa using e)]
          rfl
        · rfl
    generalize hr : s1.retryOf IBC id = r at hR2
    generalize hs2 : retryTaken s1 IBC id = s2 at hX2 hO2 hR2
    simp only [wp.bind_iff]
    unfold wp
    simp only [takeRetry_eq, hs2, hr]
    by_cases hpos : 0 < y + r
    swap
    · simp only [hpos, if_false, pure_apply]
      intro hB
      have h2 := hR2 hB
      have h3 := hB.nonneg
      refine hB.of_eq hX2 hO2 ?_
      rw [h2]
      split
      · next e => subst e; omega
      · omega
    · simp only [hpos, if_true]
      have ht := ibcTransfer_wp hc env id (c.escrowAddr id) ((rs.get? id).getD "") (y + r) s2
      unfold wp at ht
      rw [bind_apply, attempt_apply]
      generalize Dollar.ibcTransfer c env id (c.escrowAddr id) ((rs.get? id).getD "") (y + r) s2 = res at ht ⊢
      have fin : ∀ s4 : State, s4.extYieldOf IBC ch = s.extYieldOf IBC ch →
          ownSent c s4.ibcOut ch + s4.retryOf IBC ch = ownSent c s.ibcOut ch + s.retryOf IBC ch +
            (if ch = id then y else 0) → (0 ≤ s.retryOf IBC ch → 0 ≤ s4.retryOf IBC ch) →
          Books c ch q s → Books c ch q (extAdded s4 IBC id y) := by
        intro s4 e1 e2 e3 hB
        refine ⟨?_, e3 hB.nonneg⟩
        rw [extAdded_extYieldOf, e1]
        show _ = q + ownSent c s4.ibcOut ch + s4.retryOf IBC ch
        have := hB.eq
        simp only [Prod.mk.injEq, true_and]
        omega
      cases res with
      | ok u s3 =>
        obtain ⟨_, _, m, hm, rfl⟩ := ht
        show Books c ch q s → Books c ch q (extAdded (booked m _) IBC id y)
        intro hB
        have h2 := hR2 hB
        have h3 := hB.nonneg
        have hx : m.extYieldOf IBC ch = s.extYieldOf IBC ch := by
          rw [← hX2]; unfold State.extYieldOf; rw [hm.extYield]
        have hrr : m.retryOf IBC ch = s2.retryOf IBC ch := hm.retryOf _ _
        have ho : m.ibcOut = s.ibcOut := hm.ibcOut.trans hO2
        have h0 : 0 ≤ m.retryOf IBC ch := by
          rw [hrr, h2]
          split
          · next e => subst e; omega
          · omega
        refine fin _ hx ?_ (fun _ => h0) hB
        show ownSent c (m.ibcOut ++ [_]) ch + m.retryOf IBC ch = _
        rw [ownSent_append, ho, hrr, h2]
        show ownSent c s.ibcOut ch +
          ((if id = ch ∧ c.escrow "transfer" id = c.escrow "transfer" ch then y + r else 0) + 0) + _ = _
        by_cases e : ch = id
        · subst e; simp only [and_self, if_true]; omega
        · rw [if_neg (fun k => e k.1.symm), if_neg e, if_neg e]; omega
      | err e s3 =>
        show Books c ch q s → Books c ch q (extAdded (retryAdded s3 IBC id (y + r)) IBC id y)
        intro hB
        have h2 := hR2 hB
        have h3 := hB.nonneg
        have k : s3.extYieldOf IBC ch = s.extYieldOf IBC ch ∧ s3.retryOf IBC ch = s2.retryOf IBC ch ∧
            s3.ibcOut = s.ibcOut := by
          rcases ht with rfl | hm
          · exact ⟨hX2, rfl, hO2⟩
          · exact ⟨by rw [← hX2]; unfold State.extYieldOf; rw [hm.extYield], hm.retryOf _ _,
              hm.ibcOut.trans hO2⟩
        have hadd := retryAdded_retryOf s3 IBC id (y + r) IBC ch
        simp only [Prod.mk.injEq, true_and] at hadd
        have h0 : (retryAdded s3 IBC id (y + r)).retryOf IBC ch =
            s.retryOf IBC ch + (if ch = id then y else 0) := by
          rw [hadd, k.2.1, h2]
          split <;> omega
        refine fin _ k.1 ?_ (fun _ => ?_) hB
        · rw [h0]
          show ownSent c s3.ibcOut ch + _ = _
          rw [k.2.2]; omega
        · rw [h0]; split <;> omega
      | panic => trivial
  unfold Res.Ends
  unfold wp at key
  exact key

theorem ibcLoop (hc : c.WF) (env : Env) (r : KV String String) (l : List String) :
    Keeps (Books c ch q) (ibcLoop c env r l) := by
  induction l with
  | nil => exact Keeps.pure _
  | cons e t ih =>
    unfold Dollar.ibcLoop
    exact Keeps.bind (ibcOne hc env _ _) fun _ => ih

theorem hypRoutes (l : List String) : Keeps (Books c ch q) (hypRoutes c l) := by
  induction l with
  | nil => exact Keeps.pure _
  | cons e t ih => unfold Dollar.hypRoutes; keeps

theorem mintCoins (v : Int) : Keeps (Books c ch q) (mintCoins c v) := leaves <|
  (Other.mintCoins c v).mono fun _ _ h => congrArg Prod.snd h

theorem sendModuleToAccount (a b : Addr) (v : Int) : Keeps (Books c ch q) (sendModuleToAccount c a b v) :=
  leaves <| (Other.sendModuleToAccount c a b v).mono fun _ _ h => congrArg Prod.snd h

theorem sendCoins (a b : Addr) (v : Int) : Keeps (Books c ch q) (sendCoins c a b v) :=
  leaves (RouteF.sendCoins c a b v)

theorem claimModuleYield (a : Addr) : Keeps (Books c ch q) (claimModuleYield c a) :=
  leaves (RouteF.claimModuleYield c a)

theorem updateIndex (hc : c.WF) (env : Env) (i : Int) : Keeps (Books c ch q) (updateIndex c env i) := by
  unfold Dollar.updateIndex accrueYield handleVaults handleSeasonOne handleSeasonTwo
    claimStakedVaultYield claimExternalIBC claimExternalHyperlane incrementTotalYield addPrincipal
  keeps <;> first
    | exact mintCoins _ | exact sendCoins _ _ _ | exact claimModuleYield _ | exact modify
    | exact leaves (RouteF.emit _)
    | exact sendModuleToAccount _ _ _ | exact ibcLoop hc _ _ _ | exact hypRoutes _
    | exact hypLoop _ _ _ _ _

theorem handlePayload (hc : c.WF) (env : Env) (p : Sl) (ev : EventsPayload) :
    Keeps (Books c ch q) (handlePayload c env p ev) := by
  unfold Dollar.handlePayload handleToken handleIndex mint
  keeps <;> first
    | exact leaves (RouteF.emit _) | exact updateIndex hc _ _ | exact mintCoins _
    | exact sendModuleToAccount _ _ _

theorem deliver (hc : c.WF) (env : Env) (vaa : Bytes) :
    Keeps (Books c ch q) (exec c env (.deliver vaa)) := by
  show Keeps _ (do deliverInner c env vaa; Dollar.emit (.delivered vaa))
  unfold deliverInner verifyVAA deliverPayload
  keeps <;> first | exact handlePayload hc _ _ _ | exact leaves (RouteF.emit _) | exact modify

end Books
end Dollar
