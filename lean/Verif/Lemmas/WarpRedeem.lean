import Verif.Lemmas.RouteKeys
import Verif.Lemmas.HypLedger
import Verif.Spec.Warp

/-
The collateral recorded for a warp token against what was dispatched through it.
-/
namespace Dollar
open MM

/-- The collateral of token `t` exceeds what was dispatched through it by at least `k`. -/
structure Slack (t : Nat) (k : Int) (rec : KV (Int × String) String) (s : State) : Prop where
  recips : s.recipients = rec
  slack : k ≤ (s.collateral.get? t).getD 0 - warpSum t s.warpOut

namespace Slack
variable {t : Nat} {k : Int} {rec : KV (Int × String) String} (c : Cfg) (env : Env)

theorem congr {s s' : State} (h : Slack t k rec s) (e1 : s'.recipients = s.recipients := by rfl)
    (e2 : s'.collateral = s.collateral := by rfl) (e3 : s'.warpOut = s.warpOut := by rfl) : Slack t k rec s' :=
  ⟨e1.trans h.recips, by rw [e2, e3]; exact h.slack⟩

theorem of_route {s s' : State} (h : Slack t k rec s) (e1 : s'.recipients = s.recipients) (e2 : routeF s' = routeF s) :
    Slack t k rec s' :=
  h.congr e1 (congrArg (fun x => x.2.2.1) e2 :) (congrArg (fun x => x.2.2.2.2.2.2) e2 :)

theorem of_leaves {α : Type} {x : M α} (h1 : Leaves still x) (h2 : Leaves routeF x) : Keeps (Slack t k rec) x := by
  refine ⟨fun s => ?_⟩
  have a := (h1 (still s)).steps s
  have b := (h2 (routeF s)).steps s
  cases hx : x s with
  | ok v s' =>
    rw [hx] at a b
    have a : still s' = still s := a rfl
    exact fun h => h.of_route (congrArg (fun x => x.1.recipients) a :) (b rfl)
  | err e s' =>
    rw [hx] at a b
    have a : still s' = still s := a rfl
    exact fun h => h.of_route (congrArg (fun x => x.1.recipients) a :) (b rfl)
  | panic => trivial

theorem emit (e : Event) : Keeps (Slack t k rec) (emit e) := of_leaves (Still.emit e) (RouteF.emit e)
theorem sendCoins (a b : Addr) (v : Int) : Keeps (Slack t k rec) (sendCoins c a b v) :=
  of_leaves (Still.sendCoins c a b v) (RouteF.sendCoins c a b v)
theorem claimModuleYield (a : Addr) : Keeps (Slack t k rec) (claimModuleYield c a) :=
  of_leaves (Still.claimModuleYield c a) (RouteF.claimModuleYield c a)
theorem mintCoins (v : Int) : Keeps (Slack t k rec) (mintCoins c v) :=
  of_leaves (Still.mintCoins c v) ((Other.mintCoins c v).mono fun _ _ h => congrArg Prod.snd h)
theorem sendModuleToAccount (a b : Addr) (v : Int) : Keeps (Slack t k rec) (sendModuleToAccount c a b v) :=
  of_leaves (Still.sendModuleToAccount c a b v) ((Other.sendModuleToAccount c a b v).mono fun _ _ h => congrArg Prod.snd h)

theorem takeRetry (p : Int) (id : String) : Keeps (Slack t k rec) (takeRetry p id) := by
  unfold Dollar.takeRetry
  keeps
  exact Keeps.modify fun s h => h.congr

theorem retryOnError (p : Int) (id : String) (e : Option Err) (a : Int) :
    Keeps (Slack t k rec) (retryOnError e p id a) := by
  unfold Dollar.retryOnError
  split
  · exact Keeps.pure _
  · exact Keeps.modify fun s h => h.congr

theorem incrementExtYield (p : Int) (id : String) (a : Int) :
    Keeps (Slack t k rec) (incrementExtYield p id a) := Keeps.modify fun s h => h.congr

theorem ibcTransfer (ch : String) (a : Addr) (r : String) (v : Int) :
    Keeps (Slack t k rec) (ibcTransfer c env ch a r v) := by
  unfold Dollar.ibcTransfer ics4Check
  keeps <;> first | exact sendCoins _ _ _ _ | exact Keeps.modify fun s h => h.congr

theorem ibcLoop (r : KV String String) (l : List String) : Keeps (Slack t k rec) (ibcLoop c env r l) := by
  induction l with
  | nil => exact Keeps.pure _
  | cons e l ih =>
    unfold Dollar.ibcLoop ibcOne
    refine Keeps.bind ?_ fun _ => ih
    keeps <;> first
      | exact claimModuleYield _ _ | exact takeRetry _ _ | exact ibcTransfer _ _ _ _ _ _
      | exact retryOnError _ _ _ _ | exact incrementExtYield _ _ _

end Slack

/-- The routes still to be served have different tokens, with the collateral that was read for them. -/
structure Apt (l : List Route) (s : State) : Prop where
  diff : l.Pairwise fun r r' => r.tokenId ≠ r'.tokenId
  read : ∀ r ∈ l, (s.collateral.get? r.tokenId).getD 0 = r.collateral

theorem Apt.tail {r : Route} {l : List Route} {s : State} (h : Apt (r :: l) s) : Apt l s :=
  ⟨(List.pairwise_cons.1 h.diff).2, fun x hx => h.read x (List.mem_cons_of_mem _ hx)⟩

theorem Apt.congr {l : List Route} {s s' : State} (h : Apt l s) (e : s'.collateral = s.collateral) : Apt l s' :=
  ⟨h.diff, e ▸ h.read⟩

theorem Apt.set {r : Route} {l : List Route} {s s' : State} (h : Apt (r :: l) s) {v : Int}
    (e : s'.collateral = s.collateral.set r.tokenId v) : Apt l s' := by
  refine ⟨h.tail.diff, fun x hx => ?_⟩
  rw [e, KV.get?_set, if_neg]
  · exact h.tail.read x hx
  · exact fun e => (List.pairwise_cons.1 h.diff).1 x hx e.symm

namespace Slack
variable {t : Nat} {k : Int} {rec : KV (Int × String) String} {c : Cfg} {env : Env}

theorem set {s s' : State} (h : Slack t k rec s) {r : Route} (hr : (s.collateral.get? r.tokenId).getD 0 = r.collateral)
    {v : Int} {out : List WarpOut} (h1 : s'.recipients = s.recipients)
    (h2 : s'.collateral = s.collateral.set r.tokenId (r.collateral + v)) (h3 : s'.warpOut = s.warpOut ++ out)
    (h4 : warpSum t out ≤ if r.tokenId = t then v else 0) : Slack t k rec s' := by
  refine ⟨h1.trans h.recips, ?_⟩
  have := h.slack
  rw [h2, h3, KV.get?_set, warpSum_append]
  by_cases e : r.tokenId = t
  · rw [if_pos e] at h4
    rw [if_pos e.symm, Option.getD_some, ← hr, e]
    omega
  · rw [if_neg e] at h4
    rw [if_neg (fun x => e x.symm)]
    omega

theorem warpTransfer_wp {s : State} {r : Route} {l : List Route} (d : Nat) (bz : Bytes) {v : Int} (hv : 0 ≤ v)
    (hf : Apt (r :: l) s) (hs : Slack t k rec s) :
    wp (warpTransfer c env r d bz v) s (fun _ s' => Apt l s' ∧ Slack t k rec s')
      (fun _ s' => Apt l s' ∧ Slack t k rec s') := by
  have hr := hf.read r List.mem_cons_self
  have hsend : wp (Dollar.sendCoins c c.warpAddr c.warpAddr v) s
      (fun _ s' => still s' = still s ∧ routeF s' = routeF s) (fun _ s' => still s' = still s ∧ routeF s' = routeF s) := by
    have a := (Still.sendCoins c c.warpAddr c.warpAddr v (still s)).steps s
    have b := (RouteF.sendCoins c c.warpAddr c.warpAddr v (routeF s)).steps s
    unfold wp
    unfold Res.Ends at a b
    generalize Dollar.sendCoins c c.warpAddr c.warpAddr v s = q at *
    cases q with
    | ok _ s' => exact ⟨a rfl, b rfl⟩
    | err _ s' => exact ⟨a rfl, b rfl⟩
    | panic => trivial
  have hn : warpSum t [] ≤ if r.tokenId = t then v else 0 := by
    show 0 ≤ _; split <;> omega
  unfold Dollar.warpTransfer
  cases henv : env.warp r.tokenId with
  | failEarly => exact ⟨hf.tail, hs⟩
  | failLate =>
    refine wp.seq hsend ?_ (fun _ s' h => ?_)
    · rintro _ m ⟨h1, h2⟩
      have e1 : m.recipients = s.recipients := (congrArg (fun x => x.1.recipients) h1 :)
      have e2 : m.collateral = s.collateral := (congrArg (fun x => x.2.2.1) h2 :)
      have e3 : m.warpOut = s.warpOut := (congrArg (fun x => x.2.2.2.2.2.2) h2 :)
      simp only [wp.bind_iff, wp.modify_iff, wp.fail_iff]
      exact ⟨hf.set (by rw [← e2]), hs.set hr e1 (by rw [← e2]) (out := []) (by rw [List.append_nil]; exact e3) hn⟩
    · exact ⟨hf.tail.congr (congrArg (fun x => x.2.2.1) h.2 :), hs.of_route (congrArg (fun x => x.1.recipients) h.1 :) h.2⟩
  | success =>
    refine wp.seq hsend ?_ (fun _ s' h => ?_)
    · rintro _ m ⟨h1, h2⟩
      have e1 : m.recipients = s.recipients := (congrArg (fun x => x.1.recipients) h1 :)
      have e2 : m.collateral = s.collateral := (congrArg (fun x => x.2.2.1) h2 :)
      have e3 : m.warpOut = s.warpOut := (congrArg (fun x => x.2.2.2.2.2.2) h2 :)
      simp only [wp.bind_iff, wp.modify_iff]
      refine ⟨hf.set (by rw [← e2]), hs.set hr e1 (by rw [← e2]) (out := [⟨r.tokenId, d, bz, v⟩]) (by rw [← e3]) ?_⟩
      simp [warpSum]
    · exact ⟨hf.tail.congr (congrArg (fun x => x.2.2.1) h.2 :), hs.of_route (congrArg (fun x => x.1.recipients) h.1 :) h.2⟩

theorem hypOne_wp (rs : KV String String) (total y : Int) {s : State} {r : Route} {l : List Route}
    (hf : Apt (r :: l) s) (hs : Slack t k rec s) :
    wp (hypOne c env rs total y r) s (fun _ s' => Apt l s' ∧ Slack t k rec s') (fun _ s' => Slack t k rec s') := by
  unfold Dollar.hypOne
  simp only [wp.bind_iff]
  unfold wp
  simp only [takeRetry_eq]
  have h2 : Slack t k rec (retryTaken s HYPERLANE r.identifier) := by unfold retryTaken; split <;> exact hs.congr
  have hf2 : Apt (r :: l) (retryTaken s HYPERLANE r.identifier) := by unfold retryTaken; split <;> exact hf.congr rfl
  generalize s.retryOf HYPERLANE r.identifier = q at *
  generalize retryTaken s HYPERLANE r.identifier = s2 at h2 hf2
  generalize yieldPortion r.collateral total y = p at *
  by_cases hpos : 0 < p + q
  swap
  · simp only [hpos, if_false, pure_apply]
    exact ⟨hf2.tail, h2⟩
  simp only [hpos, if_true]
  have key : wp (do
      let domain ← hypRouter env r.tokenId
      match c.hexAddr ((rs.get? r.identifier).getD "") with
      | none => MM.fail .badHexRecipient
      | some recipient => do
        let e ← attempt (warpTransfer c env r domain recipient (p + q))
        Dollar.retryOnError e HYPERLANE r.identifier (p + q)
        Dollar.incrementExtYield HYPERLANE r.identifier p : M Unit) s2
      (fun _ s' => Apt l s' ∧ Slack t k rec s') (fun _ s' => Slack t k rec s') := by
    have hro : wp (hypRouter env r.tokenId) s2 (fun _ s' => s' = s2) (fun _ s' => s' = s2) := by
      unfold hypRouter
      split
      · rfl
      · rfl
    refine wp.seq hro ?_ (fun _ _ h => h ▸ h2)
    rintro d _ rfl
    split
    · exact h2
    · next bz _ =>
      rw [wp.bind_iff, wp.attempt_iff]
      refine (warpTransfer_wp d bz hpos.le hf2 h2).mono ?_ ?_
      · rintro _ s3 ⟨k1, k2⟩
        exact ⟨k1.congr rfl, k2.congr⟩
      · rintro e s3 ⟨k1, k2⟩
        exact ⟨k1.congr rfl, k2.congr⟩
  exact key

theorem hypLoop_wp (rs : KV String String) (total y : Int) (l : List Route) {s : State}
    (hf : Apt l s) (hs : Slack t k rec s) :
    wp (hypLoop c env rs total y l) s (fun _ s' => Slack t k rec s') (fun _ s' => Slack t k rec s') := by
  induction l generalizing s with
  | nil => exact hs
  | cons r l ih =>
    unfold Dollar.hypLoop
    refine wp.seq (hypOne_wp rs total y hf hs) ?_ (fun _ _ h => h)
    rintro _ s1 ⟨h1, h2⟩
    exact ih h1 h2

/-- No two Hyperlane identifiers with a recipient are written for the same token. -/
def OneEach (c : Cfg) (rec : KV (Int × String) String) : Prop :=
  ∀ i j r r' b b', ((HYPERLANE, i), r) ∈ rec → ((HYPERLANE, j), r') ∈ rec → c.hexAddr i = some b → c.hexAddr j = some b' →
    c.internalId b = c.internalId b' → i = j

theorem claimExternalHyperlane (hrec : rec.Sorted) (h1 : OneEach c rec) :
    Keeps (Slack t k rec) (claimExternalHyperlane c env) := by
  refine ⟨fun s => ?_⟩
  suffices h : Slack t k rec s → wp (Dollar.claimExternalHyperlane c env) s (fun _ s' => Slack t k rec s')
      (fun _ s' => Slack t k rec s') by
    unfold wp at h
    unfold Res.Ends
    generalize Dollar.claimExternalHyperlane c env s = r at *
    cases r with
    | ok _ _ => exact h
    | err _ _ => exact h
    | panic => trivial
  intro hs
  have hsr := hs.recips
  unfold Dollar.claimExternalHyperlane
  rw [wp.bind_iff, wp.get_iff]
  have hcl : wp (Dollar.claimModuleYield c c.warpAddr) s (fun _ s' => Slack t k rec s') (fun _ s' => Slack t k rec s') := by
    have a := (claimModuleYield (t := t) (k := k) (rec := rec) c c.warpAddr).steps s
    unfold wp
    unfold Res.Ends at a
    generalize Dollar.claimModuleYield c c.warpAddr s = q at *
    cases q with
    | ok _ s' => exact a hs
    | err _ s' => exact a hs
    | panic => trivial
  refine wp.seq hcl ?_ (fun _ _ h => h)
  intro y m hm
  refine wp.ite (fun hpos => ?_) (fun _ => hm)
  refine wp.seq (hypRoutes_wp c _ m) ?_ (fun _ _ h => h ▸ hm)
  rintro rs m' ⟨e, hid, h2⟩
  subst e
  refine wp.ite (fun ht => ?_) (fun _ => hm)
  refine hypLoop_wp _ _ _ rs ⟨?_, fun r hr => by rw [(h2 r hr).1]; rfl⟩ hm
  rw [sortedIds_eq env (hsr ▸ hrec)] at hid
  have hs2 : (recipientsBy s HYPERLANE).Sorted := recipientsBy_sorted (hsr ▸ hrec) _
  have hp : (rs.map Route.identifier).Pairwise fun a b => KeyOrd.klt a b := by
    rw [hid]; exact (KV.sorted_iff_keys _).1 hs2
  have hmem : ∀ r ∈ rs, ∃ x, ((HYPERLANE, r.identifier), x) ∈ rec := by
    intro r hr
    have : r.identifier ∈ (recipientsBy s HYPERLANE).map Prod.fst := hid ▸ List.mem_map_of_mem hr
    obtain ⟨⟨i, x⟩, hx, e⟩ := List.mem_map.1 this
    exact ⟨x, by rw [← hsr, ← e]; exact mem_recipientsBy.1 hx⟩
  rw [List.pairwise_map] at hp
  refine hp.imp_of_mem ?_
  intro a b ha hb hlt e
  obtain ⟨x, hx⟩ := hmem a ha
  obtain ⟨x', hx'⟩ := hmem b hb
  obtain ⟨_, ra, hra, ea⟩ := h2 a ha
  obtain ⟨_, rb, hrb, eb⟩ := h2 b hb
  have := h1 _ _ _ _ _ _ hx hx' hra hrb (by rw [← ea, ← eb, e])
  rw [this] at hlt
  simp [KeyOrd.klt] at hlt

theorem updateIndex (hrec : rec.Sorted) (h1 : OneEach c rec) (i : Int) : Keeps (Slack t k rec) (updateIndex c env i) := by
  have h5 := claimExternalHyperlane (t := t) (k := k) (env := env) hrec h1
  unfold Dollar.updateIndex accrueYield incrementTotalYield handleVaults handleSeasonOne handleSeasonTwo
    claimStakedVaultYield addPrincipal claimExternalIBC
  keeps <;> first
    | exact emit _ | exact sendCoins _ _ _ _ | exact claimModuleYield _ _ | exact ibcLoop _ _ _ _
    | exact mintCoins _ _ | exact sendModuleToAccount _ _ _ _ | exact Keeps.modify fun _ h => h.congr

theorem deliver (hrec : rec.Sorted) (h1 : OneEach c rec) (vaa : Bytes) :
    Keeps (Slack t k rec) (exec c env (.deliver vaa)) := by
  have hu := updateIndex (t := t) (k := k) (env := env) hrec h1
  have hp : ∀ p ev, Keeps (Slack t k rec) (handlePayload c env p ev) := fun p ev => by
    unfold Dollar.handlePayload handleToken handleIndex mint
    keeps <;> first
      | exact emit _ | exact hu _ | exact mintCoins _ _
      | exact sendModuleToAccount _ _ _ _
  show Keeps _ (do deliverInner c env vaa; Dollar.emit (.delivered vaa))
  unfold deliverInner verifyVAA deliverPayload
  keeps <;> first | exact hp _ _ | exact emit _ | exact Keeps.modify fun _ h => h.congr

end Slack

/-- One message lowers what the collateral of token `t` has beyond the dispatched amount by what comes
back through it, at most. -/
theorem exec_slack {c : Cfg} {env : Env} {m : Msg} {s s' : State} (hrec : s.recipients.Sorted)
    (h1 : Slack.OneEach c s.recipients) (h : exec c env m s = .ok () s') (t : Nat) :
    (s.collateral.get? t).getD 0 - warpSum t s.warpOut - Spec.warpBackOn t m ≤
    (s'.collateral.get? t).getD 0 - warpSum t s'.warpOut := by
  by_cases ho : m.noOther = true
  · have e := (Other.msg c env m ho).ok h
    have e2 : s'.collateral = s.collateral := (congrArg (fun x => x.2.2.2.1) e :)
    have e3 : s'.warpOut = s.warpOut := (congrArg (fun x => x.2.2.2.2.2.2.2) e :)
    rw [e2, e3]
    cases m with
    | warpReceive => exact Bool.noConfusion ho
    | _ => exact le_of_eq (sub_zero _)
  have same : ∀ {s' : State}, s'.collateral = s.collateral → s'.warpOut = s.warpOut →
      (s.collateral.get? t).getD 0 - warpSum t s.warpOut - 0 ≤ (s'.collateral.get? t).getD 0 - warpSum t s'.warpOut := by
    intro s' e2 e3
    rw [e2, e3, sub_zero]
  have failed : ∀ {p : IbcOut} {b : Bool}, packetFailed c p b s = .ok () s' →
      s'.collateral = s.collateral ∧ s'.warpOut = s.warpOut := by
    intro p b hp
    obtain ⟨_, _, m, hmv, rfl⟩ := packetFailed_ok hp
    constructor
    · show m.collateral = _
      rw [hmv.collateral]; split <;> rfl
    · show m.warpOut = _
      rw [hmv.warpOut]; split <;> rfl
  cases m with
  | lock signer v amt? =>
    have e := (RouteF.lock c env signer v amt?).ok (show lock c env signer v amt? s = .ok () s' from h)
    exact same (congrArg (fun x => x.2.2.1) e :) (congrArg (fun x => x.2.2.2.2.2.2) e :)
  | unlock signer v amt? =>
    have e := (RouteF.unlock c signer v amt?).ok (show unlock c signer v amt? s = .ok () s' from h)
    exact same (congrArg (fun x => x.2.2.1) e :) (congrArg (fun x => x.2.2.2.2.2.2) e :)
  | deliver vaa =>
    exact ((Slack.deliver (t := t) hrec h1 vaa).ok h ⟨rfl, le_of_eq (sub_zero _)⟩).slack
  | ibcTransfer a ch r amt =>
    obtain ⟨h0, hy, m, hmv, rfl⟩ := userIbcTransfer_ok (show userIbcTransfer c env a ch r amt s = .ok () s' from h)
    exact same hmv.collateral hmv.warpOut
  | ibcReceive ch r amt =>
    obtain ⟨h0, h1, _, m, hmv, rfl⟩ := ibcReceive_ok (show ibcReceive c ch r amt s = .ok () s' from h)
    exact same hmv.collateral hmv.warpOut
  | ibcTimeout p => exact same (failed h).1 (failed h).2
  | ibcAckError p => exact same (failed h).1 (failed h).2
  | ibcAckSuccess p =>
    obtain ⟨_, rfl⟩ := packetAcked_ok (show packetAcked c p s = .ok () s' from h)
    exact same rfl rfl
  | warpCreate t' =>
    have h : warpCreate t' s = .ok () s' := h
    unfold warpCreate at h
    have h := modify_ok.1 h
    subst h
    show _ - 0 ≤ _
    split
    · exact same rfl rfl
    · next hh =>
      have hg : s.collateral.get? t' = none := by
        unfold KV.has at hh
        cases e : s.collateral.get? t' with
        | none => rfl
        | some v => rw [e] at hh; exact absurd rfl hh
      show _ ≤ ((s.collateral.set t' 0).get? t).getD 0 - warpSum t s.warpOut
      rw [KV.get?_set]
      split
      · next e => rw [e, hg, sub_zero]; exact le_refl _
      · exact le_of_eq (sub_zero _)
  | warpTransfer a t' d r amt =>
    obtain ⟨h0, col, m, hcol, hmv, rfl⟩ := warpSend_ok (show warpSend c t' d a r amt s = .ok () s' from h)
    show _ - 0 ≤ ((m.collateral.set t' (col + amt)).get? t).getD 0 - warpSum t (m.warpOut ++ [⟨t', d, r, amt⟩])
    rw [KV.get?_set, hmv.collateral, hmv.warpOut, warpSum_append]
    by_cases e : t = t'
    · subst e
      rw [if_pos rfl, hcol]
      simp only [Option.getD_some, warpSum, List.map_cons, List.map_nil, List.sum_cons, List.sum_nil, if_true]
      omega
    · rw [if_neg e]
      have ne : ¬ t' = t := fun x => e x.symm
      have : warpSum t [⟨t', d, r, amt⟩] = 0 := by simp [warpSum, ne]
      rw [this]
      omega
  | warpReceive t' a x =>
    obtain ⟨_, _, col, hcol, _, hv⟩ := warpReceive_ok (show warpReceive c t' a x s = .ok () s' from h)
    rw [hv.collateral, hv.warpOut]
    show _ ≤ ((s.collateral.set t' (col - x)).get? t).getD 0 - warpSum t s.warpOut
    rw [KV.get?_set]
    by_cases e : t = t'
    · subst e
      simp only [Spec.warpBackOn, hcol, if_true, Option.getD_some]
      omega
    · rw [if_neg e]
      simp only [Spec.warpBackOn, if_neg (fun x => e (Eq.symm x))]
      omega
  | _ => exact absurd rfl ho

end Dollar
