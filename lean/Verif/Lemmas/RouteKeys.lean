import Verif.Lemmas.Settings
import Verif.Lemmas.Local
import Verif.Lemmas.Sort
import Verif.Lemmas.Ledger

/-
The keys of the stores of external routes come from the registered yield recipients.
-/
namespace Dollar
open MM

/-- Like `Keeps.bind`, knowing what the first computation returned. -/
theorem Keeps.bind' {P : State → Prop} {α β : Type} {x : M α} {f : α → M β} (hx : Keeps P x)
    (hf : ∀ s s' a, P s → x s = .ok a s' → Keeps P (f a)) : Keeps P (x >>= f) := by
  refine ⟨fun s => ?_⟩
  have h := hx.steps s
  rw [MM.bind_apply]
  cases hxs : x s with
  | ok a s' =>
    rw [hxs] at h
    simp only
    cases hfs : f a s' with
    | ok b s'' =>
      intro hp
      have h2 := (hf s s' a hp hxs).steps s'
      rw [hfs] at h2
      exact h2 (h hp)
    | err e s'' =>
      intro hp
      have h2 := (hf s s' a hp hxs).steps s'
      rw [hfs] at h2
      exact h2 (h hp)
    | panic => trivial
  | err e s' => rw [hxs] at h; exact h
  | panic => trivial

/-- Every route in the stores satisfies `K`. -/
structure Keyed (K : Int × String → Prop) (s : State) : Prop where
  recips : ∀ e ∈ s.recipients, K e.1
  ext : ∀ e ∈ s.extYield, K e.1
  retry : ∀ e ∈ s.retry, K e.1
  infl : ∀ p ∈ s.inflight, K (IBC, p.channel)

namespace Keyed
variable {K : Int × String → Prop} (c : Cfg) (env : Env)

theorem congr {s s' : State} (h : Keyed K s) (e1 : s'.recipients = s.recipients := by rfl)
    (e2 : s'.extYield = s.extYield := by rfl) (e3 : s'.retry = s.retry := by rfl)
    (e4 : s'.inflight = s.inflight := by rfl) : Keyed K s' :=
  ⟨e1 ▸ h.recips, e2 ▸ h.ext, e3 ▸ h.retry, e4 ▸ h.infl⟩

theorem of_route {s s' : State} (h : Keyed K s) (e1 : s'.recipients = s.recipients) (e2 : routeF s' = routeF s) :
    Keyed K s' :=
  h.congr e1 (congrArg (fun x => x.1) e2 :) (congrArg (fun x => x.2.1) e2 :) (congrArg (fun x => x.2.2.2.2.1) e2 :)

theorem of_leaves {α : Type} {x : M α} (h1 : Leaves still x) (h2 : Leaves routeF x) : Keeps (Keyed K) x := by
  refine ⟨fun s => ?_⟩
  have a := (h1 (still s)).steps s
  have b := (h2 (routeF s)).steps s
  cases hx : x s with
  | ok v s' =>
    rw [hx] at a b
    have a : still s' = still s := a rfl
    exact fun h => h.of_route (congrArg (fun x => x.1.recipients) a :) (b rfl)
  | err e s' =>
    rw [hx] at a b
    have a : still s' = still s := a rfl
    exact fun h => h.of_route (congrArg (fun x => x.1.recipients) a :) (b rfl)
  | panic => trivial

theorem emit (e : Event) : Keeps (Keyed K) (emit e) := of_leaves (Still.emit e) (RouteF.emit e)
theorem sendCoins (a b : Addr) (v : Int) : Keeps (Keyed K) (sendCoins c a b v) :=
  of_leaves (Still.sendCoins c a b v) (RouteF.sendCoins c a b v)
theorem claimModuleYield (a : Addr) : Keeps (Keyed K) (claimModuleYield c a) :=
  of_leaves (Still.claimModuleYield c a) (RouteF.claimModuleYield c a)
theorem mintCoins (v : Int) : Keeps (Keyed K) (mintCoins c v) :=
  of_leaves (Still.mintCoins c v) ((Other.mintCoins c v).mono fun _ _ h => congrArg Prod.snd h)
theorem sendModuleToAccount (a b : Addr) (v : Int) : Keeps (Keyed K) (sendModuleToAccount c a b v) :=
  of_leaves (Still.sendModuleToAccount c a b v) ((Other.sendModuleToAccount c a b v).mono fun _ _ h => congrArg Prod.snd h)

theorem takeRetry (p : Int) (id : String) : Keeps (Keyed K) (takeRetry p id) := by
  unfold Dollar.takeRetry
  keeps
  exact Keeps.modify fun s h => { h with retry := fun e he => h.retry e (KV.mem_erase.1 he).1 }

theorem incrementRetry {p : Int} {id : String} (hk : K (p, id)) (a : Int) : Keeps (Keyed K) (incrementRetry p id a) :=
  Keeps.modify fun s h => ⟨h.recips, h.ext, fun e he => (KV.mem_set he).elim (fun e1 => e1 ▸ hk) (h.retry e), h.infl⟩

theorem incrementExtYield {p : Int} {id : String} (hk : K (p, id)) (a : Int) :
    Keeps (Keyed K) (incrementExtYield p id a) :=
  Keeps.modify fun s h => ⟨h.recips, fun e he => (KV.mem_set he).elim (fun e1 => e1 ▸ hk) (h.ext e), h.retry, h.infl⟩

theorem retryOnError {p : Int} {id : String} (hk : K (p, id)) (e : Option Err) (a : Int) :
    Keeps (Keyed K) (retryOnError e p id a) := by
  unfold Dollar.retryOnError
  split
  · exact Keeps.pure _
  · exact incrementRetry hk a

theorem bookPacket {p : IbcOut} (hk : K (IBC, p.channel)) : Keeps (Keyed K) (bookPacket p) :=
  Keeps.modify fun s h => ⟨h.recips, h.ext, h.retry, fun q hq =>
    (List.mem_append.1 hq).elim (h.infl q) fun e1 => List.mem_singleton.1 e1 ▸ hk⟩

theorem ibcTransfer {ch : String} (hk : K (IBC, ch)) (a : Addr) (r : String) (v : Int) :
    Keeps (Keyed K) (ibcTransfer c env ch a r v) := by
  unfold Dollar.ibcTransfer ics4Check
  keeps <;> first | exact sendCoins _ _ _ _ | exact bookPacket hk

theorem ibcLoop (r : KV String String) (l : List String) (hl : ∀ id ∈ l, K (IBC, id)) :
    Keeps (Keyed K) (ibcLoop c env r l) := by
  induction l with
  | nil => exact Keeps.pure _
  | cons e t ih =>
    have hk := hl e List.mem_cons_self
    unfold Dollar.ibcLoop ibcOne
    refine Keeps.bind ?_ fun _ => ih fun id h => hl id (List.mem_cons_of_mem _ h)
    keeps <;> first
      | exact claimModuleYield _ _ | exact takeRetry _ _ | exact ibcTransfer _ _ hk _ _ _
      | exact retryOnError hk _ _ | exact incrementExtYield hk _

theorem hypRoutes (l : List String) : Keeps (Keyed K) (hypRoutes c l) := by
  induction l with
  | nil => exact Keeps.pure _
  | cons e t ih => unfold Dollar.hypRoutes; keeps

theorem warpTransfer (r : Route) (d : Nat) (b : Bytes) (a : Int) : Keeps (Keyed K) (warpTransfer c env r d b a) := by
  unfold Dollar.warpTransfer
  keeps <;> first | exact sendCoins _ _ _ _ | exact Keeps.modify fun _ h => h.congr

theorem hypLoop (rs : KV String String) (t y : Int) (l : List Route) (hl : ∀ r ∈ l, K (HYPERLANE, r.identifier)) :
    Keeps (Keyed K) (hypLoop c env rs t y l) := by
  induction l with
  | nil => exact Keeps.pure _
  | cons e l ih =>
    have hk := hl e List.mem_cons_self
    unfold Dollar.hypLoop hypOne
    refine Keeps.bind ?_ fun _ => ih fun id h => hl id (List.mem_cons_of_mem _ h)
    keeps <;> first
      | exact takeRetry _ _ | exact warpTransfer _ _ _ _ _ _
      | exact retryOnError hk _ _ | exact incrementExtYield hk _

theorem ids {s : State} (h : Keyed K s) {p : Int} {id : String} (hid : id ∈ sortedIds env s p) : K (p, id) := by
  unfold sortedIds at hid
  rw [(sortStrings_perm _).mem_iff, (env.mapOrder_perm _).mem_iff, List.mem_map] at hid
  obtain ⟨⟨i, r⟩, hm, rfl⟩ := hid
  exact h.recips _ (mem_recipientsBy.1 hm)

theorem updateIndex (i : Int) : Keeps (Keyed K) (updateIndex c env i) := by
  unfold Dollar.updateIndex
  refine Keeps.bind Keeps.get fun s0 => Keeps.ite (Keeps.fail _) ?_
  refine Keeps.bind (Keeps.modify fun _ h => h.congr) fun _ => ?_
  refine Keeps.bind ?_ fun _ => Keeps.bind ?_ fun _ => Keeps.bind ?_ fun _ => Keeps.bind ?_ fun _ => emit _
  · unfold accrueYield incrementTotalYield
    keeps <;> first | exact mintCoins _ _ | exact sendCoins _ _ _ _ | exact Keeps.modify fun _ h => h.congr
  · unfold handleVaults handleSeasonOne handleSeasonTwo claimStakedVaultYield addPrincipal
    keeps <;> first
      | exact sendCoins _ _ _ _ | exact claimModuleYield _ _ | exact sendModuleToAccount _ _ _ _
      | exact Keeps.modify fun _ h => h.congr
  · unfold claimExternalIBC
    refine Keeps.bind' Keeps.get fun s s' a hs h => ?_
    obtain ⟨rfl, rfl⟩ := get_ok.1 h
    exact ibcLoop c env _ _ fun id hid => hs.ids env hid
  · unfold claimExternalHyperlane
    refine Keeps.bind' Keeps.get fun s s' a hs h => ?_
    obtain ⟨rfl, rfl⟩ := get_ok.1 h
    refine Keeps.bind (claimModuleYield _ _) fun y => Keeps.ite ?_ (Keeps.pure _)
    refine Keeps.bind' (hypRoutes _ _) fun s1 s2 rs _ hrs => Keeps.ite ?_ (Keeps.pure _)
    have := (hypRoutes_wp c (sortedIds env s HYPERLANE) s1).of_ok hrs
    refine hypLoop c env _ _ _ _ fun r hr => hs.ids env ?_
    rw [← this.2.1]
    exact List.mem_map_of_mem hr

theorem deliver (vaa : Bytes) : Keeps (Keyed K) (exec c env (.deliver vaa)) := by
  have hp : ∀ p ev, Keeps (Keyed K) (handlePayload c env p ev) := fun p ev => by
    unfold Dollar.handlePayload handleToken handleIndex mint
    keeps <;> first
      | exact emit _ | exact updateIndex _ _ _ | exact mintCoins _ _
      | exact sendModuleToAccount _ _ _ _
  show Keeps _ (do deliverInner c env vaa; Dollar.emit (.delivered vaa))
  unfold deliverInner verifyVAA deliverPayload
  keeps <;> first | exact hp _ _ | exact emit _ | exact Keeps.modify fun _ h => h.congr

end Keyed

/-- Every message keeps the routes of the stores within a set that contains those it registers. -/
theorem exec_keyed {K : Int × String → Prop} {c : Cfg} {env : Env} {msg : Msg} {s s' : State} (h : Keyed K s)
    (hk : ∀ signer p i r, msg = .setYieldRecipient signer p i r → K (p, i))
    (hx : exec c env msg s = .ok () s') : Keyed K s' := by
  have hrec : (∀ signer p i r, msg ≠ .setYieldRecipient signer p i r) → s'.recipients = s.recipients := fun hn => by
    cases settings_step hx with
    | same _ e => exact (congrArg Settings.recipients e :)
    | recipients p i r e => exact absurd rfl (hn _ _ _ _)
    | _ => next e => exact (congrArg Settings.recipients e :)
  have moved : ∀ {x y : Addr} {v : Int} {t t' : State}, Moved c t x y v t' → t.extYield = s.extYield →
      t.retry = s.retry → s'.extYield = t'.extYield → s'.retry = t'.retry → s'.recipients = s.recipients →
      (∀ p ∈ s'.inflight, K (IBC, p.channel)) → Keyed K s' := by
    intro x y v t t' hm e1 e2 e3 e4 e5 hi
    refine ⟨e5 ▸ h.recips, ?_, ?_, hi⟩
    · rw [e3.trans (hm.extYield.trans e1)]; exact h.ext
    · rw [e4.trans (hm.retry.trans e2)]; exact h.retry
  have packet : ∀ p b, packetFailed c p b s = .ok () s' → s'.recipients = s.recipients → Keyed K s' := by
    intro p b h1 e
    obtain ⟨hin, _, m, hmv, rfl⟩ := packetFailed_ok h1
    refine ⟨e ▸ h.recips, ?_, ?_, ?_⟩
    · show ∀ e ∈ m.extYield, _
      rw [hmv.extYield]
      split <;> exact h.ext
    · show ∀ e ∈ m.retry, _
      rw [hmv.retry]
      split
      · intro e he
        rcases KV.mem_set he with rfl | he
        · exact h.infl p hin
        · exact h.retry e he
      · exact h.retry
    · show ∀ q ∈ m.inflight.erase p, _
      intro q hq
      have hq := List.mem_of_mem_erase hq
      rw [hmv.inflight] at hq
      split at hq <;> exact h.infl q hq
  by_cases hs : ∃ signer p i r, msg = .setYieldRecipient signer p i r
  · obtain ⟨signer, p, i, r, rfl⟩ := hs
    obtain ⟨_, _, rfl⟩ := setYieldRecipient_ok hx
    refine { h with recips := fun e he => ?_ }
    rcases KV.mem_set he with rfl | he
    · exact hk _ _ _ _ rfl
    · exact h.recips e he
  have e := hrec fun a b d f hn => hs ⟨a, b, d, f, hn⟩
  by_cases ho : msg.noOther = true
  · exact h.of_route e (congrArg Prod.snd ((Other.msg c env msg ho).ok hx) :)
  have ho : msg.noOther = false := by simpa using ho
  cases msg with
  | lock signer v amt? => exact h.of_route e ((RouteF.lock c env signer v amt?).ok hx)
  | unlock signer v amt? => exact h.of_route e ((RouteF.unlock c signer v amt?).ok hx)
  | deliver vaa => exact (Keyed.deliver c env vaa).ok hx h
  | ibcTransfer x ch r amt =>
    obtain ⟨h0, hy, m, hmv, rfl⟩ := userIbcTransfer_ok hx
    refine moved hmv rfl rfl rfl rfl e ?_
    show ∀ p ∈ m.inflight ++ [_], _
    intro p hp
    rw [hmv.inflight] at hp
    rcases List.mem_append.1 hp with hp | hp
    · exact h.infl p hp
    · rw [List.mem_singleton.1 hp]
      unfold hasYieldRecipient KV.has at hy
      obtain ⟨v, hv⟩ := Option.isSome_iff_exists.1 hy
      exact h.recips _ (KV.mem_of_get? hv)
  | ibcReceive ch r amt =>
    obtain ⟨h0, _, hb, m, hmv, rfl⟩ := ibcReceive_ok hx
    refine moved hmv rfl rfl rfl rfl e ?_
    show ∀ p ∈ m.inflight, _
    rw [hmv.inflight]; exact h.infl
  | ibcTimeout p => exact packet p true hx e
  | ibcAckError p => exact packet p false hx e
  | ibcAckSuccess p =>
    obtain ⟨_, rfl⟩ := packetAcked_ok hx
    exact ⟨h.recips, h.ext, h.retry, fun q hq => h.infl q (List.mem_of_mem_erase hq)⟩
  | warpCreate t =>
    have hx : warpCreate t s = .ok () s' := hx
    unfold warpCreate at hx
    have hx := modify_ok.1 hx
    subst hx
    split <;> exact h.congr
  | warpTransfer x t d r amt =>
    obtain ⟨h0, col, m, hcol, hmv, rfl⟩ := warpSend_ok hx
    refine moved hmv rfl rfl rfl rfl e ?_
    show ∀ p ∈ m.inflight, _
    rw [hmv.inflight]; exact h.infl
  | warpReceive t x amt =>
    obtain ⟨h0, hb, col, hcol, hle, hmv⟩ := warpReceive_ok hx
    refine moved hmv rfl rfl rfl rfl e ?_
    rw [hmv.inflight]; exact h.infl
  | _ => exact Bool.noConfusion ho

end Dollar
