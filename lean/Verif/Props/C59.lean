import Verif.Props.C05
import Verif.Props.C06
import Verif.Props.C10
import Verif.Props.C22
import Verif.Props.C39
import Verif.Props.C41
import Verif.Props.C43
import Verif.Model.Queries

/-
C59: the queries tell the truth: settings are those last accepted, statistics are what happened.
-/
set_option maxRecDepth 100000
namespace Dollar
open MM Spec

/-- The value written by the last accepted message of a history that writes a setting, if any;
`w m` is the value that the message `m` asks for. -/
def Spec.lastWrite {α : Type} (c : Cfg) (w : Msg → Option α) : History → State → Option α
  | [], _ => none
  | (env, m) :: rest, s =>
    (lastWrite c w rest (Dollar.step c env m s)).or (if (exec c env m s).isOk then w m else none)

/-- What each administrative message asks for. -/
def Spec.asksPaused : Msg → Option Bool
  | .setPaused _ b => some b
  | _ => none
def Spec.asksPortalPaused : Msg → Option Bool
  | .portalSetPaused _ b => some b
  | _ => none
def Spec.asksVaultsPaused : Msg → Option Int
  | .vaultsSetPaused _ p => some p
  | _ => none
def Spec.asksOwner : Msg → Option String
  | .transferOwnership _ o => some o
  | _ => none
def Spec.asksPeer (chain : Nat) : Msg → Option Peer
  | .setPeer _ ch t m => if ch = chain then some ⟨t, m⟩ else none
  | _ => none
def Spec.asksPath (chain : Nat) (token : Bytes) : Msg → Option Bool
  | .setBridgingPath _ ch t b => if ch = chain ∧ t = token then some b else none
  | _ => none
def Spec.asksRecipient (provider : Int) (id : String) : Msg → Option String
  | .setYieldRecipient _ p i r => if p = provider ∧ i = id then some r else none
  | _ => none

/-- A reading that every accepted message either sets to the value it asks for or keeps. -/
theorem lastWrite_run {α : Type} {c : Cfg} {w : Msg → Option α} {read : State → Option α}
    (h : ∀ env m s s', exec c env m s = .ok () s' → read s' = (w m).or (read s)) (hist : History)
    (s : State) : read (run c hist s) = (lastWrite c w hist s).or (read s) := by
  induction hist generalizing s with
  | nil => rfl
  | cons e t ih =>
    obtain ⟨env, m⟩ := e
    show read (run c t (step c env m s)) = _
    rw [ih, lastWrite, Option.or_assoc]
    congr 1
    unfold step runTx
    cases hx : exec c env m s with
    | ok u s' => simpa [Res.isOk] using h env m s s' hx
    | err => simp [Res.isOk]
    | panic => simp [Res.isOk]

theorem settings_read {α : Type} {read : State → Option α} {w : Msg → Option α} {c : Cfg}
    (f : Settings → Option α) (hf : ∀ s, read s = f (settings s))
    (h1 : ∀ s sg b, read { s with paused := b } = (w (.setPaused sg b)).or (read s))
    (h2 : ∀ s sg p i r, read { s with recipients := s.recipients.set (p, i) r } =
      (w (.setYieldRecipient sg p i r)).or (read s))
    (h3 : ∀ s sg p, read { s with vPaused := p } = (w (.vaultsSetPaused sg p)).or (read s))
    (h4 : ∀ s sg o, read { s with owner := o } = (w (.transferOwnership sg o)).or (read s))
    (h5 : ∀ s sg b, read { s with portalPaused := b } = (w (.portalSetPaused sg b)).or (read s))
    (h6 : ∀ s sg ch t m, read { s with peers := s.peers.set ch ⟨t, m⟩ } =
      (w (.setPeer sg ch t m)).or (read s))
    (h7 : ∀ s sg ch t b, read { s with paths := s.paths.set (ch, t) b } =
      (w (.setBridgingPath sg ch t b)).or (read s))
    (h8 : ∀ m, m.isPlain = true → w m = none) (h9 : ∀ v, w (.deliver v) = none)
    (h10 : ∀ sg a ch t r, w (.transfer sg a ch t r) = none)
    (env : Env) (m : Msg) (s s' : State) (h : exec c env m s = .ok () s') :
    read s' = (w m).or (read s) := by
  have same : settings s' = settings s → w m = none → read s' = (w m).or (read s) := by
    intro e e'; rw [hf, hf, e, e']; rfl
  by_cases hp : m.isPlain = true
  · exact same (congrArg Prod.fst ((Still.plain c env m hp).ok h) :) (h8 m hp)
  cases m <;> first | (exact absurd rfl hp) | skip
  · obtain ⟨rfl, rfl⟩ := setPaused_ok h
    rw [← h1 s]; simp only [hf]; rfl
  · obtain ⟨rfl, _, rfl⟩ := setYieldRecipient_ok h
    rw [← h2 s]; simp only [hf]; rfl
  · exact same (Still.deliver (show deliver _ _ _ _ = _ from h)).1 (h9 _)
  · obtain ⟨amt, rfl, ht⟩ := transfer_ok (show transfer c env _ _ _ _ _ s = .ok () s' from h)
    obtain ⟨a, ha⟩ := ht.sender
    exact same (ht.did ha).settings (h10 _ _ _ _ _)
  · obtain ⟨h0, rfl, rfl⟩ := portalSetPaused_ok h
    rw [← h5 s]; simp only [hf]; rfl
  · obtain ⟨h0, rfl, _, _, _, _, _, _, rfl⟩ := setPeer_ok h
    rw [← h6 s]; simp only [hf]; rfl
  · obtain ⟨h0, rfl, _, _, _, rfl⟩ := setBridgingPath_ok h
    rw [← h7 s]; simp only [hf]; rfl
  · obtain ⟨h0, rfl, _, _, rfl⟩ := transferOwnership_ok h
    rw [← h4 s]; simp only [hf]; rfl
  · obtain ⟨rfl, _, _, rfl⟩ := vaultsSetPaused_ok h
    rw [← h3 s]; simp only [hf]; rfl

theorem plain_none {α : Type} {w : Msg → Option α}
    (h : ∀ m, w m ≠ none → m.isPlain = false) (m : Msg) (hp : m.isPlain = true) : w m = none := by
  by_contra hn
  rw [h m hn] at hp; cases hp

/-- The switches: after any history each pause query and the owner query return what the last
accepted message asked for, and the previous answer if there was none. -/
theorem C59_switches (c : Cfg) (h : History) (s : State) :
    queryPaused (run c h s) = (lastWrite c asksPaused h s).getD (queryPaused s) ∧
    queryPortalPaused (run c h s) = (lastWrite c asksPortalPaused h s).getD (queryPortalPaused s) ∧
    queryVaultsPaused (run c h s) = (lastWrite c asksVaultsPaused h s).getD (queryVaultsPaused s) ∧
    queryOwner (run c h s) = (lastWrite c asksOwner h s).getD (queryOwner s) := by
  have conv : ∀ {α : Type} {x y : α} {o : Option α}, some x = o.or (some y) → x = o.getD y := by
    intro α x y o e
    cases o with
    | none => exact Option.some.inj e
    | some z => exact Option.some.inj e
  refine ⟨conv ?_, conv ?_, conv ?_, conv ?_⟩
  · refine lastWrite_run (read := fun s => some s.paused) (settings_read (fun z => some z.paused) (fun _ => rfl)
      ?_ ?_ ?_ ?_ ?_ ?_ ?_ (plain_none ?_) ?_ ?_) h s
    case refine_8 => intro m; cases m <;> first | exact fun _ => rfl | exact fun e => absurd rfl e
    all_goals intros; rfl
  · refine lastWrite_run (read := fun s => some s.portalPaused) (settings_read (fun z => some z.portalPaused)
      (fun _ => rfl) ?_ ?_ ?_ ?_ ?_ ?_ ?_ (plain_none ?_) ?_ ?_) h s
    case refine_8 => intro m; cases m <;> first | exact fun _ => rfl | exact fun e => absurd rfl e
    all_goals intros; rfl
  · refine lastWrite_run (read := fun s => some s.vPaused) (settings_read (fun z => some z.vPaused)
      (fun _ => rfl) ?_ ?_ ?_ ?_ ?_ ?_ ?_ (plain_none ?_) ?_ ?_) h s
    case refine_8 => intro m; cases m <;> first | exact fun _ => rfl | exact fun e => absurd rfl e
    all_goals intros; rfl
  · refine lastWrite_run (read := fun s => some s.owner) (settings_read (fun z => some z.owner)
      (fun _ => rfl) ?_ ?_ ?_ ?_ ?_ ?_ ?_ (plain_none ?_) ?_ ?_) h s
    case refine_8 => intro m; cases m <;> first | exact fun _ => rfl | exact fun e => absurd rfl e
    all_goals intros; rfl

theorem get?_set_or {K V : Type} [DecidableEq K] [KeyOrd K] (m : KV K V) (k k' : K) (v : V) :
    (m.set k v).get? k' = (if k = k' then some v else none).or (m.get? k') := by
  rw [KV.get?_set]
  by_cases h : k' = k
  · rw [if_pos h, if_pos h.symm]; rfl
  · rw [if_neg h, if_neg (fun e => h e.symm)]; rfl

theorem run_recipient (c : Cfg) (h : History) (s : State) (p : Int) (i : String) :
    (run c h s).recipients.get? (p, i) = (lastWrite c (asksRecipient p i) h s).or (s.recipients.get? (p, i)) := by
  refine lastWrite_run (read := fun s => s.recipients.get? (p, i)) (settings_read (fun z => z.recipients.get? (p, i))
    (fun _ => rfl) ?_ ?_ ?_ ?_ ?_ ?_ ?_ (plain_none ?_) ?_ ?_) h s
  case refine_2 =>
    intro s sg p' i' r
    show (s.recipients.set (p', i') r).get? (p, i) = _
    rw [get?_set_or]; unfold asksRecipient
    simp only [Prod.mk.injEq]
  case refine_8 => intro m; cases m <;> first | exact fun _ => rfl | exact fun e => absurd rfl e
  all_goals intros; rfl

theorem run_peer (c : Cfg) (h : History) (s : State) (ch : Nat) :
    (run c h s).peers.get? ch = (lastWrite c (asksPeer ch) h s).or (s.peers.get? ch) := by
  refine lastWrite_run (read := fun s => s.peers.get? ch) (settings_read (fun z => z.peers.get? ch)
    (fun _ => rfl) ?_ ?_ ?_ ?_ ?_ ?_ ?_ (plain_none ?_) ?_ ?_) h s
  case refine_6 => intro s sg p' i' r; exact get?_set_or _ _ _ _
  case refine_8 => intro m; cases m <;> first | exact fun _ => rfl | exact fun e => absurd rfl e
  all_goals intros; rfl

theorem run_path (c : Cfg) (h : History) (s : State) (ch : Nat) (t : Bytes) :
    (run c h s).paths.get? (ch, t) = (lastWrite c (asksPath ch t) h s).or (s.paths.get? (ch, t)) := by
  refine lastWrite_run (read := fun s => s.paths.get? (ch, t)) (settings_read (fun z => z.paths.get? (ch, t))
    (fun _ => rfl) ?_ ?_ ?_ ?_ ?_ ?_ ?_ (plain_none ?_) ?_ ?_) h s
  case refine_7 =>
    intro s sg ch' t' b
    show (s.paths.set (ch', t') b).get? (ch, t) = _
    rw [get?_set_or]; unfold asksPath
    simp only [Prod.mk.injEq]
  case refine_8 => intro m; cases m <;> first | exact fun _ => rfl | exact fun e => absurd rfl e
  all_goals intros; rfl

/-- A token is listed for a chain exactly when its path is set to supported. -/
theorem destination_iff {s : State} (hs : Shape s) (chain : Nat) (token : Bytes) :
    token ∈ queryDestinationTokens s chain ↔ s.paths.get? (chain % 2 ^ 16, token) = some true := by
  unfold queryDestinationTokens
  rw [List.mem_filterMap, ← KV.mem_iff_get? hs.paths]
  constructor
  · rintro ⟨⟨⟨ch, t⟩, b⟩, he, hx⟩
    simp only at hx
    split at hx
    · rename_i hk
      cases hx
      obtain ⟨rfl, rfl⟩ := hk
      exact he
    · cases hx
  · intro he
    exact ⟨_, he, by simp⟩

/-- Routes: after any history the yield recipient of a route, the peer of a chain and the tokens
offered for a chain are those of the last accepted message for that route, chain or token; no peer
and no token is listed twice. -/
theorem C59_routes {c : Cfg} {s : State} (hr : Reachable c s) (h : History) (hsig : History.Signed c h) :
    let s' := run c h s
    (∀ p i, queryYieldRecipient s' p i = (lastWrite c (asksRecipient p i) h s).or (queryYieldRecipient s p i)) ∧
    (∀ ch p, (ch, p) ∈ queryPeers s' ↔
      (match lastWrite c (asksPeer ch) h s with
        | some q => p = q
        | none => (ch, p) ∈ queryPeers s)) ∧
    (∀ ch, ch < 2 ^ 16 → ∀ t, t ∈ queryDestinationTokens s' ch ↔
      (match lastWrite c (asksPath ch t) h s with
        | some b => b = true
        | none => t ∈ queryDestinationTokens s ch)) ∧
    ((queryPeers s').map Prod.fst).Nodup ∧ ∀ ch, (queryDestinationTokens s' ch).Nodup := by
  have hr' : Reachable c (run c h s) := hr.run hsig
  refine ⟨fun p i => run_recipient c h s p i, fun ch p => ?_, fun ch hch t => ?_,
    KV.nodup_keys hr'.shape.peers, fun ch => ?_⟩
  · show (ch, p) ∈ (run c h s).peers ↔ _
    rw [KV.mem_iff_get? hr'.shape.peers, run_peer]
    cases lastWrite c (asksPeer ch) h s with
    | none => exact (KV.mem_iff_get? hr.shape.peers).symm
    | some q => exact ⟨fun e => (Option.some.inj e).symm, fun e => by rw [e]; rfl⟩
  · rw [destination_iff hr'.shape, destination_iff hr.shape, Nat.mod_eq_of_lt hch, run_path]
    cases lastWrite c (asksPath ch t) h s with
    | none => exact Iff.rfl
    | some b => exact ⟨fun e => Option.some.inj e, fun e => by rw [e]; rfl⟩
  · have hn := KV.nodup_keys hr'.shape.paths
    generalize run c h s = s' at *
    unfold queryDestinationTokens
    rw [List.Nodup, List.pairwise_filterMap]
    refine List.Pairwise.imp ?_ (List.pairwise_map.1 hn)
    rintro ⟨⟨c1, t1⟩, b1⟩ ⟨⟨c2, t2⟩, b2⟩ hne x hx y hy e
    simp only [Option.ite_none_right_eq_some, Option.some.injEq] at hx hy
    obtain ⟨⟨rfl, _⟩, rfl⟩ := hx
    obtain ⟨⟨rfl, _⟩, rfl⟩ := hy
    exact hne (by simp [e])

/-- The listing of all yield recipients and of all retry amounts: for plain routes it contains exactly
the recorded routes, each once, under distinct names. -/
theorem C59_listings {c : Cfg} {s : State} (hr : Reachable c s)
    (h1 : ∀ e ∈ s.recipients, PlainRoute e.1) (h2 : ∀ e ∈ s.retry, PlainRoute e.1)
    (h3 : ∀ e ∈ s.extYield, PlainRoute e.1) :
    (queryYieldRecipients s).Perm (s.recipients.map fun e => (recipientKey e.1, e.2)) ∧
    ((queryYieldRecipients s).map Prod.fst).Nodup ∧
    (queryRetryAmounts s).Perm (s.retry.map fun e => (recipientKey e.1, toString e.2)) ∧
    ((queryRetryAmounts s).map Prod.fst).Nodup ∧
    ∃ l, queryExternalYield s = some l ∧
      l.Perm (s.extYield.map fun e => (recipientKey e.1, e.2)) ∧ (l.map Prod.fst).Nodup := by
  have k1 := keys_nodup hr.shape.recipients h1 id
  have k2 := keys_nodup hr.shape.retry h2 toString
  have k3 := keys_nodup hr.shape.extYield h3 toString
  have p3 := goMap_perm _ k3
  refine ⟨goMap_perm _ k1, ((goMap_perm _ k1).map Prod.fst).nodup_iff.2 k1,
    goMap_perm _ k2, ((goMap_perm _ k2).map Prod.fst).nodup_iff.2 k2, ?_⟩
  unfold queryExternalYield
  have hok : ∀ e ∈ goMap (s.extYield.map fun e => (recipientKey e.1, toString e.2)),
      ∃ x ∈ s.extYield, e = (recipientKey x.1, toString x.2) := by
    intro e he
    obtain ⟨x, hx, rfl⟩ := List.mem_map.1 (p3.mem_iff.1 he)
    exact ⟨x, hx, rfl⟩
  have key : ∀ l : List (String × String), (∀ e ∈ l, ∃ x ∈ s.extYield, e = (recipientKey x.1, toString x.2)) →
      (l.mapM fun e => match parseRecipientKey e.1 with
        | .ok _ => some (e.1, (intOfString e.2).getD 0)
        | _ => none) = some (l.map fun e => (e.1, (intOfString e.2).getD 0)) := by
    intro l
    induction l with
    | nil => intro _; rfl
    | cons e t ih =>
      intro hl
      obtain ⟨x, hx, hxe⟩ := hl e List.mem_cons_self
      rw [List.mapM_cons, ih fun y hy => hl y (List.mem_cons_of_mem _ hy)]
      have hk : parseRecipientKey e.1 = .ok x.1 := by
        rw [hxe]; exact parse_recipientKey (h3 x hx).1 (h3 x hx).2
      simp only [hk]; rfl
  refine ⟨_, key _ hok, ?_, ?_⟩
  · refine (p3.map _).trans ?_
    rw [List.map_map]
    refine List.Perm.of_eq (List.map_congr_left fun e _ => ?_)
    show (recipientKey e.1, (intOfString (toString e.2)).getD 0) = _
    rw [intOfString_toString]; rfl
  · rw [List.map_map]
    exact (p3.map Prod.fst).nodup_iff.2 k3

/-- The index query is exact: a decimal with 18 digits equal to index / 10^12. -/
theorem C59_index (s : State) : queryIndex s * 10 ^ 12 = s.index * 10 ^ 18 := by
  unfold queryIndex decQuoInt decOfInt
  have e : s.index * DEC = (s.index * 10 ^ 6) * SCALE := by unfold DEC SCALE; ring
  rw [e, Int.mul_tdiv_cancel _ (by unfold SCALE; decide)]
  ring

/-- The statistics: from a fresh chain, the yield shown is the supply that did not come over the
bridge, the principal shown covers all recorded principals, the holders shown are at most the accounts with
coins; the vault statistics show the flexible principal, the users of each vault and at
least the staked principal. -/
theorem C59_stats {c : Cfg} (hc : c.WF) {s0 : State} (hi : Initial c s0) (h : History)
    (hsig : History.Signed c h) :
    let s := run c h s0
    ∃ holders principal yielded, queryStats s = (holders, principal, yielded) ∧
      yielded = s.supply - netBridged c h s0 ∧ totalPrincipals s ≤ principal ∧ holders ≤ holdersOf c s ∧
      (queryVaultsStats s).flexPrincipal = s.totalFlexible ∧
      principalIn s 2 ≤ (queryVaultsStats s).flexPrincipal ∧
      principalIn s 1 ≤ (queryVaultsStats s).stakedPrincipal ∧
      (queryVaultsStats s).stakedUsers = (usersIn s 1).length % 2 ^ 64 ∧
      (queryVaultsStats s).flexUsers = (usersIn s 2).length % 2 ^ 64 := by
  have hr : Reachable c (run c h s0) := .of_run hi hsig
  have h1 := C05_supply_from_start hc hi h hsig
  obtain ⟨e1, e2, e3, _⟩ := C26_principal_totals hc _ hr
  obtain ⟨e5, e6⟩ := C27_user_counts hc _ hr
  exact ⟨_, _, _, rfl, by omega, C06_principal_le_total hc hr, C43_never_overcounts hc hr, e1,
    (show principalIn _ 2 ≤ _ by rw [show (queryVaultsStats (run c h s0)).flexPrincipal = _ from e1]; exact e2), e3, e5, e6⟩

/-- The position of a known account: the principal query shows the recorded principal. -/
theorem C59_principal (c : Cfg) (s : State) (account : String) (a : Addr) (hd : c.decode account = some a) :
    ∃ r, queryPrincipal c s account = some r ∧ r.getD 0 = s.principalOf a := by
  unfold queryPrincipal
  rw [hd]
  exact ⟨_, rfl, rfl⟩

namespace Demo

/-- The owner closes a path and opens another, changes the peer and hands over; a stranger's
attempt fails. -/
def hist59 : History :=
  [(env 30, .setBridgingPath "owner" 2 (List.replicate 32 8) false),
   (env 31, .setBridgingPath "owner" 2 (List.replicate 32 9) true),
   (env 32, .setBridgingPath "mallory" 2 (List.replicate 32 9) false),
   (env 33, .setPeer "owner" 2 (List.replicate 32 5) (List.replicate 32 6)),
   (env 34, .transferOwnership "owner" aliceS),
   (env 35, .setBridgingPath "owner" 2 (List.replicate 32 9) false),
   (env 36, .portalSetPaused aliceS true)]

theorem hist59_signed : History.Signed cfg hist59 := by
  intro e he
  simp only [hist59, List.mem_cons, List.not_mem_nil, or_false] at he
  rcases he with rfl | rfl | rfl | rfl | rfl | rfl | rfl <;> trivial

end Demo

/-- Non-vacuity: the closed path is gone, the opened one is offered in spite of the stranger and of the
former owner, and the new owner's pause is shown. -/
example : let s := run Demo.cfg Demo.hist1 Demo.start
    let s' := run Demo.cfg Demo.hist59 s
    Reachable Demo.cfg s ∧ History.Signed Demo.cfg Demo.hist59 ∧
    queryDestinationTokens s 2 = [List.replicate 32 8] ∧
    lastWrite Demo.cfg (asksPath 2 (List.replicate 32 8)) Demo.hist59 s = some false ∧
    lastWrite Demo.cfg (asksPath 2 (List.replicate 32 9)) Demo.hist59 s = some true ∧
    queryDestinationTokens s' 2 = [List.replicate 32 9] ∧
    lastWrite Demo.cfg asksPortalPaused Demo.hist59 s = some true ∧ queryPortalPaused s = false ∧
    lastWrite Demo.cfg asksOwner Demo.hist59 s = some Demo.aliceS ∧
    lastWrite Demo.cfg asksPaused Demo.hist59 s = none ∧
    queryStats s' = (5, 15000000, 1500000) ∧ queryIndex s' = 1100000000000000000 :=
  ⟨Demo.reach1, Demo.hist59_signed, by decide +kernel⟩

end Dollar
