import Verif.Props.C120
import Verif.Props.C103

/-
C120, continued: what each answer of the REST interface says about the state of the chain.
-/
namespace Dollar
open MM Spec Json Rest

/-- The name of a route in a listing. -/
def Spec.routeName (p : Int) (id : String) : String := (if p = 0 then "IBC" else "HYPERLANE") ++ "/" ++ id

/-- What is true of the answer to a query: every value is that of the state, every listing has every entry of the state
once and no other. -/
def Spec.Tells (c : Cfg) (env : Env) (client : String → Client) (s : State) : Query → Answer → Prop
  | .index, a => a = .index (s.index * 10 ^ 6)
  | .paused, a => a = .flag s.paused
  | .principal t, a => ∃ x, c.decode t = some x ∧ a = .amount ((s.principal.get? x).getD 0)
  | .yield t, a => ∃ x y, c.decode t = some x ∧ y = (((s.principal.get? x).getD 0) * s.index).tdiv (10 ^ 12) - s.balance x ∧
      a = .amount (if y ≤ 1 then 0 else y)
  | .stats, a => a = .stats (s.holders, s.totalPrincipal, s.totalYield)
  | .statsV2, a => ∃ l, a = .statsV2 (s.holders, s.totalPrincipal, s.totalYield) l ∧ (l.map Prod.fst).Nodup ∧
      (∀ p id v, s.extYield.get? (p, id) = some v → ∃ chain, (routeName p id, chain, v) ∈ l) ∧
      ∀ e ∈ l, ∃ p id, e.1 = routeName p id ∧ s.extYield.get? (p, id) = some e.2.2 ∧
        (IsChainOf c env client (p, id) e.2.1 ∨ e.2.1 = "UNKNOWN" ∧ ∀ n, ¬ IsChainOf c env client (p, id) n)
  | .yieldRecipients, a => ∃ l, a = .texts l ∧ (l.map Prod.fst).Nodup ∧
      ∀ e, e ∈ l ↔ ∃ p id r, s.recipients.get? (p, id) = some r ∧ e = (routeName p id, r)
  | .yieldRecipient p id, a => ∃ r, s.recipients.get? (p, id) = some r ∧ a = .text r
  | .retryAmounts, a => ∃ l, a = .texts l ∧ (l.map Prod.fst).Nodup ∧
      ∀ e, e ∈ l ↔ ∃ p id v, s.retry.get? (p, id) = some v ∧ e = (routeName p id, toString v)
  | .retryAmount p id, a => a = .amount ((s.retry.get? (p, id)).getD 0)
  | .owner, a => a = .text s.owner
  | .portalPaused, a => a = .flag s.portalPaused
  | .peers, a => ∃ l, a = .peers l ∧ (l.map Prod.fst).Nodup ∧ ∀ n p, (n, p) ∈ l ↔ s.peers.get? n = some p
  | .destinationTokens n, a => ∃ l, a = .tokens l ∧ l.Nodup ∧
      ∀ t, t ∈ l ↔ s.paths.get? (n % 2 ^ 16, t) = some true
  | .nonce, a => a = .nonce s.nonce
  | .positions t, a => ∃ x l, c.decode t = some x ∧ a = .positions l ∧ l.Nodup ∧
      ∀ p, p ∈ l ↔ p.address = x ∧ s.positions.get? (x, p.vault, p.time) = some ⟨p.principal, p.index, p.amount, p.time⟩
  | .pendingRewards, a => a = .amount ((s.rewards.map fun e => e.2.rewards).sum)
  | .pendingRewardsBy t, a => ∃ x l, c.decode t = some x ∧ a = .pending (l.map Prod.snd).sum l ∧
      List.Forall₂ (fun (k : PKey × Position) r => r.1 = k.2.amount ∧
        positionRewards s ⟨k.1.1, k.1.2.1, k.2.principal, k.2.index, k.2.amount, k.2.time⟩ = some r.2)
        (s.positions.filter fun k => k.1.1 = x ∧ k.1.2.1 = 2) l
  | .vaultsPaused, a => a = .pausing s.vPaused
  | .vaultsStats, a => a = .vaultsStats s.vstats

/-- The queries without an answer: accounts that are no addresses, routes without a recipient. -/
def Spec.Unanswered (c : Cfg) (s : State) : Query → Prop
  | .principal t | .yield t | .positions t | .pendingRewardsBy t => c.decode t = none
  | .yieldRecipient p id => s.recipients.get? (p, id) = none
  | _ => False

theorem routeName_eq {k : Int × String} (h : PlainRoute k) : recipientKey k = routeName k.1 k.2 := by
  unfold recipientKey routeName
  rcases h.1 with e | e <;> rw [e] <;> rfl

theorem mapM_forall₂ {α β : Type} {f : α → Option β} {l : List α} (h : ∀ x ∈ l, (f x).isSome) :
    ∃ r, l.mapM f = some r ∧ List.Forall₂ (fun x y => f x = some y) l r := by
  induction l with
  | nil => exact ⟨[], rfl, .nil⟩
  | cons x t ih =>
    obtain ⟨r, h1, h2⟩ := ih fun y hy => h y (List.mem_cons_of_mem _ hy)
    obtain ⟨y, hy⟩ := Option.isSome_iff_exists.1 (h x List.mem_cons_self)
    exact ⟨y :: r, by rw [List.mapM_cons, hy, h1]; rfl, .cons hy h2⟩

/-- C120: every query is answered, truly, or has no answer for one of the two reasons.  In every state a chain can get
to, upgrades included; routes are those of the provider enumeration, with identifiers without a slash. -/
theorem C120_says {c : Cfg} (hc : c.WF) {s : State} (hr : Reachable c s) (env : Env) (client : String → Client)
    (h1 : ∀ e ∈ s.recipients, PlainRoute e.1) (h2 : ∀ e ∈ s.retry, PlainRoute e.1)
    (h3 : ∀ e ∈ s.extYield, PlainRoute e.1) (q : Query) :
    (∃ a, answer c env client s q = some a ∧ Tells c env client s q a) ∨
      answer c env client s q = none ∧ Unanswered c s q := by
  have hs := hr.shape
  obtain ⟨l1, l2, l3, l4, _⟩ := C59_listings hr h1 h2 h3
  cases q with
  | index =>
    refine .inl ⟨_, rfl, ?_⟩
    have := C59_index s
    show Answer.index (queryIndex s) = _
    rw [show queryIndex s = s.index * 10 ^ 6 by omega]
  | paused | stats | owner | portalPaused | nonce | vaultsPaused | vaultsStats => exact .inl ⟨_, rfl, rfl⟩
  | retryAmount p id => exact .inl ⟨_, rfl, rfl⟩
  | principal t =>
    cases hd : c.decode t with
    | none => exact .inr ⟨by simp [answer, queryPrincipal, hd], hd⟩
    | some x => exact .inl ⟨_, by simp only [answer, queryPrincipal, hd, Option.map_some], x, hd, rfl⟩
  | yield t =>
    cases hd : c.decode t with
    | none => exact .inr ⟨by simp [answer, queryYield, hd], hd⟩
    | some x =>
      refine .inl ⟨_, by simp only [answer, queryYield, hd, Option.map_some]; rfl, x, _, hd, rfl, ?_⟩
      unfold claimable
      show Answer.amount (if _ ∨ _ then _ else _) = _
      congr 1
      have e : present (s.principalOf x) s.index = (((s.principal.get? x).getD 0) * s.index).tdiv (10 ^ 12) := rfl
      rw [e]
      generalize (((s.principal.get? x).getD 0) * s.index).tdiv (10 ^ 12) - s.balance x = y
      split <;> split <;> omega
  | statsV2 =>
    obtain ⟨l, e, n, h4, h5⟩ := C103_stats hr env client h3
    refine .inl ⟨_, by simp only [answer, e, Option.map_some], l, rfl, n, fun p id v hv => ?_, fun x hx => ?_⟩
    · obtain ⟨ch, hm⟩ := h5 (p, id) v hv
      rw [routeName_eq (h3 _ (KV.mem_of_get? hv))] at hm
      exact ⟨ch, hm⟩
    · obtain ⟨⟨p, id⟩, e1, e2, e3⟩ := h4 x hx
      exact ⟨p, id, by rw [e1, routeName_eq (h3 _ (KV.mem_of_get? e2))], e2, e3⟩
  | yieldRecipients =>
    refine .inl ⟨_, rfl, _, rfl, l2, fun e => ?_⟩
    rw [l1.mem_iff, List.mem_map]
    constructor
    · rintro ⟨⟨⟨p, id⟩, r⟩, hm, rfl⟩
      exact ⟨p, id, r, (KV.mem_iff_get? hs.recipients).1 hm, by rw [routeName_eq (h1 _ hm)]⟩
    · rintro ⟨p, id, r, hg, rfl⟩
      exact ⟨((p, id), r), KV.mem_of_get? hg, by rw [routeName_eq (h1 _ (KV.mem_of_get? hg))]⟩
  | yieldRecipient p id =>
    cases hg : s.recipients.get? (p, id) with
    | none => exact .inr ⟨by simp [answer, queryYieldRecipient, hg], hg⟩
    | some r => exact .inl ⟨_, by simp only [answer, queryYieldRecipient, hg, Option.map_some], r, hg, rfl⟩
  | retryAmounts =>
    refine .inl ⟨_, rfl, _, rfl, l4, fun e => ?_⟩
    rw [l3.mem_iff, List.mem_map]
    constructor
    · rintro ⟨⟨⟨p, id⟩, r⟩, hm, rfl⟩
      exact ⟨p, id, r, (KV.mem_iff_get? hs.retry).1 hm, by rw [routeName_eq (h2 _ hm)]⟩
    · rintro ⟨p, id, r, hg, rfl⟩
      exact ⟨((p, id), r), KV.mem_of_get? hg, by rw [routeName_eq (h2 _ (KV.mem_of_get? hg))]⟩
  | peers => exact .inl ⟨_, rfl, _, rfl, KV.nodup_keys hs.peers, fun n p => KV.mem_iff_get? hs.peers⟩
  | destinationTokens n =>
    have := (C59_routes hr [] (fun e he => by cases he)).2.2.2.2 n
    exact .inl ⟨_, rfl, _, rfl, this, fun t => destination_iff hs n t⟩
  | positions t =>
    cases hd : c.decode t with
    | none => exact .inr ⟨by simp [answer, queryPositions, hd], hd⟩
    | some x =>
      have hv := (hr.vinv hc).toV0.entry
      refine .inl ⟨_, by simp only [answer, queryPositions, hd, Option.map_some]; rfl, x, _, hd, rfl, ?_, fun p => ?_⟩
      · refine List.Nodup.filter _ ?_
        unfold allPositions
        refine List.Nodup.of_map (fun p : PosEntry => (p.address, p.vault, p.time)) ?_
        rw [List.map_map]
        rw [show s.positions.map ((fun p : PosEntry => (p.address, p.vault, p.time)) ∘ fun e =>
          ⟨e.1.1, e.1.2.1, e.2.principal, e.2.index, e.2.amount, e.2.time⟩) = s.positions.map Prod.fst from
          List.map_congr_left fun e he => by show (e.1.1, e.1.2.1, e.2.time) = e.1; rw [(hv e he).time]]
        exact KV.nodup_keys hs.positions
      · rw [List.mem_filter, ← KV.mem_iff_get? hs.positions]
        unfold allPositions
        rw [List.mem_map]
        constructor
        · rintro ⟨⟨e, he, rfl⟩, hx⟩
          have hx : e.1.1 = x := of_decide_eq_true hx
          refine ⟨hx, ?_⟩
          show ((x, e.1.2.1, e.2.time), e.2) ∈ s.positions
          rw [(hv e he).time, ← hx]
          exact he
        · rintro ⟨hx, hm⟩
          exact ⟨⟨_, hm, by rw [← hx]⟩, decide_eq_true hx⟩
  | pendingRewards =>
    refine .inl ⟨_, rfl, ?_⟩
    show Answer.amount (queryPendingRewards s) = _
    rfl
  | pendingRewardsBy t =>
    cases hd : c.decode t with
    | none => exact .inr ⟨by simp [answer, queryPendingByProvider, hd], hd⟩
    | some x =>
      have hv := (hr.vinv hc).toV0.entry
      have hp : positionsOf s x FLEXIBLE = (s.positions.filter fun k => k.1.1 = x ∧ k.1.2.1 = 2).map fun k =>
          (⟨k.1.1, k.1.2.1, k.2.principal, k.2.index, k.2.amount, k.2.time⟩ : PosEntry) := by
        unfold positionsOf FLEXIBLE
        generalize s.positions = m
        induction m with
        | nil => rfl
        | cons e t ih =>
          by_cases hx : e.1.1 = x ∧ e.1.2.1 = 2
          · rw [List.filterMap_cons, if_pos hx, List.filter_cons, if_pos (decide_eq_true hx), List.map_cons, ih]
          · rw [List.filterMap_cons, if_neg hx, List.filter_cons, if_neg (by simpa using hx), ih]
      obtain ⟨r, e1, e2⟩ := mapM_forall₂
        (f := fun p => (positionRewards s p).map fun r => (p.amount, r)) (l := positionsOf s x FLEXIBLE) (by
          intro p hm
          rw [hp] at hm
          obtain ⟨k, hk, rfl⟩ := List.mem_map.1 hm
          have := (hv k (List.mem_filter.1 hk).1).idx
          unfold positionRewards
          rw [if_neg (by show ¬ k.2.index = 0; omega)]
          rfl)
      refine .inl ⟨.pending (r.map Prod.snd).sum r, ?_, x, r, hd, rfl, ?_⟩
      · simp only [answer, queryPendingByProvider, hd, Option.bind_eq_bind, Option.bind_some, e1]
        rfl
      · rw [hp, List.forall₂_map_left_iff] at e2
        refine e2.imp fun k y hy => ?_
        obtain ⟨w, hw, rfl⟩ := Option.map_eq_some_iff.1 hy
        exact ⟨rfl, hw⟩

/-- C120: what a client learns from a GET request is true of the state of the chain: either it learns an answer that
tells the state's values, or there is no body and the account is no address or the route has no recipient. -/
theorem C120_truth {c : Cfg} (hc : c.WF) (ha : ShortAddresses c) {s0 : State} (h0 : Initial c s0) (hf : Fits s0)
    (hlo : 10 ^ 12 ≤ s0.index) {h : History} (hsig : History.Signed c h) (hty : HistTyped h)
    (hlen : h.length ≤ 2 ^ 39) (hold : holdersOf c (run c h s0) < 2 ^ 64) (env : Env) (client : String → Client)
    (nanos : PosEntry → Nat) (h1 : ∀ e ∈ (run c h s0).recipients, PlainRoute e.1)
    (h2 : ∀ e ∈ (run c h s0).retry, PlainRoute e.1) (h3 : ∀ e ∈ (run c h s0).extYield, PlainRoute e.1)
    {q : Query} {path : String} (hp : Asks q path) :
    let s := run c h s0
    (∃ body a, Rest.get c env client nanos s path = some body ∧ learnText q body = some a ∧ Tells c env client s q a) ∨
      Rest.get c env client nanos s path = none ∧ Unanswered c s q := by
  intro s
  have hg := C120_get hc ha h0 hf hlo hsig hty hlen hold env client nanos hp
  rcases C120_says hc (.of_run h0 hsig) env client h1 h2 h3 q with ⟨a, e, ht⟩ | ⟨e, hu⟩
  · rw [e] at hg
    obtain ⟨body, e1, e2⟩ := Option.bind_eq_some_iff.1 hg
    exact .inl ⟨body, a, e1, e2, ht⟩
  · refine .inr ⟨?_, hu⟩
    unfold Rest.get
    rw [(C116_reaches path q).2 hp]
    show (answer c env client (run c h s0) q).map _ = none
    rw [e]
    rfl

/-- The routes of the demo chain are plain, so all its requests are answered truly. -/
example (q : Query) (env : Env) (client : String → Client) :
    (∃ a, answer Demo.cfg env client (run Demo.cfg Demo.histFull Demo.start) q = some a ∧
      Tells Demo.cfg env client (run Demo.cfg Demo.histFull Demo.start) q a) ∨
    answer Demo.cfg env client (run Demo.cfg Demo.histFull Demo.start) q = none ∧
      Unanswered Demo.cfg (run Demo.cfg Demo.histFull Demo.start) q :=
  C120_says Demo.cfg_wf (.of_run Demo.start_initial Demo.full_signed) env client (by decide +kernel) (by decide +kernel)
    (by decide +kernel) q

/-- Two routes wait for a retry there, alice has a position, and an unknown route has no answer. -/
example :
    let s := run Demo.cfg Demo.histFull Demo.start
    (s.retry.length = 2 ∧ s.extYield.length = 2 ∧ s.positions.length = 1 ∧ s.peers.length = 1) ∧
    Unanswered Demo.cfg s (.yieldRecipient 0 "channel-77") := by
  refine ⟨by decide +kernel, ?_⟩
  show (_ : Option String) = none
  decide +kernel

end Dollar
