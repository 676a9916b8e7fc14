import Verif.Model.Stats2
import Verif.Props.C35
import Verif.Props.C59

/-
C103: the chain shown beside the external yield of a route is the chain to which that yield is sent.
-/
set_option maxRecDepth 100000
namespace Dollar
open MM Spec

/-- The chain at the other end of a route: the chain of the light client behind the channel, or the
only domain with a router for the token. -/
def Spec.IsChainOf (c : Cfg) (env : Env) (client : String → Client) (k : Int × String) (name : String) : Prop :=
  (k.1 = 0 ∧ (client k.2 = .tendermint name ∨ client k.2 = .soloMachine name)) ∨
  (k.1 = 1 ∧ ∃ t d, tokenOf c k.2 = some t ∧ env.routers t = [d] ∧ name = toString d)

theorem statsEntry_plain {c : Cfg} {env : Env} {client : String → Client} {k : Int × String} (h : PlainRoute k) (v : Int) :
    statsEntry c env client (recipientKey k, toString v) =
      some (recipientKey k, if k.1 = 0 then ibcChainId client k.2 else hypChainId c env k.2, v) := by
  unfold statsEntry
  have hk : parseRecipientKey (recipientKey k) = .ok (k.1, k.2) := parse_recipientKey h.1 h.2
  rw [hk]
  show some (_, _, (intOfString (toString v)).getD 0) = _
  rw [intOfString_toString]
  rcases h.1 with h1 | h1 <;> rw [h1] <;> rfl

theorem statsV2_plain {c : Cfg} {s : State} (hr : Reachable c s) (env : Env) (client : String → Client)
    (h : ∀ e ∈ s.extYield, PlainRoute e.1) :
    ∃ l, queryStatsV2 c env client s = some (s.holders, s.totalPrincipal, s.totalYield, l) ∧
      l.Perm (s.extYield.map fun e => (recipientKey e.1,
        if e.1.1 = 0 then ibcChainId client e.1.2 else hypChainId c env e.1.2, e.2)) ∧ (l.map Prod.fst).Nodup := by
  have k3 := keys_nodup hr.shape.extYield h toString
  have p3 := goMap_perm _ k3
  let g : String × String → String × String × Int := fun e => (statsEntry c env client e).getD ("", "", 0)
  have key : ∀ l : List (String × String), (∀ e ∈ l, ∃ x ∈ s.extYield, e = (recipientKey x.1, toString x.2)) →
      l.mapM (statsEntry c env client) = some (l.map g) ∧ (l.map g).map Prod.fst = l.map Prod.fst := by
    intro l
    induction l with
    | nil => exact fun _ => ⟨rfl, rfl⟩
    | cons e t ih =>
      intro hl
      obtain ⟨h1, h2⟩ := ih fun y hy => hl y (List.mem_cons_of_mem _ hy)
      obtain ⟨x, hx, rfl⟩ := hl e List.mem_cons_self
      have hg : g (recipientKey x.1, toString x.2) = _ := congrArg (·.getD ("", "", 0)) (statsEntry_plain (h x hx) x.2)
      rw [List.mapM_cons, h1, statsEntry_plain (h x hx), List.map_cons, List.map_cons, List.map_cons, hg, h2]
      exact ⟨rfl, rfl⟩
  have hmem : ∀ e ∈ goMap (s.extYield.map fun e => (recipientKey e.1, toString e.2)),
      ∃ x ∈ s.extYield, e = (recipientKey x.1, toString x.2) := by
    intro e he
    obtain ⟨x, hx, rfl⟩ := List.mem_map.1 (p3.mem_iff.1 he)
    exact ⟨x, hx, rfl⟩
  obtain ⟨h1, h2⟩ := key _ hmem
  refine ⟨_, by unfold queryStatsV2; rw [h1]; rfl, ?_, ?_⟩
  · refine (p3.map g).trans (List.Perm.of_eq ?_)
    rw [List.map_map]
    exact List.map_congr_left fun e he => congrArg (·.getD ("", "", 0)) (statsEntry_plain (h e he) e.2)
  · rw [h2]; exact (p3.map Prod.fst).nodup_iff.2 k3

theorem ibcChainId_cases (client : String → Client) (id : String) :
    (client id = .tendermint (ibcChainId client id) ∨ client id = .soloMachine (ibcChainId client id)) ∨
    ibcChainId client id = "UNKNOWN" ∧ ∀ n, client id ≠ .tendermint n ∧ client id ≠ .soloMachine n := by
  unfold ibcChainId
  cases h : client id with
  | soloMachine d => exact .inl (.inr rfl)
  | tendermint i => exact .inl (.inl rfl)
  | other => exact .inr ⟨rfl, fun n => ⟨Client.noConfusion, Client.noConfusion⟩⟩
  | none => exact .inr ⟨rfl, fun n => ⟨Client.noConfusion, Client.noConfusion⟩⟩

theorem hypChainId_of {c : Cfg} {env : Env} {id : String} {t d : Nat} (ht : tokenOf c id = some t)
    (hd : env.routers t = [d]) : hypChainId c env id = toString d := by
  unfold tokenOf at ht
  unfold hypChainId
  cases h : c.hexAddr id with
  | none => rw [h] at ht; cases ht
  | some raw =>
    rw [h] at ht
    cases ht
    show (match env.routers (c.internalId raw) with | [d] => toString d | _ => "UNKNOWN") = _
    rw [hd]

theorem hypChainId_cases (c : Cfg) (env : Env) (id : String) :
    (∃ t d, tokenOf c id = some t ∧ env.routers t = [d] ∧ hypChainId c env id = toString d) ∨
    hypChainId c env id = "UNKNOWN" ∧ ∀ t d, tokenOf c id = some t → env.routers t ≠ [d] := by
  by_cases h : ∃ t d, tokenOf c id = some t ∧ env.routers t = [d]
  · obtain ⟨t, d, h1, h2⟩ := h
    exact .inl ⟨t, d, h1, h2, hypChainId_of h1 h2⟩
  · right
    refine ⟨?_, fun t d h1 h2 => h ⟨t, d, h1, h2⟩⟩
    unfold hypChainId
    cases e : c.hexAddr id with
    | none => rfl
    | some raw =>
      have h1 : tokenOf c id = some (c.internalId raw) := by unfold tokenOf; rw [e]; rfl
      show (match env.routers (c.internalId raw) with | [d] => toString d | _ => "UNKNOWN") = _
      split
      · next d hd => exact absurd ⟨_, _, h1, hd⟩ h
      · rfl

/-- The Stats query of version 2 shows the statistics as recorded and lists every route with external
yield exactly once, with the recorded amount and the chain at its other end, or UNKNOWN if there is no
such chain. -/
theorem C103_stats {c : Cfg} {s : State} (hr : Reachable c s) (env : Env) (client : String → Client)
    (h : ∀ e ∈ s.extYield, PlainRoute e.1) :
    ∃ l, queryStatsV2 c env client s = some (s.holders, s.totalPrincipal, s.totalYield, l) ∧
      (l.map Prod.fst).Nodup ∧
      (∀ x ∈ l, ∃ k, x.1 = recipientKey k ∧ s.extYield.get? k = some x.2.2 ∧
        (IsChainOf c env client k x.2.1 ∨ x.2.1 = "UNKNOWN" ∧ ∀ n, ¬ IsChainOf c env client k n)) ∧
      ∀ k v, s.extYield.get? k = some v → ∃ n, (recipientKey k, n, v) ∈ l := by
  obtain ⟨l, h1, h2, h3⟩ := statsV2_plain hr env client h
  refine ⟨l, h1, h3, fun x hx => ?_, fun k v hk => ?_⟩
  · obtain ⟨e, he, rfl⟩ := List.mem_map.1 (h2.mem_iff.1 hx)
    refine ⟨e.1, rfl, KV.get?_of_mem hr.shape.extYield he, ?_⟩
    rcases (h e he).1 with h0 | h0
    · show IsChainOf c env client e.1 (if e.1.1 = 0 then _ else _) ∨ (if e.1.1 = 0 then _ else _) = _ ∧ _
      rw [if_pos h0]
      rcases ibcChainId_cases client e.1.2 with h4 | ⟨h4, h5⟩
      · exact .inl (.inl ⟨h0, h4⟩)
      · right
        refine ⟨h4, fun n => ?_⟩
        rintro (⟨_, h6 | h6⟩ | ⟨h6, _⟩)
        · exact (h5 n).1 h6
        · exact (h5 n).2 h6
        · omega
    · have hne : ¬ e.1.1 = 0 := by omega
      show IsChainOf c env client e.1 (if e.1.1 = 0 then _ else _) ∨ (if e.1.1 = 0 then _ else _) = _ ∧ _
      rw [if_neg hne]
      rcases hypChainId_cases c env e.1.2 with ⟨t, d, h4, h5, h6⟩ | ⟨h4, h5⟩
      · exact .inl (.inr ⟨h0, t, d, h4, h5, h6⟩)
      · right
        refine ⟨h4, fun n => ?_⟩
        rintro (⟨h6, _⟩ | ⟨_, t, d, h6, h7, _⟩)
        · omega
        · exact h5 t d h6 h7
  · exact ⟨_, h2.mem_iff.2 (List.mem_map.2 ⟨(k, v), KV.mem_of_get? hk, rfl⟩)⟩

theorem forall₂_mem_right {α β : Type} {R : α → β → Prop} {l : List α} {l' : List β} (h : List.Forall₂ R l l') {b : β}
    (hb : b ∈ l') : ∃ a ∈ l, R a b := by
  induction h with
  | nil => cases hb
  | cons hr _ ih =>
    rcases List.mem_cons.1 hb with rfl | hb
    · exact ⟨_, List.mem_cons_self, hr⟩
    · obtain ⟨a, ha, h⟩ := ih hb
      exact ⟨a, List.mem_cons_of_mem _ ha, h⟩

/-- Every message with Hyperlane yield that an index announcement dispatches belongs to a route with a
recipient, and goes to the domain that the query shows for that route (as soon as any yield has been credited
to it). -/
theorem C103_shown_is_destination {c : Cfg} (hc : c.WF) (env : Env) (client : String → Client) (vaa : Bytes) (i : Int)
    (chain : Nat) (s s' : State) (hr : Reachable c s) (hq : content env vaa = some (.index i chain))
    (he : exec c env (.deliver vaa) s = .ok () s')
    (hcol : s.seasonOneEnded = true → s.collector ≠ c.modAddr "warp")
    (h : ∀ e ∈ s'.extYield, PlainRoute e.1) (w : WarpOut) (hw : w ∈ dispatched s s') :
    ∃ l id recipient, queryStatsV2 c env client s' = some (s'.holders, s'.totalPrincipal, s'.totalYield, l) ∧
      tokenOf c id = some w.tokenId ∧ s.recipients.get? (1, id) = some recipient ∧
      c.hexAddr recipient = some w.recipient ∧
      (s'.extYieldOf 1 id ≠ 0 → ("HYPERLANE/" ++ id, toString w.domain, s'.extYieldOf 1 id) ∈ l) := by
  have hr' : Reachable c s' := by
    have es : step c env (.deliver vaa) s = s' := by unfold step runTx; rw [he]
    rw [← es]; exact hr.step trivial
  obtain ⟨l, h1, h2, _⟩ := statsV2_plain hr' env client h
  obtain ⟨_, k2, k3, _⟩ := C35_index_update hc env vaa i chain s s' hr hq he hcol
  have hy0 : 0 ≤ yieldAt s (c.modAddr "warp") i := by unfold yieldAt; split <;> omega
  have ht0 := hypTotal_nonneg (c := c) (s := s) (hr.led hc).good.col
  by_cases hpos : 0 < yieldAt s (c.modAddr "warp") i ∧ 0 < hypTotal c s
  · obtain ⟨id, _, f1, f2, ⟨r, f3, f4⟩, _⟩ := forall₂_mem_right (k2 hpos).2 hw
    refine ⟨l, id, r, h1, f1, f3, f4, fun hv => ?_⟩
    have hg : s'.extYield.get? (1, id) = some (s'.extYieldOf 1 id) := by
      unfold State.extYieldOf at hv ⊢
      cases e : s'.extYield.get? (1, id) with
      | none => rw [e] at hv; exact absurd rfl hv
      | some v => rfl
    refine h2.mem_iff.2 (List.mem_map.2 ⟨((1, id), s'.extYieldOf 1 id), KV.mem_of_get? hg, ?_⟩)
    show (recipientKey (1, id), hypChainId c env id, _) = _
    rw [hypChainId_of f1 f2]
    rfl
  · have := (k3 (by omega)).1
    rw [this] at hw; cases hw

/-- The demo chain's channel-0 leads to a chain with a Tendermint client. -/
def Demo.client : String → Client := fun ch => if ch = "channel-0" then .tendermint "remote-1" else .none

/-- Coins on two Hyperlane routes and on an IBC channel. -/
def Demo.histStats : History := Demo.histExt ++ [(Demo.env 8, .ibcTransfer Demo.alice "channel-0" "osmo1x" 1000000)]

theorem Demo.histStats_signed : History.Signed Demo.cfg Demo.histStats := by
  intro e he
  rcases List.mem_append.1 he with he | he
  · exact Demo.hist3_signed e he
  · cases List.mem_singleton.1 he; exact Demo.alice_user

/-- Non-vacuity: after the announcement the two Hyperlane routes are listed with domain 7, to which both messages went,
and the channel with the chain of its client. -/
example : Demo.cfg.WF ∧ Reachable Demo.cfg (run Demo.cfg Demo.histStats Demo.start) ∧
    (∀ e ∈ (step Demo.cfg (Demo.env 9) (.deliver [3]) (run Demo.cfg Demo.histStats Demo.start)).extYield, PlainRoute e.1) ∧
    (let s := run Demo.cfg Demo.histStats Demo.start;
      let s' := step Demo.cfg (Demo.env 9) (.deliver [3]) s;
      content (Demo.env 9) [3] = some (.index 1100000000000 4009) ∧ s.seasonOneEnded = false ∧
      (exec Demo.cfg (Demo.env 9) (.deliver [3]) s).isOk = true ∧
      (dispatched s s').map (fun w => (w.tokenId, w.domain)) = [(65, 7), (66, 7)] ∧
      (queryStatsV2 Demo.cfg (Demo.env 9) Demo.client s').map (fun x => x.2.2.2) =
        some [("HYPERLANE/A", "7", 199999), ("HYPERLANE/B", "7", 99999), ("IBC/channel-0", "remote-1", 100000)]) := by
  refine ⟨Demo.cfg_wf, .of_run Demo.start_initial Demo.histStats_signed, ?_, ?_⟩
  · show ∀ e ∈ (step _ _ _ _).extYield, (e.1.1 = 0 ∨ e.1.1 = 1) ∧ '/' ∉ e.1.2.toList
    decide +kernel
  decide +kernel

end Dollar
