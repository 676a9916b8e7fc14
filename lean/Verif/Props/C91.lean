import Verif.Props.C81

/-
C91: a chain that starts from the default genesis is a fresh chain in the sense of the other properties.
-/
set_option maxRecDepth 100000
namespace Dollar
open MM Spec

namespace Spec

/-- Before the module's genesis is imported nobody holds USDN, and nothing was bridged, posted or sent. -/
structure NothingYet (s : State) : Prop where
  module : s = blank s
  bal : s.bal = []
  supply : s.supply = 0
  posted : s.posted = []
  collateral : s.collateral = []
  ibcOut : s.ibcOut = []
  inflight : s.inflight = []
  vouchers : s.vouchers = []
  warpOut : s.warpOut = []

end Spec

/-- C91: the default genesis with any settings filled in (it has to be: the default collector is no address,
C39) is accepted exactly when the collector is an address and every route that is given a yield recipient has
a name that can be parsed. -/
theorem C91_accepted_iff (c : Cfg) (g : Genesis) (hg : SettingsEdited defaultGenesis g) (base : State) :
    (∃ s, initGenesis c g base = some s) ↔
      (∃ a, c.decode g.collector = some a) ∧ ∀ e ∈ g.recipients, ∃ k, parseRecipientKey e.1 = .ok k := by
  have e1 : g.principal = [] := (congrArg Genesis.principal hg :)
  have e2 : g.extYield = [] := (congrArg Genesis.extYield hg :)
  have e3 : g.retry = [] := (congrArg Genesis.retry hg :)
  have key : ∀ (l : List (String × String)) (m : KV (Int × String) String),
      (∃ m', foldPanic initRecipient m l = some m') ↔ ∀ e ∈ l, ∃ k, parseRecipientKey e.1 = .ok k := by
    intro l
    induction l with
    | nil => intro m; exact iff_of_true ⟨m, rfl⟩ (fun e he => nomatch he)
    | cons x t ih =>
      intro m
      rw [foldPanic]
      cases hk : parseRecipientKey x.1 with
      | ok k =>
        rw [show initRecipient m x = some (m.set k x.2) by unfold initRecipient; rw [hk]]
        dsimp only
        rw [ih]
        exact ⟨fun h e he => (List.mem_cons.1 he).elim (fun e' => e' ▸ ⟨k, hk⟩) (h e),
          fun h e he => h e (List.mem_cons_of_mem _ he)⟩
      | err =>
        rw [show initRecipient m x = none by unfold initRecipient; rw [hk]]
        refine iff_of_false (fun ⟨_, h⟩ => nomatch h) fun h => ?_
        obtain ⟨k, hk'⟩ := h x List.mem_cons_self
        rw [hk] at hk'; cases hk'
      | panic =>
        rw [show initRecipient m x = none by unfold initRecipient; rw [hk]]
        refine iff_of_false (fun ⟨_, h⟩ => nomatch h) fun h => ?_
        obtain ⟨k, hk'⟩ := h x List.mem_cons_self
        rw [hk] at hk'; cases hk'
  unfold initGenesis
  rw [e1, e2, e3, ← key g.recipients base.recipients]
  simp only [foldPanic]
  cases foldPanic initRecipient base.recipients g.recipients with
  | none => simp
  | some r =>
    cases c.decode g.collector with
    | none => simp
    | some a => simp

/-- C91: the chain it starts is a fresh chain: its index is 10^12, the module holds nothing and owes nothing, and
the settings are those of the file.  So every theorem that starts from a fresh chain applies. -/
theorem C91_fresh {c : Cfg} (g : Genesis) (hg : SettingsEdited defaultGenesis g) {base s : State}
    (hb : NothingYet base)
    (hcol : c.decode g.collector ≠ some (c.modAddr "dollar/yield") ∧
      c.decode g.collector ≠ some (c.modAddr "dollar"))
    (h : initGenesis c g base = some s) :
    Initial c s ∧ s.index = 10 ^ 12 ∧ s.nonce = 0 ∧
      s.paused = g.paused ∧ s.portalPaused = g.portalPaused ∧ s.vPaused = g.vPaused ∧ s.owner = g.owner ∧
      s.seasonOneEnded = g.seasonOneEnded ∧ c.decode g.collector = some s.collector := by
  have e1 : g.principal = [] := (congrArg Genesis.principal hg :)
  have e2 : g.extYield = [] := (congrArg Genesis.extYield hg :)
  have e3 : g.retry = [] := (congrArg Genesis.retry hg :)
  have e4 : g.positions = [] := (congrArg Genesis.positions hg :)
  have e5 : g.rewards = [] := (congrArg Genesis.rewards hg :)
  have e6 : g.index = 10 ^ 12 := (congrArg Genesis.index hg :)
  have e7 : g.holders = 0 := (congrArg Genesis.holders hg :)
  have e8 : g.totalPrincipal = 0 := (congrArg Genesis.totalPrincipal hg :)
  have e9 : g.totalYield = 0 := (congrArg Genesis.totalYield hg :)
  have e10 : g.nonce = 0 := (congrArg Genesis.nonce hg :)
  have e11 : g.vstats = ⟨0, 0, 0, 0, 0⟩ := (congrArg Genesis.vstats hg :)
  have e12 : g.totalFlexible = 0 := (congrArg Genesis.totalFlexible hg :)
  have b1 : base.principal = [] := (congrArg State.principal hb.module :)
  have b2 : base.extYield = [] := (congrArg State.extYield hb.module :)
  have b3 : base.retry = [] := (congrArg State.retry hb.module :)
  have b4 : base.positions = [] := (congrArg State.positions hb.module :)
  have b5 : base.rewards = [] := (congrArg State.rewards hb.module :)
  have b6 : base.recipients = [] := (congrArg State.recipients hb.module :)
  have b7 : base.peers = [] := (congrArg State.peers hb.module :)
  have b8 : base.paths = [] := (congrArg State.paths hb.module :)
  unfold initGenesis at h
  rw [e1, e2, e3, b1, b2, b3, b6] at h
  simp only [foldPanic] at h
  cases hr : foldPanic initRecipient [] g.recipients with
  | none => rw [hr] at h; cases h
  | some rec =>
    rw [hr] at h
    cases hd : c.decode g.collector with
    | none => rw [hd] at h; cases h
    | some col =>
      rw [hd] at h
      dsimp only at h
      rw [e4, e5, e6, e7, e8, e9, e10, e11, e12, b4, b5, b7, b8] at h
      injection h with h
      subst h
      refine ⟨⟨hb.bal, hb.supply, show (0 : Int) < 10 ^ 12 by decide, rfl, rfl, rfl, rfl, rfl, rfl, rfl, rfl, rfl, rfl, hb.posted,
        hb.collateral, hb.ibcOut, hb.inflight, hb.vouchers, hb.warpOut, show 0 < 2 ^ 32 by decide, ?_, ?_, ?_, ?_, ?_⟩, rfl, rfl, rfl, rfl, rfl, rfl,
        rfl, rfl⟩
      · exact foldPanic_sorted KV.sorted_nil hr
      · exact foldl_set_keeps Prod.fst Prod.snd _ KV.sorted_nil
      · exact foldl_set_keeps id (fun _ => true) _ KV.sorted_nil
      · intro e
        exact hcol.1 (by rw [hd]; exact congrArg some e)
      · intro e
        exact hcol.2 (by rw [hd]; exact congrArg some e)

/-- Entries written one after the other, none contradicting another, are all there. -/
theorem foldl_set_get {K V E : Type} [DecidableEq K] [KeyOrd K] (f : E → K) (g : E → V) (l : List E)
    (hl : ∀ e ∈ l, ∀ e' ∈ l, f e = f e' → g e = g e') (m : KV K V) (k : K) (v : V) :
    (l.foldl (fun m e => m.set (f e) (g e)) m).get? k = some v ↔
      (∃ e ∈ l, f e = k ∧ g e = v) ∨ ((∀ e ∈ l, f e ≠ k) ∧ m.get? k = some v) := by
  induction l generalizing m with
  | nil => simp
  | cons x t ih =>
    rw [List.foldl_cons, ih fun e he e' he' => hl e (List.mem_cons_of_mem _ he) e' (List.mem_cons_of_mem _ he')]
    by_cases hx : f x = k
    · subst hx
      rw [KV.get?_set_self]
      constructor
      · rintro (⟨e, he, h1, h2⟩ | ⟨_, h⟩)
        · exact .inl ⟨e, List.mem_cons_of_mem _ he, h1, h2⟩
        · exact .inl ⟨x, List.mem_cons_self, rfl, Option.some.inj h⟩
      · rintro (⟨e, he, h1, h2⟩ | ⟨h, _⟩)
        · by_cases ht : ∀ e ∈ t, f e ≠ f x
          · refine .inr ⟨ht, ?_⟩
            rw [← h2, hl x List.mem_cons_self e he h1.symm]
          · push Not at ht
            obtain ⟨e', he', h'⟩ := ht
            exact .inl ⟨e', he', h', (hl e' (List.mem_cons_of_mem _ he') e he (h'.trans h1.symm)).trans h2⟩
        · exact absurd rfl (h x List.mem_cons_self)
    · rw [KV.get?_set_ne _ _ (Ne.symm hx)]
      constructor
      · rintro (⟨e, he, h1, h2⟩ | ⟨h, h'⟩)
        · exact .inl ⟨e, List.mem_cons_of_mem _ he, h1, h2⟩
        · exact .inr ⟨fun e he => (List.mem_cons.1 he).elim (fun q => q ▸ hx) (h e), h'⟩
      · rintro (⟨e, he, h1, h2⟩ | ⟨h, h'⟩)
        · rcases List.mem_cons.1 he with rfl | he
          · exact absurd h1 hx
          · exact .inl ⟨e, he, h1, h2⟩
        · exact .inr ⟨fun e he => h e (List.mem_cons_of_mem _ he), h'⟩

/-- The key of an entry that can be parsed. -/
theorem initRecipients_eq {l : List (String × String)} {m r : KV (Int × String) String}
    (h : foldPanic initRecipient m l = some r) (key : String → Int × String)
    (hk : ∀ e ∈ l, parseRecipientKey e.1 = .ok (key e.1)) : r = l.foldl (fun m e => m.set (key e.1) e.2) m := by
  induction l generalizing m with
  | nil => exact (Option.some.inj h).symm
  | cons x t ih =>
    rw [foldPanic, show initRecipient m x = some (m.set (key x.1) x.2) by
      unfold initRecipient; rw [hk x List.mem_cons_self]] at h
    exact ih h fun e he => hk e (List.mem_cons_of_mem _ he)

/-- C91: the peers, bridging paths and yield recipients of the chain it starts are exactly those of the file, provided
the file does not contradict itself. -/
theorem C91_maps {c : Cfg} (g : Genesis) {base s : State} (hb : NothingYet base) (h : initGenesis c g base = some s)
    (hp : (g.peers.map Prod.fst).Nodup)
    (hr : ∀ e ∈ g.recipients, ∀ e' ∈ g.recipients, parseRecipientKey e.1 = parseRecipientKey e'.1 → e.2 = e'.2) :
    (∀ chain peer, s.peers.get? chain = some peer ↔ (chain, peer) ∈ g.peers) ∧
    (∀ path b, s.paths.get? path = some b ↔ path ∈ g.paths ∧ b = true) ∧
    (∀ k r, s.recipients.get? k = some r ↔ ∃ name, (name, r) ∈ g.recipients ∧ parseRecipientKey name = .ok k) := by
  have b6 : base.recipients = [] := (congrArg State.recipients hb.module :)
  have b7 : base.peers = [] := (congrArg State.peers hb.module :)
  have b8 : base.paths = [] := (congrArg State.paths hb.module :)
  unfold initGenesis at h
  cases h1 : foldPanic (initPrincipal c) base.principal g.principal with
  | none => rw [h1] at h; cases h
  | some x1 =>
  rw [h1] at h
  cases h2 : foldPanic initAmount base.extYield g.extYield with
  | none => rw [h2] at h; cases h
  | some x2 =>
  rw [h2] at h
  cases h3 : foldPanic initRecipient base.recipients g.recipients with
  | none => rw [h3] at h; cases h
  | some x3 =>
  rw [h3] at h
  cases h4 : foldPanic initAmount base.retry g.retry with
  | none => rw [h4] at h; cases h
  | some x4 =>
  rw [h4] at h
  cases h5 : c.decode g.collector with
  | none => rw [h5] at h; cases h
  | some x5 =>
  rw [h5] at h
  injection h with h
  subst h
  refine ⟨fun chain peer => ?_, fun path b => ?_, fun k r => ?_⟩
  · show (g.peers.foldl (fun m e => m.set e.1 e.2) base.peers).get? chain = some peer ↔ _
    rw [b7, foldl_set_get Prod.fst Prod.snd]
    · constructor
      · rintro (⟨e, he, rfl, rfl⟩ | ⟨_, h⟩)
        · exact he
        · cases h
      · exact fun h => .inl ⟨_, h, rfl, rfl⟩
    · intro e he e' he' hee
      exact congrArg Prod.snd (List.inj_on_of_nodup_map hp he he' hee)
  · show (g.paths.foldl (fun m e => m.set e true) base.paths).get? path = some b ↔ _
    rw [b8]
    have key := foldl_set_get (id : Nat × Bytes → Nat × Bytes) (fun _ => true) g.paths (by intros; rfl) [] path b
    refine Iff.trans key ?_
    · constructor
      · rintro (⟨e, he, rfl, rfl⟩ | ⟨_, h⟩)
        · exact ⟨he, rfl⟩
        · cases h
      · rintro ⟨h, rfl⟩
        exact .inl ⟨_, h, rfl, rfl⟩
  · show x3.get? k = some r ↔ _
    have hok : ∀ e ∈ g.recipients, ∃ k, parseRecipientKey e.1 = .ok k := by
      clear hr h1 h2 h4 h5 b6 b7 b8
      generalize base.recipients = m at h3
      generalize g.recipients = l at h3
      induction l generalizing m with
      | nil => exact fun e he => nomatch he
      | cons x t ih =>
        rw [foldPanic] at h3
        cases hk : parseRecipientKey x.1 with
        | ok k =>
          rw [show initRecipient m x = some (m.set k x.2) by unfold initRecipient; rw [hk]] at h3
          exact fun e he => (List.mem_cons.1 he).elim (fun e' => e' ▸ ⟨k, hk⟩) (ih _ h3 e)
        | err => rw [show initRecipient m x = none by unfold initRecipient; rw [hk]] at h3; cases h3
        | panic => rw [show initRecipient m x = none by unfold initRecipient; rw [hk]] at h3; cases h3
    let key : String → Int × String := fun n => match parseRecipientKey n with
      | .ok k => k
      | _ => (0, "")
    have hkey : ∀ e ∈ g.recipients, parseRecipientKey e.1 = .ok (key e.1) := by
      intro e he
      obtain ⟨k, hk⟩ := hok e he
      show _ = PRes.ok (match parseRecipientKey e.1 with | .ok k => k | _ => (0, ""))
      rw [hk]
    rw [initRecipients_eq h3 key hkey, b6, foldl_set_get (fun e : String × String => key e.1) Prod.snd]
    · constructor
      · rintro (⟨e, he, rfl, rfl⟩ | ⟨_, h⟩)
        · exact ⟨e.1, he, hkey e he⟩
        · cases h
      · rintro ⟨name, h, hk⟩
        refine .inl ⟨_, h, ?_, rfl⟩
        have := hkey _ h
        rw [hk] at this
        cases this
        rfl
    · intro e he e' he' hee
      exact hr e he e' he' (by rw [hkey e he, hkey e' he', hee])

/-- The genesis file of the demo chain: the default one with owner, collector, a peer, a bridging path and a
yield recipient. -/
def Demo.genesis : Genesis := { defaultGenesis with
  owner := "owner", collector := Demo.cfg.encode Demo.collector,
  recipients := [(recipientKey (0, "channel-0"), "noble1remote")],
  peers := [(2, ⟨List.replicate 32 5, List.replicate 32 6⟩)], paths := [(2, List.replicate 32 8)] }

theorem Demo.genesis_start : initGenesis Demo.cfg Demo.genesis (blank Demo.start) = some Demo.start := by
  decide +kernel

example : SettingsEdited defaultGenesis Demo.genesis ∧ NothingYet (blank Demo.start) ∧
    Demo.cfg.decode Demo.genesis.collector = some Demo.collector ∧ Initial Demo.cfg Demo.start :=
  have hb : NothingYet (blank Demo.start) := ⟨rfl, rfl, rfl, rfl, rfl, rfl, rfl, rfl, rfl⟩
  ⟨rfl, hb, by decide +kernel, (C91_fresh Demo.genesis rfl hb (by decide +kernel) Demo.genesis_start).1⟩

/-- Its file has a peer, a path and a recipient, and does not contradict itself. -/
example : (Demo.genesis.peers.map Prod.fst).Nodup ∧ Demo.genesis.peers ≠ [] ∧ Demo.genesis.paths ≠ [] ∧
    Demo.genesis.recipients ≠ [] ∧
    ∀ e ∈ Demo.genesis.recipients, ∀ e' ∈ Demo.genesis.recipients, e.2 = e'.2 := by decide +kernel

end Dollar
