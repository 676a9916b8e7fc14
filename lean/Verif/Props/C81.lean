import Verif.Lemmas.Frozen
import Verif.Props.C22
import Verif.Props.C39
import Verif.Props.C72
import Verif.Props.C78

/-
C81: a restart from an exported genesis with edited settings, and the end of season one.
-/
set_option maxRecDepth 100000
namespace Dollar
open MM Spec

/-- `g'` is `g` with other settings: pause flags, owner, peers, bridging paths, yield recipients, season
flag and yield collector.  Index, accounts, statistics, amounts, nonce, positions and reward records are
as in `g`. -/
def Spec.SettingsEdited (g g' : Genesis) : Prop :=
  g' = { g with
    paused := g'.paused, recipients := g'.recipients, owner := g'.owner, portalPaused := g'.portalPaused,
    peers := g'.peers, paths := g'.paths, vPaused := g'.vPaused, seasonOneEnded := g'.seasonOneEnded,
    collector := g'.collector }

/-- What the export of the amounts needs (C39): accounts survive encoding, routes with amounts have plain
names. -/
structure Spec.AmountsExportable (c : Cfg) (s : State) : Prop where
  accounts : ∀ e ∈ s.principal, c.decode (c.encode e.1) = some e.1
  extYield : ∀ e ∈ s.extYield, PlainRoute e.1
  retry : ∀ e ∈ s.retry, PlainRoute e.1

theorem foldPanic_sorted {l : List (String × String)} {m m' : KV (Int × String) String} (hm : m.Sorted)
    (h : foldPanic initRecipient m l = some m') : m'.Sorted := by
  induction l generalizing m with
  | nil => cases h; exact hm
  | cons e t ih =>
    unfold foldPanic at h
    split at h
    · cases h
    · next b hb =>
      refine ih ?_ h
      unfold initRecipient at hb
      split at hb
      · cases hb; exact KV.sorted_set _ _ hm
      · cases hb

theorem foldl_set_keeps {K V A : Type} [DecidableEq K] [KeyOrd K] [LawfulKeyOrd K] (f : A → K) (g : A → V)
    (l : List A) {m : KV K V} (hm : m.Sorted) : (l.foldl (fun m e => m.set (f e) (g e)) m).Sorted := by
  induction l generalizing m with
  | nil => exact hm
  | cons e t ih => exact ih (KV.sorted_set _ _ hm)

/-- C81: the chain is stopped in a reachable state, its genesis is exported, settings in it are edited in
any way, and the chain is restarted from it.  If the import accepts the file, the new state has the old
amounts and only settings differ; it is a reachable state, so every theorem about reachable states, and
about what follows them, holds of it.  (The collector must not be one of the two accounts that may not
receive USDN from holders.) -/
theorem C81_restart {c : Cfg} (hc : c.WF) {s : State} (h : Reachable c s) (he : AmountsExportable c s)
    (g g' : Genesis) (hg : Reordered (exportGenesis c s) g) (hg' : SettingsEdited g g')
    (hcol : c.decode g'.collector ≠ some (c.modAddr "dollar/yield") ∧
      c.decode g'.collector ≠ some (c.modAddr "dollar"))
    (s' : State) (hi : initGenesis c g' (blank s) = some s') :
    s' = { s with
      paused := g'.paused, recipients := s'.recipients, owner := g'.owner, portalPaused := g'.portalPaused,
      peers := s'.peers, paths := s'.paths, vPaused := g'.vPaused, seasonOneEnded := g'.seasonOneEnded,
      collector := s'.collector } ∧
    c.decode g'.collector = some s'.collector ∧ Reachable c s' := by
  have hs := h.shape
  have hk := h.selfKeyed hc
  obtain ⟨h1, h2, h3, h4, h5, h6⟩ := hg
  unfold SettingsEdited at hg'
  have k1 : foldPanic (initPrincipal c) (blank s).principal g.principal = some s.principal :=
    initPrincipal_export hs.principal he.accounts h1
  have k2 : foldPanic initAmount (blank s).extYield g.extYield = some s.extYield :=
    initAmount_export hs.extYield he.extYield h2
  have k4 : foldPanic initAmount (blank s).retry g.retry = some s.retry :=
    initAmount_export hs.retry he.retry h4
  have k7 : (exportGenesis c s).positions.foldl initPosition (blank s).positions = s.positions :=
    (foldl_positions hk.positions).trans (rebuild hs.positions)
  have k8 : (exportGenesis c s).rewards.foldl (fun m r => m.set r.index r) (blank s).rewards =
      s.rewards := (foldl_rewards hk.rewards).trans (rebuild hs.rewards)
  have q1 : g'.principal = g.principal := (congrArg Genesis.principal hg' :)
  have q2 : g'.extYield = g.extYield := (congrArg Genesis.extYield hg' :)
  have q3 : g'.retry = g.retry := (congrArg Genesis.retry hg' :)
  have q4 : g'.positions = (exportGenesis c s).positions :=
    (congrArg Genesis.positions hg' :).trans (congrArg Genesis.positions h6 :)
  have q5 : g'.rewards = (exportGenesis c s).rewards :=
    (congrArg Genesis.rewards hg' :).trans (congrArg Genesis.rewards h6 :)
  have q6 : g'.index = s.index := (congrArg Genesis.index hg' :).trans (congrArg Genesis.index h6 :)
  have q7 : g'.holders = s.holders := (congrArg Genesis.holders hg' :).trans (congrArg Genesis.holders h6 :)
  have q8 : g'.totalPrincipal = s.totalPrincipal :=
    (congrArg Genesis.totalPrincipal hg' :).trans (congrArg Genesis.totalPrincipal h6 :)
  have q9 : g'.totalYield = s.totalYield :=
    (congrArg Genesis.totalYield hg' :).trans (congrArg Genesis.totalYield h6 :)
  have q10 : g'.nonce = s.nonce := (congrArg Genesis.nonce hg' :).trans (congrArg Genesis.nonce h6 :)
  have q11 : g'.vstats = s.vstats := (congrArg Genesis.vstats hg' :).trans (congrArg Genesis.vstats h6 :)
  have q12 : g'.totalFlexible = s.totalFlexible :=
    (congrArg Genesis.totalFlexible hg' :).trans (congrArg Genesis.totalFlexible h6 :)
  unfold initGenesis at hi
  rw [q1, q2, q3, k1, k2, k4] at hi
  dsimp only at hi
  cases hr : foldPanic initRecipient (blank s).recipients g'.recipients with
  | none => rw [hr] at hi; cases hi
  | some rec =>
    rw [hr] at hi
    dsimp only at hi
    cases hd : c.decode g'.collector with
    | none => rw [hd] at hi; cases hi
    | some col =>
      rw [hd] at hi
      dsimp only at hi
      rw [q4, q5, q6, q7, q8, q9, q10, q11, q12, k7, k8] at hi
      injection hi with hi
      subst hi
      refine ⟨rfl, rfl, h.upgrade ⟨⟨_, _, _, _, _, _, _, _, _, rfl⟩, ?_, ?_, ?_, ?_, ?_⟩⟩
      · exact foldPanic_sorted KV.sorted_nil hr
      · exact foldl_set_keeps Prod.fst Prod.snd _ KV.sorted_nil
      · exact foldl_set_keeps id (fun _ => true) _ KV.sorted_nil
      · intro e
        exact hcol.1 (by rw [hd]; exact congrArg some e)
      · intro e
        exact hcol.2 (by rw [hd]; exact congrArg some e)

/-- C81: no message of any kind, by anyone, starts or ends a season; only a restart does. -/
theorem C81_flag_fixed {c : Cfg} (h : History) (s : State) : (run c h s).seasonOneEnded = s.seasonOneEnded := by
  induction h generalizing s with
  | nil => rfl
  | cons e t ih => exact (ih _).trans (season_step e.1 e.2 s)

theorem frozen_run {c : Cfg} (hc : c.WF) {s : State} (hr : Reachable c s) (hs : s.seasonOneEnded = true)
    (h : History) (hsig : h.Signed c) : Frozen s (run c h s) := by
  induction h generalizing s with
  | nil => exact .refl _
  | cons e t ih =>
    exact (Frozen.step hc (hr.led hc) hs).trans
      (ih (hr.step (hsig e List.mem_cons_self)) ((season_step e.1 e.2 s).trans hs)
        fun e' he => hsig e' (List.mem_cons_of_mem _ he))

/-- C81: after season one has ended its books stand still: whatever is done, flexible positions are
neither made nor changed nor removed, and neither the reward records nor the total of the flexible
vault change. -/
theorem C81_books_frozen {c : Cfg} (hc : c.WF) {s : State} (hr : Reachable c s) (hs : s.seasonOneEnded = true)
    (h : History) (hsig : h.Signed c) :
    (∀ user time, (run c h s).positions.get? (user, 2, time) = s.positions.get? (user, 2, time)) ∧
    (run c h s).rewards = s.rewards ∧ (run c h s).totalFlexible = s.totalFlexible :=
  have hf := frozen_run hc hr hs h hsig
  ⟨fun user time => hf.positions (user, 2, time) rfl, hf.rewards, hf.total⟩

/-- C81: a flexible position that is still there when the flag is set is not lost but cannot be taken out
by any message: it stays as it is, its account keeps holding the full amount, and every Unlock from the
flexible vault is refused, by anyone and for any amount. -/
theorem C81_stuck {c : Cfg} (hc : c.WF) {s : State} (hr : Reachable c s) (hs : s.seasonOneEnded = true)
    (user : Addr) (time : Int) (p : Position) (hp : ((user, 2, time), p) ∈ s.positions)
    (h : History) (hsig : h.Signed c) :
    ((user, 2, time), p) ∈ (run c h s).positions ∧
    p.amount ≤ (run c h s).balance (vaultAccount c user 2 time) ∧
    ∀ env signer amount, exec c env (.unlock signer 2 amount) (run c h s) = .err .actionPaused (run c h s) := by
  have hf := frozen_run hc hr hs h hsig
  have hp' : ((user, 2, time), p) ∈ (run c h s).positions :=
    KV.mem_of_get? ((hf.positions (user, 2, time) rfl).trans (KV.get?_of_mem (hr.vinv hc).sorted hp))
  refine ⟨hp', (C23_flexible_positions_backed hc _ (hr.run hsig) user time p hp').1, fun env signer amount => ?_⟩
  have hs' := (C81_flag_fixed (c := c) h s).trans hs
  show unlock c signer 2 amount (run c h s) = _
  unfold unlock
  simp only [bind_apply, get_apply]
  rw [if_pos ⟨rfl, hs'⟩]
  rfl

/-- C81: a proper end of season one.  The routine that ends it runs in an open vault whose yield account
holds the yield of the flexible positions; then the chain is restarted with the flag set.  The state is
reachable, every user has got at least what they had locked, and nothing is locked in the flexible
vault then or after any later history. -/
theorem C81_season_end {c : Cfg} (hc : c.WF) (s : State) (h : ReachableSmall c s)
    (hopen : s.seasonOneEnded = false ∧ s.vPaused = 0)
    (hdec : ∀ x a, c.decode x = some a → c.decode (c.encode a) = some a)
    (hbl : ∀ a t, c.blocked (vaultAccount c a 2 t) = false)
    (hy : (s.positions.map fun e => if e.1.2.1 = 2 then
        yieldAt s (vaultAccount c e.1.1 2 e.1.2.2) s.index else 0).sum ≤ s.balance (c.modAddr "dollar/yield"))
    (env : Env) :
    ∃ s1, endVaultsSeasonOne c s = .ok () s1 ∧ Reachable c s1 ∧
      (∀ user, c.IsUser user → s.balance user + lockedBy s user 2 ≤ s1.balance user) ∧
      ∀ s2, Upgrade c s1 s2 → s2.seasonOneEnded = true → ∀ h : History, h.Signed c →
        ∀ user time p, ((user, 2, time), p) ∈ (run c h s2).positions → p.amount = 0 := by
  obtain ⟨s1, r1, r2, r3, _, _, _, _, _, r9⟩ := C78_sweep hc s h hdec hbl hy
  obtain ⟨t, _, t1, t2⟩ := r9 hopen.1 hopen.2 env
  have hr1 : Reachable c s1 := t2 ▸ h.reachable.run t1
  refine ⟨s1, r1, hr1, r3, fun s2 hu hs2 t ht user time p hp => ?_⟩
  have hr2 := hr1.upgrade hu
  have hf := frozen_run hc hr2 hs2 t ht
  have hg := KV.get?_of_mem ((hr2.run ht).vinv hc).sorted hp
  rw [hf.positions (user, 2, time) rfl] at hg
  have hm := KV.mem_of_get? hg
  have e : s2.positions = s1.positions := by
    obtain ⟨_, _, _, _, _, _, _, _, _, rfl⟩ := hu.rest
    rfl
  rw [e] at hm
  have hz := r2 user
  have hv := (hr1.vinv hc).toV0
  have hle := List.single_le_sum (l := s1.positions.map fun e =>
    if e.1.1 = user ∧ e.1.2.1 = 2 then e.2.amount else 0) (fun x hx => by
      obtain ⟨q, hq, rfl⟩ := List.mem_map.1 hx
      split
      · exact (hv.entry q hq).amount
      · exact le_refl _) _ (List.mem_map.2 ⟨_, hm, rfl⟩)
  rw [if_pos ⟨rfl, rfl⟩] at hle
  have h0 : 0 ≤ p.amount := (hv.entry _ hm).amount
  unfold lockedBy at hz
  rw [hz] at hle
  exact le_antisymm hle h0

/-! ### Non-vacuity -/

/-- The demo chain with the season flag set (and without the unsupported bridging paths, C39). -/
def Demo.restarted : State :=
  { supportedOnly (run Demo.cfg Demo.hist1 Demo.start) with seasonOneEnded := true }

theorem Demo.exportable1 : Exportable Demo.cfg (run Demo.cfg Demo.hist1 Demo.start) :=
  ⟨by decide +kernel, by decide +kernel, by decide +kernel, by decide +kernel, by decide +kernel⟩

theorem initGenesis_season (c : Cfg) (g : Genesis) (base : State) (b : Bool) :
    initGenesis c { g with seasonOneEnded := b } base =
      (initGenesis c g base).map fun s => { s with seasonOneEnded := b } := by
  unfold initGenesis
  dsimp only
  repeat' (split <;> try rfl)

/-- The settings may be edited in particular by setting the season flag. -/
theorem restart_season {c : Cfg} (hc : c.WF) {s : State} (h : Reachable c s) (he : Exportable c s) :
    initGenesis c { exportGenesis c s with seasonOneEnded := true } (blank s) =
      some { supportedOnly s with seasonOneEnded := true } := by
  rw [initGenesis_season, C39_roundtrip c hc s h he _
    ⟨List.Perm.refl _, List.Perm.refl _, List.Perm.refl _, List.Perm.refl _, List.Perm.refl _, rfl⟩]
  rfl

theorem restart_season_reachable {c : Cfg} (hc : c.WF) {s : State} (h : Reachable c s) (he : Exportable c s)
    (hcol : s.collector ≠ c.modAddr "dollar/yield" ∧ s.collector ≠ c.modAddr "dollar") :
    Reachable c { supportedOnly s with seasonOneEnded := true } := by
  refine (C81_restart hc h ⟨he.accounts, he.extYield, he.retry⟩ _ { exportGenesis c s with seasonOneEnded := true }
    ⟨List.Perm.refl _, List.Perm.refl _, List.Perm.refl _, List.Perm.refl _, List.Perm.refl _, rfl⟩ rfl
    ?_ _ (restart_season hc h he)).2.2
  have e : c.decode ({ exportGenesis c s with seasonOneEnded := true } : Genesis).collector = some s.collector :=
    he.collector
  rw [e]
  exact ⟨fun h => hcol.1 (Option.some.inj h), fun h => hcol.2 (Option.some.inj h)⟩

/-- The demo chain is restarted with the flag set; Alice's flexible position is in place, and stuck. -/
example : Reachable Demo.cfg Demo.restarted ∧ Demo.restarted.seasonOneEnded = true ∧
    lockedBy Demo.restarted Demo.alice 2 = 2000000 ∧
    Demo.restarted.supply = (run Demo.cfg Demo.hist1 Demo.start).supply ∧
    (exec Demo.cfg (Demo.env 8) (.unlock Demo.aliceS 2 (some 2000000)) Demo.restarted).isOk = false ∧
    (exec Demo.cfg (Demo.env 8) (.unlock Demo.aliceS 1 (some 3000000)) Demo.restarted).isOk = true ∧
    (exec Demo.cfg (Demo.env 8) (.unlock Demo.aliceS 2 (some 2000000))
      (run Demo.cfg Demo.hist1 Demo.start)).isOk = true :=
  ⟨restart_season_reachable Demo.cfg_wf Demo.reach1 Demo.exportable1 (by decide +kernel), by decide +kernel⟩

/-- The routine that ends season one, run on the demo chain, leads to a reachable state. -/
example : ∃ s1, endVaultsSeasonOne Demo.cfg (run Demo.cfg Demo.hist1 Demo.start) = .ok () s1 ∧
    Reachable Demo.cfg s1 := by
  obtain ⟨s1, h1, h2, _⟩ := C81_season_end Demo.cfg_wf _ Demo.small1 (by decide +kernel)
    Demo.decode_encode
    (fun a t => by
      have h1 : vaultAccount Demo.cfg a 2 t ≠ Demo.cfg.moduleAddr := by
        have := flexAcct_ne_module Demo.cfg_wf a t
        unfold vaultAccount; rw [if_pos rfl]; exact this
      exact decide_eq_false h1) (by decide +kernel) (Demo.env 8)
  exact ⟨s1, h1, h2⟩

end Dollar
