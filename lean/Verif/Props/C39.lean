import Verif.Props.C40
import Verif.Lemmas.Genesis
import Verif.Lemmas.VInv2

/-
C39: exporting a state and importing it again gives the same state.
-/
set_option maxRecDepth 100000
namespace Dollar
open MM Spec

/-- A chain on which the module's stores are empty; the rest of the chain is that of `s`. -/
def Spec.blank (s : State) : State :=
  { s with
    paused := false, index := 0, principal := [], holders := 0, totalPrincipal := 0,
    totalYield := 0, extYield := [], recipients := [], retry := [], owner := "",
    portalPaused := false, peers := [], paths := [], nonce := 0, vPaused := 0,
    seasonOneEnded := false, collector := [], positions := [], totalFlexible := 0, rewards := [],
    vstats := ⟨0, 0, 0, 0, 0⟩ }

/-- `s` without the bridging paths that are marked unsupported. -/
def Spec.supportedOnly (s : State) : State := { s with paths := s.paths.filter fun e => e.2 }

/-- A route that has a printable name: a known provider and no slash in the identifier. -/
def Spec.PlainRoute (k : Int × String) : Prop := (k.1 = 0 ∨ k.1 = 1) ∧ '/' ∉ k.2.toList

/-- What the export needs: accounts survive encoding, routes are plain. -/
structure Spec.Exportable (c : Cfg) (s : State) : Prop where
  accounts : ∀ e ∈ s.principal, c.decode (c.encode e.1) = some e.1
  collector : c.decode (c.encode s.collector) = some s.collector
  extYield : ∀ e ∈ s.extYield, PlainRoute e.1
  recipients : ∀ e ∈ s.recipients, PlainRoute e.1
  retry : ∀ e ∈ s.retry, PlainRoute e.1

/-- What the stores of the vaults satisfy in every reachable state: records are stored under their
own index and time. -/
structure Spec.SelfKeyed (s : State) : Prop where
  positions : ∀ e ∈ s.positions, e.2.time = e.1.2.2
  rewards : ∀ e ∈ s.rewards, e.2.index = e.1

theorem Reachable.selfKeyed {c : Cfg} (hc : c.WF) {s : State} (h : Reachable c s) : SelfKeyed s where
  positions := fun e he => ((h.vinv hc).entry e he).time
  rewards := fun e he => ((h.vinv hc).rew e he).1

section
variable {V : Type}

theorem keys_noCollision {m : KV (Int × String) V} (hm : m.Sorted) (hp : ∀ e ∈ m, PlainRoute e.1)
    (f : V → String) :
    (m.map fun e => (recipientKey e.1, f e.2)).Pairwise fun e e' =>
      ∀ k, parseRecipientKey e.1 = .ok k → parseRecipientKey e'.1 ≠ .ok k := by
  rw [List.pairwise_map]
  refine List.Pairwise.imp_of_mem ?_ (KV.nodup_keys hm |> List.pairwise_map.1)
  intro a b ha hb hab k h1 h2
  simp only at h1 h2
  rw [parse_recipientKey (hp a ha).1 (hp a ha).2] at h1
  rw [parse_recipientKey (hp b hb).1 (hp b hb).2] at h2
  cases h1
  injection h2 with h2
  exact hab h2.symm

theorem keys_nodup {m : KV (Int × String) V} (hm : m.Sorted) (hp : ∀ e ∈ m, PlainRoute e.1)
    (f : V → String) : ((m.map fun e => (recipientKey e.1, f e.2)).map Prod.fst).Nodup := by
  rw [List.Nodup, List.pairwise_map]
  refine List.Pairwise.imp_of_mem ?_ (keys_noCollision hm hp f)
  intro a b ha _ hab e
  obtain ⟨x, hx, rfl⟩ := List.mem_map.1 ha
  have h1 := parse_recipientKey (hp x hx).1 (hp x hx).2
  exact hab _ h1 (by rw [← e]; exact h1)

end

theorem accounts_noCollision {c : Cfg} {m : KV Addr Int} (hm : m.Sorted)
    (hp : ∀ e ∈ m, c.decode (c.encode e.1) = some e.1) :
    (m.map fun e => (c.encode e.1, toString e.2)).Pairwise fun e e' =>
      ∀ a, c.decode e.1 = some a → c.decode e'.1 ≠ some a := by
  rw [List.pairwise_map]
  refine List.Pairwise.imp_of_mem ?_ (KV.nodup_keys hm |> List.pairwise_map.1)
  intro a b ha hb hab k h1 h2
  simp only at h1 h2
  rw [hp a ha] at h1
  rw [hp b hb] at h2
  cases h1
  injection h2 with h2
  exact hab h2.symm

theorem accounts_nodup {c : Cfg} {m : KV Addr Int} (hm : m.Sorted)
    (hp : ∀ e ∈ m, c.decode (c.encode e.1) = some e.1) :
    ((m.map fun e => (c.encode e.1, toString e.2)).map Prod.fst).Nodup := by
  rw [List.Nodup, List.pairwise_map]
  refine List.Pairwise.imp_of_mem ?_ (accounts_noCollision hm hp)
  intro a b ha _ hab e
  obtain ⟨x, hx, rfl⟩ := List.mem_map.1 ha
  exact hab _ (hp x hx) (by rw [← e]; exact hp x hx)

theorem initPrincipal_export {c : Cfg} {m : KV Addr Int} (hm : m.Sorted)
    (hp : ∀ e ∈ m, c.decode (c.encode e.1) = some e.1) {l : List (String × String)}
    (hl : (goMap (m.map fun e => (c.encode e.1, toString e.2))).Perm l) :
    foldPanic (initPrincipal c) [] l = some m := by
  have h1 := (goMap_perm _ (accounts_nodup hm hp)).symm.trans hl
  rw [← initPrincipal_perm c h1 (accounts_noCollision hm hp) KV.sorted_nil,
    foldPanic_map (u := fun m e => m.set e.1 e.2), rebuild hm]
  intro b a ha
  unfold initPrincipal
  simp only [hp a ha, intOfString_toString]

theorem initAmount_export {m : KV (Int × String) Int} (hm : m.Sorted)
    (hp : ∀ e ∈ m, PlainRoute e.1) {l : List (String × String)}
    (hl : (goMap (m.map fun e => (recipientKey e.1, toString e.2))).Perm l) :
    foldPanic initAmount [] l = some m := by
  have h1 := (goMap_perm _ (keys_nodup hm hp _)).symm.trans hl
  rw [← initAmount_perm h1 (keys_noCollision hm hp _) KV.sorted_nil,
    foldPanic_map (u := fun m e => m.set e.1 e.2), rebuild hm]
  intro b a ha
  unfold initAmount
  simp only [parse_recipientKey (hp a ha).1 (hp a ha).2, intOfString_toString]

theorem initRecipient_export {m : KV (Int × String) String} (hm : m.Sorted)
    (hp : ∀ e ∈ m, PlainRoute e.1) {l : List (String × String)}
    (hl : (goMap (m.map fun e => (recipientKey e.1, e.2))).Perm l) :
    foldPanic initRecipient [] l = some m := by
  have h1 := (goMap_perm _ (keys_nodup hm hp id)).symm.trans hl
  rw [← initRecipient_perm h1 (keys_noCollision hm hp id) KV.sorted_nil,
    foldPanic_map (u := fun m e => m.set e.1 e.2), rebuild hm]
  intro b a ha
  unfold initRecipient
  simp only [parse_recipientKey (hp a ha).1 (hp a ha).2, id]

theorem foldl_positions {m acc : KV (Addr × Int × Int) Position} (h : ∀ e ∈ m, e.2.time = e.1.2.2) :
    (m.map fun e => (⟨e.1.1, e.1.2.1, e.2.principal, e.2.index, e.2.amount, e.2.time⟩ : PosEntry)).foldl
      initPosition acc = m.foldl (fun acc e => acc.set e.1 e.2) acc := by
  induction m generalizing acc with
  | nil => rfl
  | cons e t ih =>
    simp only [List.map_cons, List.foldl_cons]
    rw [ih fun x hx => h x (List.mem_cons_of_mem _ hx)]
    congr 1
    unfold initPosition
    simp only [h e List.mem_cons_self]
    obtain ⟨⟨a, v, t⟩, p⟩ := e
    have : p.time = t := h _ List.mem_cons_self
    subst this
    rfl

theorem foldl_rewards {m acc : KV Int Reward} (h : ∀ e ∈ m, e.2.index = e.1) :
    (m.map Prod.snd).foldl (fun m r => KV.set m r.index r) acc =
      m.foldl (fun acc e => acc.set e.1 e.2) acc := by
  induction m generalizing acc with
  | nil => rfl
  | cons e t ih =>
    simp only [List.map_cons, List.foldl_cons]
    rw [ih fun x hx => h x (List.mem_cons_of_mem _ hx), h e List.mem_cons_self]

theorem foldl_paths {m acc : KV (Nat × Bytes) Bool} (h : ∀ e ∈ m, e.2 = true) :
    (m.map Prod.fst).foldl (fun m e => KV.set m e true) acc =
      m.foldl (fun acc e => acc.set e.1 e.2) acc := by
  induction m generalizing acc with
  | nil => rfl
  | cons e t ih =>
    simp only [List.map_cons, List.foldl_cons]
    rw [ih fun x hx => h x (List.mem_cons_of_mem _ hx), h e List.mem_cons_self]

/-- The round trip for any state whose stores are proper maps.  `g` is the exported genesis with
its maps iterated in any order. -/
theorem C39_roundtrip_any (c : Cfg) (s : State) (hs : Shape s) (hk : SelfKeyed s)
    (he : Exportable c s) (g : Genesis) (hg : Reordered (exportGenesis c s) g) :
    initGenesis c g (blank s) = some (supportedOnly s) := by
  obtain ⟨h1, h2, h3, h4, h5, h6⟩ := hg
  generalize g.principal = p, g.extYield = x, g.recipients = r, g.retry = t, g.peers = q at *
  subst h6
  have e1 : foldPanic (initPrincipal c) (blank s).principal p = some s.principal :=
    initPrincipal_export hs.principal he.accounts h1
  have e2 : foldPanic initAmount (blank s).extYield x = some s.extYield :=
    initAmount_export hs.extYield he.extYield h2
  have e3 : foldPanic initRecipient (blank s).recipients r = some s.recipients :=
    initRecipient_export hs.recipients he.recipients h3
  have e4 : foldPanic initAmount (blank s).retry t = some s.retry :=
    initAmount_export hs.retry he.retry h4
  have e5 : q.foldl (fun m e => m.set e.1 e.2) (blank s).peers = s.peers :=
    (peers_perm h5 (KV.nodup_keys hs.peers) KV.sorted_nil).symm.trans (rebuild hs.peers)
  have e6 : (exportGenesis c s).paths.foldl (fun m e => m.set e true) (blank s).paths =
      s.paths.filter fun e => e.2 :=
    (foldl_paths fun e he => (List.mem_filter.1 he).2).trans (rebuild (hs.paths.filter _))
  have e7 : (exportGenesis c s).positions.foldl initPosition (blank s).positions = s.positions :=
    (foldl_positions hk.positions).trans (rebuild hs.positions)
  have e8 : (exportGenesis c s).rewards.foldl (fun m r => m.set r.index r) (blank s).rewards =
      s.rewards := (foldl_rewards hk.rewards).trans (rebuild hs.rewards)
  unfold initGenesis
  simp only [e1, e2, e3, e4, e5, e6, e7, e8]
  have e9 : c.decode (exportGenesis c s).collector = some s.collector := he.collector
  simp only [e9]
  rfl

/-- In every reachable state: if accounts survive encoding and routes have plain names, importing
the exported genesis restores the state, except that unsupported bridging paths are gone. -/
theorem C39_roundtrip (c : Cfg) (hc : c.WF) (s : State) (h : Reachable c s) (he : Exportable c s)
    (g : Genesis) (hg : Reordered (exportGenesis c s) g) :
    initGenesis c g (blank s) = some (supportedOnly s) :=
  C39_roundtrip_any c s h.shape (h.selfKeyed hc) he g hg

/-- Exporting again gives the same genesis: nothing is lost the second time. -/
theorem C39_export_stable (c : Cfg) (s : State) :
    exportGenesis c (supportedOnly s) = exportGenesis c s := by
  unfold exportGenesis supportedOnly
  simp only [List.filter_filter, Bool.and_self]
  rfl

/-- The default genesis cannot be imported when the empty string is no address: its collector is
empty (`InitGenesis` panics). -/
theorem C39_default_panics (c : Cfg) (h : c.decode "" = none) (base : State) :
    initGenesis c defaultGenesis base = none := by
  unfold initGenesis defaultGenesis
  simp only [foldPanic, h]

/-! ### Non-vacuity and limits -/

instance (k : Int × String) : Decidable (PlainRoute k) := by unfold PlainRoute; infer_instance

/-- The demo state with two routes, retry amounts and many accounts meets the conditions. -/
theorem Demo.exportable : Exportable Demo.cfg (run Demo.cfg Demo.histExtFailed Demo.start) where
  accounts := by decide +kernel
  collector := by decide +kernel
  extYield := by decide +kernel
  recipients := by decide +kernel
  retry := by decide +kernel

example : initGenesis Demo.cfg (exportGenesis Demo.cfg (run Demo.cfg Demo.histExtFailed Demo.start))
    (blank (run Demo.cfg Demo.histExtFailed Demo.start)) =
    some (supportedOnly (run Demo.cfg Demo.histExtFailed Demo.start)) :=
  C39_roundtrip _ Demo.cfg_wf _ Demo.reachExtFailed Demo.exportable _
    ⟨List.Perm.refl _, List.Perm.refl _, List.Perm.refl _, List.Perm.refl _, List.Perm.refl _, rfl⟩

example : (run Demo.cfg Demo.histExtFailed Demo.start).retry ≠ [] ∧
    (run Demo.cfg Demo.histExtFailed Demo.start).recipients.length = 3 ∧
    1 < (run Demo.cfg Demo.histExtFailed Demo.start).principal.length := by decide +kernel

/-- The condition on providers is needed: a recipient stored for an unknown provider (the message
accepts one) comes back as a recipient of an IBC channel. -/
theorem C39_unknown_provider :
    (initGenesis Demo.cfg (exportGenesis Demo.cfg
        (run Demo.cfg [(Demo.env 1, .setYieldRecipient "authority" 7 "x" "y")] Demo.start))
      (blank (run Demo.cfg [(Demo.env 1, .setYieldRecipient "authority" 7 "x" "y")]
        Demo.start))).map State.recipients = some [((0, "channel-0"), "noble1remote"), ((0, "x"), "y")] ∧
    (run Demo.cfg [(Demo.env 1, .setYieldRecipient "authority" 7 "x" "y")]
        Demo.start).recipients = [((0, "channel-0"), "noble1remote"), ((7, "x"), "y")] := by decide +kernel

/-- The condition on identifiers is needed: what follows a slash is cut off. -/
theorem C39_slash :
    (initGenesis Demo.cfg (exportGenesis Demo.cfg
        (run Demo.cfg [(Demo.env 1, .setYieldRecipient "authority" 7 "a/b" "x")] Demo.start))
      (blank (run Demo.cfg [(Demo.env 1, .setYieldRecipient "authority" 7 "a/b" "x")]
        Demo.start))).map State.recipients = some [((0, "a"), "x"), ((0, "channel-0"), "noble1remote")] := by decide +kernel

end Dollar
