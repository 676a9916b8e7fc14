import Verif.Props.C39
import Verif.Props.C79
import Verif.Props.C106
import Verif.Lemmas.GenesisJson

/-
C112: the genesis file.  What a chain exports as JSON can be read back, however the file is laid out, and restores the
state; a file with a field that does not exist is refused; a field that is left out silently takes the zero of its type,
and such a file passes the validation.
-/
set_option maxRecDepth 100000
namespace Dollar
open MM Spec Json

/-- `l` is a JSON file of the genesis state `g`: the nine fields under their names, with any white space between them.
`nanos` are the fractions of a second in the times of the positions. -/
def Spec.FileOf (nanos : PosEntry → Nat) (g : Genesis) (l : List Char) : Prop := Spaced (J.ofGenesis nanos g).toks l

/-- `j` without the member `name`. -/
def Spec.without (name : String) : J → J
  | .obj l => .obj (l.filter fun e => e.1 ≠ name.toList)
  | j => j

/-- `j` with the member `name` called `name'`. -/
def Spec.renamed (name name' : String) : J → J
  | .obj l => .obj (l.map fun e => if e.1 = name.toList then (name'.toList, e.2) else e)
  | j => j

/-- A file of `g` in which the field `name` is missing. -/
def Spec.FileWithout (name : String) (nanos : PosEntry → Nat) (g : Genesis) (l : List Char) : Prop :=
  Spaced (without name (J.ofGenesis nanos g)).toks l

/-- `order` goes through the maps of a genesis state in some order. -/
def Spec.AnyOrder (order : Genesis → Genesis) : Prop := ∀ g, Reordered g (order g)

theorem Reordered.trans {g g' g'' : Genesis} (h : Reordered g g') (h' : Reordered g' g'') : Reordered g g'' := by
  obtain ⟨a1, a2, a3, a4, a5, a6⟩ := h
  obtain ⟨b1, b2, b3, b4, b5, b6⟩ := h'
  refine ⟨a1.trans b1, a2.trans b2, a3.trans b3, a4.trans b4, a5.trans b5, ?_⟩
  rw [b6, a6]

theorem peers_map_perm {V : Type} (l : List (Nat × V)) (acc : KV Nat V) (hn : ((acc ++ l).map Prod.fst).Nodup) :
    (l.foldl (fun m e => m.set e.1 e.2) acc).Perm (acc ++ l) := by
  induction l generalizing acc with
  | nil => rw [List.append_nil]; exact List.Perm.refl _
  | cons e t ih =>
    rw [List.foldl_cons]
    have h1 : acc.get? e.1 = none := by
      cases hx : acc.get? e.1 with
      | none => rfl
      | some v =>
        have hm := List.mem_map_of_mem (f := Prod.fst) (KV.mem_of_get? hx)
        rw [List.map_append, List.nodup_append] at hn
        exact absurd rfl (hn.2.2 _ hm e.1 (List.mem_map_of_mem (a := e) List.mem_cons_self))
    have h2 : (acc.set e.1 e.2).Perm (acc ++ [e]) := by
      unfold KV.set KV.has
      rw [h1]
      exact (insertS_perm _ _ _).trans (List.perm_append_comm (l₁ := [e]))
    have h3 : (acc.set e.1 e.2 ++ t).Perm (acc ++ e :: t) := by
      have := h2.append_right t
      rwa [List.append_assoc] at this
    refine (ih _ ?_).trans h3
    exact (h3.map Prod.fst).nodup_iff.2 hn

theorem reordered_remapped {g : Genesis} (h : GoMaps g) : Reordered g (remapped g) where
  principal := (goMap_perm _ h.principal).symm
  extYield := (goMap_perm _ h.extYield).symm
  recipients := (goMap_perm _ h.recipients).symm
  retry := (goMap_perm _ h.retry).symm
  peers := (peers_map_perm _ [] h.peers).symm
  rest := rfl

/-! ### The file and the genesis state -/

/-- A file of a genesis state, laid out in any way, is read as that genesis state. -/
theorem C112_read (nanos : PosEntry → Nat) (g : Genesis) (hg : GenOk g) (hm : GoMaps g) (l : List Char)
    (h : FileOf nanos g l) : ∃ g', readGenesis l = some g' ∧ Reordered g g' := by
  refine ⟨remapped g, ?_, reordered_remapped hm⟩
  unfold readGenesis
  rw [read_spaced _ (ok_genesis nanos g) h]
  exact toGenesis_ofGenesis nanos hg

/-- What the module writes is such a file. -/
theorem C112_written (c : Cfg) (nanos : PosEntry → Nat) (s : State) :
    FileOf nanos (exportGenesis c s) (exportText c nanos s) := spaced_text _

theorem export_ok {c : Cfg} {s : State} (h : Fits s) : GenOk (exportGenesis c s) where
  index := h.index
  holders := h.holders
  totalPrincipal := h.totalPrincipal
  totalYield := h.totalYield
  peers := fun e he => (h.peers e he).1
  paths := fun e he => by
    obtain ⟨x, hx, rfl⟩ := List.mem_map.1 he
    exact h.paths x (List.mem_filter.1 hx).1
  nonce := h.nonce
  positions := fun p hp => by
    obtain ⟨e, he, rfl⟩ := List.mem_map.1 hp
    obtain ⟨h1, h2, h3, h4, h5⟩ := h.positions e he
    exact ⟨h1.2.1, h2, h3, h4, h5⟩
  rewards := fun r hr => by
    obtain ⟨e, he, rfl⟩ := List.mem_map.1 hr
    exact (h.rewards e he).2
  vPaused := h.vPaused
  vstats := h.vstats
  totalFlexible := h.totalFlexible

theorem export_maps {c : Cfg} {s : State} (h : Shape s) : GoMaps (exportGenesis c s) where
  principal := KV.nodup_keys (goMap_sorted _)
  extYield := KV.nodup_keys (goMap_sorted _)
  recipients := KV.nodup_keys (goMap_sorted _)
  retry := KV.nodup_keys (goMap_sorted _)
  peers := KV.nodup_keys h.peers

/-- The exported file passes the validation and its import, laid out in any way and with the maps visited in any order,
restores the state, as C39 says of the genesis state itself. -/
theorem C112_restores (c : Cfg) (hc : c.WF) (s : State) (hr : Reachable c s) (hf : Fits s) (he : Exportable c s)
    (nanos : PosEntry → Nat) (order : Genesis → Genesis) (ho : AnyOrder order) (l : List Char)
    (h : FileOf nanos (exportGenesis c s) l) :
    validateText l = true ∧ initText c order l (blank s) = some (supportedOnly s) := by
  obtain ⟨g', e1, e2⟩ := C112_read nanos _ (export_ok hf) (export_maps hr.shape) l h
  unfold validateText initText
  rw [e1]
  exact ⟨rfl, C39_roundtrip c hc s hr he _ (Reordered.trans e2 (ho g'))⟩

/-! ### Fields that do not exist -/

/-- A genesis file with a field of another name is refused by the validation and by the import. -/
theorem C112_unknown (c : Cfg) (order : Genesis → Genesis) (base : State) (m : List (List Char × J)) (hm : (J.obj m).Ok)
    (name : List Char) (v : J) (hv : (name, v) ∈ m)
    (hn : String.ofList name ∉ ["portal", "vaults", "paused", "index", "principal", "stats", "total_external_yield",
      "totalExternalYield", "yield_recipients", "yieldRecipients", "retry_amounts", "retryAmounts"])
    (l : List Char) (h : Spaced (J.obj m).toks l) :
    validateText l = false ∧ initText c order l base = none := by
  have hk : known m ["portal", "vaults", "paused", "index", "principal", "stats", "total_external_yield",
      "totalExternalYield", "yield_recipients", "yieldRecipients", "retry_amounts", "retryAmounts"] = false := by
    unfold known
    rw [List.all_eq_false]
    refine ⟨_, hv, ?_⟩
    rw [List.contains_iff_mem]
    exact hn
  have hg : (J.obj m).toGenesis = none := by
    unfold J.toGenesis
    show Option.bind (some m) _ = none
    rw [Option.bind_some]
    iterate 9 (refine Option.bind_eq_none_iff.2 fun _ _ => ?_)
    rw [hk]
    rfl
  have hr : readGenesis l = none := by
    unfold readGenesis
    rw [read_spaced _ hm h]
    exact hg
  unfold validateText initText
  rw [hr]
  exact ⟨rfl, rfl⟩

/-! ### Fields that are left out -/

theorem without_fields (name : String) (l : List (String × J)) :
    without name (J.ofFields l) = J.ofFields (l.filter fun e => e.1 ≠ name) := by
  show J.obj ((l.map fun e => (e.1.toList, e.2)).filter _) = J.obj _
  rw [List.filter_map]
  congr 3
  funext e
  simp only [Function.comp, ne_eq, String.toList_inj]

theorem ok_without (name : String) {l : List (String × J)} (h : ∀ e ∈ l, e.2.Ok) : (without name (J.ofFields l)).Ok := by
  rw [without_fields]
  exact ok_fields fun e he => h e (List.mem_filter.1 he).1

theorem ok_without_genesis (name : String) (nanos : PosEntry → Nat) (g : Genesis) :
    (without name (J.ofGenesis nanos g)).Ok := by
  refine ok_without name fun e he => ?_
  simp only [List.mem_cons, List.not_mem_nil, or_false] at he
  rcases he with rfl | rfl | rfl | rfl | rfl | rfl | rfl | rfl | rfl
  · exact ok_portal _
  · exact ok_vaults _ _
  · exact ok_bool _
  · exact ok_str _
  · exact ok_strings _
  · exact ok_stats _
  · exact ok_strings _
  · exact ok_strings _
  · exact ok_strings _

/-- What a file without the field `name` stands for. -/
def Spec.zeroed (name : String) (g : Genesis) : Genesis :=
  if name = "paused" then { g with paused := false }
  else if name = "index" then { g with index := 0 }
  else if name = "principal" then { g with principal := [] }
  else if name = "stats" then { g with holders := 0, totalPrincipal := 0, totalYield := 0 }
  else if name = "total_external_yield" then { g with extYield := [] }
  else if name = "yield_recipients" then { g with recipients := [] }
  else if name = "retry_amounts" then { g with retry := [] }
  else if name = "portal" then { g with owner := "", portalPaused := false, peers := [], paths := [], nonce := 0 }
  else if name = "vaults" then { g with
    positions := [], rewards := [], vPaused := 0, seasonOneEnded := false, collector := "", vstats := ⟨0, 0, 0, 0, 0⟩,
    totalFlexible := 0 }
  else g

theorem toGenesis_without (nanos : PosEntry → Nat) {g : Genesis} (h : GenOk g) (name : String)
    (hn : name ∈ ["portal", "vaults", "paused", "index", "principal", "stats", "total_external_yield",
      "yield_recipients", "retry_amounts"]) :
    (without name (J.ofGenesis nanos g)).toGenesis = some (zeroed name (remapped g)) := by
  have e1 : (J.ofPortal (portalOf g)).toPortal = _ := toPortal_ofPortal h.peers h.paths h.nonce
  have e2 : (J.ofVaults nanos (vaultsOf g)).toVaults = some (vaultsOf g) :=
    toVaults_ofVaults nanos h.positions h.rewards h.totalFlexible h.vPaused h.vstats
  have e3 : (J.ofStats (g.holders, g.totalPrincipal, g.totalYield)).toStats = _ :=
    toStats_ofStats h.holders h.totalPrincipal h.totalYield
  have e4 := toNum_ofBig h.index.1 h.index.2
  unfold J.ofGenesis
  rw [without_fields]
  simp only [List.mem_cons, List.not_mem_nil, or_false] at hn
  unfold J.toGenesis
  simp only [members_fields, Option.bind_eq_bind, Option.bind_some, fieldOr_keyed, known_keyed]
  rcases hn with rfl | rfl | rfl | rfl | rfl | rfl | rfl | rfl | rfl <;>
  · simp only [List.filter_cons, List.filter_nil, ne_eq, String.reduceEq, not_true_eq_false, not_false_eq_true,
      decide_true, decide_false, if_true, Bool.false_eq_true, if_false, namedOr, lastNamed, List.reverse_cons,
      List.reverse_nil, List.nil_append, List.cons_append, List.find?_cons,
      List.find?_nil, Option.map_some, Option.map_none, Option.some_or,
      Option.none_or, Option.elim_some, Option.elim_none, Option.bind_some, toStrings_ofStrings, e1, e2, e3, e4,
      J.toBool]
    rfl

/-- A file in which one field is missing is read as if the field were zero. -/
theorem C112_missing (nanos : PosEntry → Nat) (g : Genesis) (hg : GenOk g) (hm : GoMaps g) (name : String)
    (hn : name ∈ ["portal", "vaults", "paused", "index", "principal", "stats", "total_external_yield",
      "yield_recipients", "retry_amounts"]) (l : List Char) (h : FileWithout name nanos g l) :
    validateText l = true ∧ ∃ g', Reordered g g' ∧ readGenesis l = some (zeroed name g') := by
  have hr : readGenesis l = some (zeroed name (remapped g)) := by
    unfold readGenesis
    rw [read_spaced _ (ok_without_genesis name nanos g) h]
    exact toGenesis_without nanos hg name hn
  refine ⟨?_, remapped g, reordered_remapped hm, hr⟩
  unfold validateText
  rw [hr]
  rfl

theorem initGenesis_index (c : Cfg) (g : Genesis) (base : State) (i : Int) :
    initGenesis c { g with index := i } base = (initGenesis c g base).map fun s => { s with index := i } := by
  unfold initGenesis
  cases foldPanic (initPrincipal c) base.principal g.principal <;> [rfl; skip]
  cases foldPanic initAmount base.extYield g.extYield <;> [rfl; skip]
  cases foldPanic initRecipient base.recipients g.recipients <;> [rfl; skip]
  cases foldPanic initAmount base.retry g.retry <;> [rfl; skip]
  cases c.decode g.collector <;> rfl

/-- A file that leaves out the index, and the default of the module is 10^12, passes the validation and is imported: the
chain then has the index 0. -/
theorem C112_no_index (c : Cfg) (hc : c.WF) (s : State) (hr : Reachable c s) (hf : Fits s) (he : Exportable c s)
    (nanos : PosEntry → Nat) (order : Genesis → Genesis) (ho : AnyOrder order) (l : List Char)
    (h : FileWithout "index" nanos (exportGenesis c s) l) :
    validateText l = true ∧ initText c order l (blank s) = some { supportedOnly s with index := 0 } := by
  obtain ⟨h1, g', h2, h3⟩ := C112_missing nanos _ (export_ok hf) (export_maps hr.shape) "index" (by decide) l h
  refine ⟨h1, ?_⟩
  unfold initText
  rw [h3]
  show initGenesis c (order { g' with index := 0 }) (blank s) = _
  have h4 := ho { g' with index := 0 }
  have h5 : Reordered (exportGenesis c s) { order { g' with index := 0 } with index := g'.index } := by
    refine Reordered.trans h2 ⟨h4.principal, h4.extYield, h4.recipients, h4.retry, h4.peers, ?_⟩
    have := h4.rest
    generalize order { g' with index := 0 } = g'' at *
    conv_lhs => rw [this]
  have h6 := C39_roundtrip c hc s hr he _ h5
  have h7 : order { g' with index := 0 } =
      { ({ order { g' with index := 0 } with index := g'.index } : Genesis) with index := 0 } := by
    have := (congrArg Genesis.index h4.rest :)
    generalize order { g' with index := 0 } = g'' at *
    cases g''
    cases this
    rfl
  rw [h7, initGenesis_index, h6]
  rfl

/-- With the index 0 nobody can send dollars: every transfer of a positive amount between accounts other than the yield
account fails (the conversion divides by zero). -/
theorem C112_index_zero (c : Cfg) (env : Env) (s : State) (hi : s.index = 0) (a b : Addr) (x : Int)
    (ha : a ≠ c.yieldAddr) (hb : b ≠ c.yieldAddr) : step c env (.bankSend a b x) s = s := by
  show runTx (bankSend c a b x) s = s
  unfold runTx bankSend
  split
  · rename_i v s' h
    split at h
    · cases h
    · split at h
      · cases h
      · rename_i h0 _
        have hx : x ≠ 0 := by omega
        unfold sendCoins at h
        rw [if_neg hx] at h
        obtain ⟨_, s1, h1, h2⟩ := (bind_ok).1 h
        obtain ⟨_, s2, h3, _⟩ := (bind_ok).1 h2
        have e1 : s1.index = 0 := by
          unfold subCoins at h1
          obtain ⟨z, s3, h5, h6⟩ := (bind_ok).1 h1
          cases h5
          split at h6
          · cases h6
          · cases h6
            exact hi
        unfold sendRestriction at h3
        rw [if_neg hx, if_neg ha, if_neg hb] at h3
        obtain ⟨z, s3, h5, h6⟩ := (bind_ok).1 h3
        cases h5
        obtain ⟨p, s4, h7, _⟩ := (bind_ok).1 h6
        unfold principalUp at h7
        rw [if_pos e1] at h7
        cases h7
  · rfl
  · rfl

/-- A file that leaves out the vaults, whose collector is then empty, passes the validation and cannot be imported. -/
theorem C112_no_vaults (c : Cfg) (hd : c.decode "" = none) (nanos : PosEntry → Nat) (g : Genesis) (hg : GenOk g)
    (hm : GoMaps g) (order : Genesis → Genesis) (ho : AnyOrder order) (base : State) (l : List Char)
    (h : FileWithout "vaults" nanos g l) : validateText l = true ∧ initText c order l base = none := by
  obtain ⟨h1, g', _, h3⟩ := C112_missing nanos g hg hm "vaults" (by decide) l h
  refine ⟨h1, ?_⟩
  unfold initText
  rw [h3]
  show initGenesis c (order (zeroed "vaults" g')) base = none
  have h4 : (order (zeroed "vaults" g')).collector = "" := (congrArg Genesis.collector (ho (zeroed "vaults" g')).rest :)
  generalize order (zeroed "vaults" g') = g'' at h4
  unfold initGenesis
  rw [h4, hd]
  cases foldPanic (initPrincipal c) base.principal g''.principal <;> [rfl; skip]
  cases foldPanic initAmount base.extYield g''.extYield <;> [rfl; skip]
  cases foldPanic initRecipient base.recipients g''.recipients <;> [rfl; skip]
  cases foldPanic initAmount base.retry g''.retry <;> rfl

/-! ### The other names of the fields -/

theorem renamed_fields (name name' : String) (l : List (String × J)) :
    renamed name name' (J.ofFields l) = J.ofFields (l.map fun e => if e.1 = name then (name', e.2) else e) := by
  show J.obj ((l.map fun e => (e.1.toList, e.2)).map _) = J.obj ((l.map _).map _)
  rw [List.map_map, List.map_map]
  congr 2
  funext e
  simp only [Function.comp, String.toList_inj]
  split <;> rfl

/-- The three fields of several words can also be given by their JSON names. -/
theorem C112_json_names (nanos : PosEntry → Nat) (g : Genesis) (hg : GenOk g) (hm : GoMaps g) (name name' : String)
    (hn : (name, name') ∈ [("total_external_yield", "totalExternalYield"), ("yield_recipients", "yieldRecipients"),
      ("retry_amounts", "retryAmounts")]) (l : List Char)
    (h : Spaced (renamed name name' (J.ofGenesis nanos g)).toks l) :
    ∃ g', readGenesis l = some g' ∧ Reordered g g' := by
  have hok : (renamed name name' (J.ofGenesis nanos g)).Ok := by
    unfold J.ofGenesis
    rw [renamed_fields]
    refine ok_fields fun e he => ?_
    obtain ⟨e', he', rfl⟩ := List.mem_map.1 he
    have : e'.2.Ok := by
      simp only [List.mem_cons, List.not_mem_nil, or_false] at he'
      rcases he' with rfl | rfl | rfl | rfl | rfl | rfl | rfl | rfl | rfl
      · exact ok_portal _
      · exact ok_vaults _ _
      · exact ok_bool _
      · exact ok_str _
      · exact ok_strings _
      · exact ok_stats _
      · exact ok_strings _
      · exact ok_strings _
      · exact ok_strings _
    split <;> exact this
  refine ⟨remapped g, ?_, reordered_remapped hm⟩
  unfold readGenesis
  rw [read_spaced _ hok h]
  show J.toGenesis _ = _
  have e1 : (J.ofPortal (portalOf g)).toPortal = _ := toPortal_ofPortal hg.peers hg.paths hg.nonce
  have e2 : (J.ofVaults nanos (vaultsOf g)).toVaults = some (vaultsOf g) :=
    toVaults_ofVaults nanos hg.positions hg.rewards hg.totalFlexible hg.vPaused hg.vstats
  have e3 : (J.ofStats (g.holders, g.totalPrincipal, g.totalYield)).toStats = _ :=
    toStats_ofStats hg.holders hg.totalPrincipal hg.totalYield
  have e4 := toNum_ofBig hg.index.1 hg.index.2
  unfold J.ofGenesis
  rw [renamed_fields]
  simp only [List.mem_cons, List.not_mem_nil, or_false, Prod.mk.injEq] at hn
  unfold J.toGenesis
  simp only [members_fields, Option.bind_eq_bind, Option.bind_some, fieldOr_keyed, known_keyed]
  rcases hn with ⟨rfl, rfl⟩ | ⟨rfl, rfl⟩ | ⟨rfl, rfl⟩ <;>
  · simp only [List.map_cons, List.map_nil, String.reduceEq, if_true, if_false, namedOr, lastNamed, List.reverse_cons,
      List.reverse_nil, List.nil_append, List.cons_append, List.find?_cons, decide_true, decide_false,
      List.find?_nil, Option.map_some, Option.map_none, Option.some_or,
      Option.none_or, Option.elim_some, Option.bind_some, toStrings_ofStrings, e1, e2, e3, e4,
      J.toBool]
    rfl

/-! ### Non-vacuity -/

theorem Demo.exportableFull : Exportable Demo.cfg (run Demo.cfg Demo.histFull Demo.start) where
  accounts := by decide +kernel
  collector := by decide +kernel
  extYield := by decide +kernel
  recipients := by decide +kernel
  retry := by decide +kernel

theorem anyOrder_id : AnyOrder id := fun _ =>
  ⟨List.Perm.refl _, List.Perm.refl _, List.Perm.refl _, List.Perm.refl _, List.Perm.refl _, rfl⟩

/-- Every map is visited backwards. -/
def Demo.backwards (g : Genesis) : Genesis :=
  { g with principal := g.principal.reverse, extYield := g.extYield.reverse, recipients := g.recipients.reverse,
           retry := g.retry.reverse, peers := g.peers.reverse }

theorem Demo.backwards_order : AnyOrder Demo.backwards := fun _ =>
  ⟨(List.reverse_perm _).symm, (List.reverse_perm _).symm, (List.reverse_perm _).symm, (List.reverse_perm _).symm,
    (List.reverse_perm _).symm, rfl⟩

/-- A demo state with a position, two retry amounts and many accounts is restored from its file. -/
example : initText Demo.cfg Demo.backwards
      (exportText Demo.cfg (fun _ => 123456789) (run Demo.cfg Demo.histFull Demo.start))
      (blank (run Demo.cfg Demo.histFull Demo.start)) =
    some (supportedOnly (run Demo.cfg Demo.histFull Demo.start)) :=
  (C112_restores _ Demo.cfg_wf _ Demo.reachFull Demo.fitsFull Demo.exportableFull _ _ Demo.backwards_order _
    (C112_written _ _ _)).2

theorem spaced_ws {toks : List Tok} {l : List Char} {c : Char} (hc : isWs c) (h : Spaced toks l) : Spaced toks (c :: l) := by
  cases h with
  | nil h1 => exact .nil (List.forall_mem_cons.2 ⟨hc, h1⟩)
  | cons h1 h2 => exact .cons (ws := c :: _) (List.forall_mem_cons.2 ⟨hc, h1⟩) h2

/-- Another layout of the same file. -/
example : validateText (' ' :: '\n' :: exportText Demo.cfg (fun _ => 0) (run Demo.cfg Demo.histFull Demo.start)) = true :=
  (C112_restores _ Demo.cfg_wf _ Demo.reachFull Demo.fitsFull Demo.exportableFull (fun _ => 0) _ anyOrder_id _
    (spaced_ws (.inl rfl) (spaced_ws (.inr (.inl rfl)) (C112_written _ _ _)))).1

/-- A short file, as an operator might write it. -/
def Demo.file : List Char :=
  "{ \"index\": \"1000000000000\",\n  \"principal\": {\"noble1a\": \"5\"},\n  \"yieldRecipients\": {\"IBC/channel-0\": \"x\"},\n  \"vaults\": {\"season_one_ended\": true, \"season_two_yield_collector\": \"noble1c\",\n    \"paused\": \"LOCK\"},\n  \"portal\": { \"peers\": {\"2\": {\"manager\": \"AAEC\"}}, \"nonce\": 7 } }".toList

example : readGenesis Demo.file = some
    { defaultGenesis with
      index := 1000000000000, principal := [("noble1a", "5")], recipients := [("IBC/channel-0", "x")],
      seasonOneEnded := true, collector := "noble1c", vPaused := 1, peers := [(2, ⟨[], [0, 1, 2]⟩)], nonce := 7 } := by
  decide +kernel

/-- A genesis state that uses every field. -/
def Demo.every : Genesis where
  paused := false
  index := 1100000000000
  principal := [("noble1a", "5")]
  holders := 4
  totalPrincipal := 50
  totalYield := 6
  extYield := [("HYPERLANE/0x1", "7")]
  recipients := [("IBC/channel-0", "noble1\"x")]
  retry := [("IBC/channel-0", "8")]
  owner := "noble1o"
  portalPaused := true
  peers := [(2, ⟨[1], [0, 1, 2]⟩)]
  paths := [(4, [255, 255])]
  nonce := 9
  positions := [⟨[1, 2, 3, 4], 2, 10, 1000000000000, 11, 1740787200⟩, ⟨[5], 9, 10, 1000000000000, 11, 951782400⟩]
  rewards := [⟨1100000000000, 12, 13⟩]
  vPaused := 3
  seasonOneEnded := true
  collector := "noble1c"
  vstats := ⟨14, 15, 16, 17, 18⟩
  totalFlexible := 19

/-- Its file, character by character. -/
example : (J.ofGenesis (fun p => if p.vault = 2 then 120000000 else 0) Demo.every).text =
    "{\"portal\":{\"owner\":\"noble1o\",".toList ++
    "\"paused\":true,".toList ++
    "\"peers\":{\"2\":{\"transceiver\":\"AQ==\",".toList ++
    "\"manager\":\"AAEC\"}},".toList ++
    "\"bridging_paths\":[{\"destination_chain_id\":4,".toList ++
    "\"destination_token\":\"//8=\"}],".toList ++
    "\"nonce\":9},".toList ++
    "\"vaults\":{\"positions\":[{\"address\":\"AQIDBA==\",".toList ++
    "\"vault\":\"FLEXIBLE\",".toList ++
    "\"principal\":\"10\",".toList ++
    "\"index\":\"1000000000000\",".toList ++
    "\"amount\":\"11\",".toList ++
    "\"time\":\"2025-03-01T00:00:00.120Z\"},{\"address\":\"BQ==\",".toList ++
    "\"vault\":9,".toList ++
    "\"principal\":\"10\",".toList ++
    "\"index\":\"1000000000000\",".toList ++
    "\"amount\":\"11\",".toList ++
    "\"time\":\"2000-02-29T00:00:00Z\"}],".toList ++
    "\"rewards\":[{\"index\":\"1100000000000\",".toList ++
    "\"total\":\"12\",".toList ++
    "\"rewards\":\"13\"}],".toList ++
    "\"total_flexible_principal\":\"19\",".toList ++
    "\"paused\":\"ALL\",".toList ++
    "\"stats\":{\"flexible_total_principal\":\"14\",".toList ++
    "\"flexible_total_users\":\"15\",".toList ++
    "\"flexible_total_distributed_rewards_principal\":\"16\",".toList ++
    "\"staked_total_principal\":\"17\",".toList ++
    "\"staked_total_users\":\"18\"},".toList ++
    "\"season_one_ended\":true,".toList ++
    "\"season_two_yield_collector\":\"noble1c\"},".toList ++
    "\"paused\":false,".toList ++
    "\"index\":\"1100000000000\",".toList ++
    "\"principal\":{\"noble1a\":\"5\"},".toList ++
    "\"stats\":{\"total_holders\":\"4\",".toList ++
    "\"total_principal\":\"50\",".toList ++
    "\"total_yield_accrued\":\"6\"},".toList ++
    "\"total_external_yield\":{\"HYPERLANE/0x1\":\"7\"},".toList ++
    "\"yield_recipients\":{\"IBC/channel-0\":\"noble1\\\"x\"},".toList ++
    "\"retry_amounts\":{\"IBC/channel-0\":\"8\"}}".toList := by
  decide +kernel

theorem Demo.every_ok : GenOk Demo.every := by
  constructor <;> first
    | decide
    | (intro p hp
       simp only [Demo.every, List.mem_cons, List.not_mem_nil, or_false] at hp
       rcases hp with rfl | rfl <;> constructor <;> decide)

theorem Demo.every_maps : GoMaps Demo.every := by constructor <;> decide

/-- The conditions of the claims about wrong files. -/
example : validateText (without "vaults" (J.ofGenesis (fun _ => 0) Demo.every)).text = true ∧
    initText { Demo.cfg with decode := fun s => if s = "" then none else Demo.cfg.decode s } Demo.backwards
      (without "vaults" (J.ofGenesis (fun _ => 0) Demo.every)).text Demo.start = none :=
  C112_no_vaults _ (by decide) (fun _ => 0) Demo.every Demo.every_ok Demo.every_maps _ Demo.backwards_order _ _
    (spaced_text _)

example : ∃ g', readGenesis (renamed "retry_amounts" "retryAmounts" (J.ofGenesis (fun _ => 0) Demo.every)).text = some g' ∧
    Reordered Demo.every g' :=
  C112_json_names (fun _ => 0) _ Demo.every_ok Demo.every_maps _ _ (by decide) _ (spaced_text _)

/-- The state the file without the index leads to, and a transfer in it. -/
example (env : Env) : ({ supportedOnly (run Demo.cfg Demo.histFull Demo.start) with index := 0 } : State).index = 0 ∧
    step Demo.cfg env (.bankSend Demo.alice Demo.bob 1)
      { supportedOnly (run Demo.cfg Demo.histFull Demo.start) with index := 0 } =
      { supportedOnly (run Demo.cfg Demo.histFull Demo.start) with index := 0 } :=
  ⟨rfl, C112_index_zero _ _ _ rfl _ _ _ (by decide) (by decide)⟩

example : (step Demo.cfg (Demo.env 9) (.bankSend Demo.alice Demo.bob 1)
    (supportedOnly (run Demo.cfg Demo.histFull Demo.start))).balance Demo.bob =
    (run Demo.cfg Demo.histFull Demo.start).balance Demo.bob + 1 := by decide +kernel

/-- A misspelt field. -/
example : validateText "{\"indexx\": \"1\"}".toList = false := by decide +kernel

end Dollar
