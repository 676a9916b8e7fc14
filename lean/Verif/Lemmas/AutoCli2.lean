import Verif.Lemmas.AutoCli

/-
Lemmas for C118: the words of a command and the message the chain receives.
-/
namespace Dollar.AutoCli

open Proto Spec Spec.Shell

/-- The words are read as the values of the fields. -/
def Reads (c : Cfg) (cl : Machine) (g : Fields) : List (Nat × Arg) → List String → Prop
  | [], [] => True
  | (n, k) :: ks, w :: ws => k.read c cl w = some (g n) ∧ Reads c cl g ks ws
  | _, _ => False

theorem reads_congr {c : Cfg} {cl : Machine} {g h : Fields} : ∀ {ks : List (Nat × Arg)} {ws : List String},
    (∀ n ∈ ks.map Prod.fst, g n = h n) → Reads c cl g ks ws → Reads c cl h ks ws
  | [], [], _, _ => trivial
  | [], _ :: _, _, hr => hr.elim
  | _ :: _, [], _, hr => hr.elim
  | (n, k) :: ks, w :: ws, he, hr => by
    refine ⟨?_, reads_congr (fun m hm => he m (List.mem_cons_of_mem _ hm)) hr.2⟩
    rw [← he n List.mem_cons_self]; exact hr.1

theorem readArgs_reads {c : Cfg} {cl : Machine} : ∀ {ks : List (Nat × Arg)} {ws : List String} {l : List (Nat × FVal)},
    (ks.map Prod.fst).Nodup → readArgs c cl ks ws = some l → Reads c cl (fun n => (l.lookup n).getD (.num 0)) ks ws
  | [], [], _, _, _ => trivial
  | [], _ :: _, _, _, h => by cases h
  | _ :: _, [], _, _, h => by cases h
  | (n, k) :: ks, w :: ws, l, hnd, h => by
    rw [List.map_cons, List.nodup_cons] at hnd
    unfold readArgs at h
    cases hv : k.read c cl w with
    | none => rw [hv] at h; cases h
    | some v =>
      cases hr : readArgs c cl ks ws with
      | none => rw [hv, hr] at h; cases h
      | some r =>
        rw [hv, hr] at h
        cases Option.some.inj h
        refine ⟨?_, reads_congr (fun m hm => ?_) (readArgs_reads hnd.2 hr)⟩
        · rw [hv]; simp
        · have hne : (m == n) = false := beq_eq_false_iff_ne.2 fun e => hnd.1 (e ▸ hm)
          simp [List.lookup_cons, hne]

theorem reads_readArgs {c : Cfg} {cl : Machine} {g : Fields} : ∀ {ks : List (Nat × Arg)} {ws : List String},
    Reads c cl g ks ws → readArgs c cl ks ws = some (ks.map fun e => (e.1, g e.1))
  | [], [], _ => rfl
  | [], _ :: _, h => h.elim
  | _ :: _, [], h => h.elim
  | (n, k) :: ks, w :: ws, h => by
    unfold readArgs
    rw [h.1, reads_readArgs h.2]
    rfl

theorem lookup_map {g : Fields} : ∀ {ks : List (Nat × Arg)} {n : Nat}, n ∈ ks.map Prod.fst →
    (ks.map fun e => (e.1, g e.1)).lookup n = some (g n)
  | [], _, h => by cases h
  | e :: ks, n, h => by
    rw [List.map_cons, List.lookup_cons]
    by_cases he : n = e.1
    · subst he; simp
    · rw [beq_eq_false_iff_ne.2 he]
      exact lookup_map ((List.mem_cons.1 h).resolve_left he)

/-- The fields that a command sets are those of its message. -/
theorem command_fields {cmd : Cmd} (h : cmd ∈ commands) : cmd.msg.schema.map Prod.fst = 1 :: cmd.args.map Prod.fst := by
  simp only [commands, List.mem_cons, List.not_mem_nil, or_false] at h
  rcases h with rfl | rfl | rfl | rfl | rfl | rfl | rfl | rfl | rfl | rfl | rfl <;> rfl

theorem fields_nodup {cmd : Cmd} (h : cmd ∈ commands) : 1 ∉ cmd.args.map Prod.fst ∧ (cmd.args.map Prod.fst).Nodup := by
  have := (MsgType.schema_wf cmd.msg).2
  rw [command_fields h, List.nodup_cons] at this
  exact this

theorem fields_reads {c : Cfg} {cl : Machine} {cmd : Cmd} (h : cmd ∈ commands) {args : List String} {f : Fields}
    (hf : cmd.fields c cl args = some f) :
    args.any isFlag = false ∧ Reads c cl f cmd.args args ∧ f 1 = .bs (Json.utf8 cl.sender.toList) := by
  unfold Cmd.fields at hf
  split at hf
  · cases hf
  · rename_i hn
    cases hr : readArgs c cl cmd.args args with
    | none => rw [hr] at hf; cases hf
    | some l =>
      rw [hr] at hf
      cases Option.some.inj hf
      refine ⟨by simpa using hn, reads_congr (fun n hn => ?_) (readArgs_reads (fields_nodup h).2 hr), rfl⟩
      exact (if_neg fun e : n = 1 => (fields_nodup h).1 (e ▸ hn)).symm

theorem reads_fields {c : Cfg} {cl : Machine} {cmd : Cmd} (h : cmd ∈ commands) {args : List String} {g : Fields}
    (hn : args.any isFlag = false) (hr : Reads c cl g cmd.args args) (h1 : g 1 = .bs (Json.utf8 cl.sender.toList)) :
    ∃ f, cmd.fields c cl args = some f ∧ ∀ e ∈ cmd.msg.schema, f e.1 = g e.1 := by
  unfold Cmd.fields
  rw [if_neg (by rw [hn]; decide), reads_readArgs hr]
  refine ⟨_, rfl, fun e he => ?_⟩
  have hm : e.1 ∈ cmd.msg.schema.map Prod.fst := List.mem_map_of_mem he
  rw [command_fields h] at hm
  rcases List.mem_cons.1 hm with hm | hm
  · simp only [hm, if_true]; exact h1.symm
  · have : e.1 ≠ 1 := fun e' => (fields_nodup h).1 (e' ▸ hm)
    simp only [if_neg this, lookup_map hm, Option.getD_some]

/-- Which argument may set a field of which type. -/
def Fits : Arg → Kind → Prop
  | .text, k => k = .int
  | .u32, k => k = .u16
  | .bytes, k => k = .bytes
  | .bool, k => k = .bool
  | .addr, k => k = .bytes
  | .name _, k => k = .i32

theorem loose_of {c : Cfg} {cl : Machine} {a : Arg} {k : Kind} {w : String} {v : FVal} (hk : Fits a k)
    (h : a.read c cl w = some v) : Loose k v := by
  cases a <;> cases hk
  · cases h; exact .inr ⟨.inr rfl, _, rfl⟩
  · obtain ⟨n, _, rfl⟩ := Option.map_eq_some_iff.1 h; exact .inl ⟨rfl, _, rfl⟩
  · obtain ⟨n, _, rfl⟩ := Option.map_eq_some_iff.1 h; exact .inr ⟨.inl rfl, _, rfl⟩
  · obtain ⟨n, _, rfl⟩ := Option.map_eq_some_iff.1 h; exact .inl ⟨rfl, _, rfl⟩
  · obtain ⟨n, _, rfl⟩ := Option.map_eq_some_iff.1 h; exact .inr ⟨.inl rfl, _, rfl⟩
  · obtain ⟨n, _, rfl⟩ := Option.map_eq_some_iff.1 h; exact .inl ⟨rfl, _, rfl⟩

/-- The arguments and the fields they set, in the order of the field numbers. -/
def FitsAll : List (Nat × Arg) → Schema → Prop
  | [], [] => True
  | (n, a) :: ks, (m, k) :: sch => n = m ∧ Fits a k ∧ FitsAll ks sch
  | _, _ => False

theorem loose_all {c : Cfg} {cl : Machine} {g : Fields} : ∀ {ks : List (Nat × Arg)} {sch : Schema} {ws : List String},
    FitsAll ks sch → Reads c cl g ks ws → ∀ e ∈ sch, Loose e.2 (g e.1)
  | [], [], _, _, _ => fun e he => by cases he
  | [], _ :: _, _, h, _ => h.elim
  | _ :: _, [], _, h, _ => h.elim
  | _ :: _, _ :: _, [], _, h => h.elim
  | (n, a) :: ks, (m, k) :: sch, w :: ws, h, hr => by
    obtain ⟨rfl, h1, h2⟩ := h
    intro e he
    rcases List.mem_cons.1 he with rfl | he
    · exact loose_of h1 hr.1
    · exact loose_all h2 hr.2 e he

theorem command_fits {cmd : Cmd} (h : cmd ∈ commands) : ∃ sch, cmd.msg.schema = (1, .bytes) :: sch ∧ FitsAll cmd.args sch := by
  simp only [commands, List.mem_cons, List.not_mem_nil, or_false] at h
  rcases h with rfl | rfl | rfl | rfl | rfl | rfl | rfl | rfl | rfl | rfl | rfl <;>
    refine ⟨_, rfl, ?_⟩ <;> simp [FitsAll, Fits]

theorem command_loose {c : Cfg} {cl : Machine} {cmd : Cmd} (h : cmd ∈ commands) {args : List String} {g : Fields}
    (hr : Reads c cl g cmd.args args) (h1 : g 1 = .bs (Json.utf8 cl.sender.toList)) :
    ∀ e ∈ cmd.msg.schema, Loose e.2 (g e.1) := by
  obtain ⟨sch, hs, hf⟩ := command_fits h
  rw [hs]
  intro e he
  rcases List.mem_cons.1 he with rfl | he
  · exact .inr ⟨.inl rfl, _, h1⟩
  · exact loose_all hf hr e he

theorem marshal_congr {sch : Schema} {f g : Fields} (h : ∀ e ∈ sch, f e.1 = g e.1) : marshal sch f = marshal sch g := by
  unfold marshal
  induction sch with
  | nil => rfl
  | cons e t ih =>
    rw [List.flatMap_cons, List.flatMap_cons, h e List.mem_cons_self, ih fun x hx => h x (List.mem_cons_of_mem _ hx)]

/-- What a command sends and how it is received. -/
theorem command_iff (c : Cfg) (cl : Machine) {cmd : Cmd} (h : cmd ∈ commands) (args : List String) (m : Msg)
    (hlen : ∀ f, cmd.fields c cl args = some f → (marshal cmd.msg.schema f).length < 2 ^ 63) :
    (∃ f, cmd.fields c cl args = some f ∧ decodeMsg GoInt.goText cmd.msg (marshal cmd.msg.schema f) = .ok m) ↔
      args.any isFlag = false ∧ ∃ g r : Fields, Reads c cl g cmd.args args ∧ g 1 = .bs (Json.utf8 cl.sender.toList) ∧
        (∀ e ∈ cmd.msg.schema, fieldRead GoInt.goText e.2 (g e.1) = .ok (r e.1)) ∧ m = cmd.msg.toMsg r := by
  constructor
  · rintro ⟨f, hf, hd⟩
    obtain ⟨h1, h2, h3⟩ := fields_reads h hf
    obtain ⟨r, h4, h5⟩ := (decode_iff GoInt.goText (command_loose h h2 h3) (hlen f hf) m).1 hd
    exact ⟨h1, f, r, h2, h3, h4, h5⟩
  · rintro ⟨h1, g, r, h2, h3, h4, h5⟩
    obtain ⟨f, hf, he⟩ := reads_fields h h1 h2 h3
    refine ⟨f, hf, ?_⟩
    have hl := hlen f hf
    rw [marshal_congr he] at hl ⊢
    exact (decode_iff GoInt.goText (command_loose h h2 h3) hl m).2 ⟨r, h4, h5⟩

/-! ### Finding the command -/

theorem commands_prefix {a b : Cmd} (ha : a ∈ commands) (hb : b ∈ commands) (h : a.path <+: b.path) : a = b := by
  simp only [commands, List.mem_cons, List.not_mem_nil, or_false] at ha hb
  rcases ha with rfl | rfl | rfl | rfl | rfl | rfl | rfl | rfl | rfl | rfl | rfl <;>
    rcases hb with rfl | rfl | rfl | rfl | rfl | rfl | rfl | rfl | rfl | rfl | rfl <;>
    first
    | rfl
    | (exfalso; revert h; decide)

theorem rest_iff (cmd : Cmd) (words args : List String) : cmd.rest words = some args ↔ words = cmd.path ++ args := by
  unfold Cmd.rest
  constructor
  · intro h
    split at h
    · rename_i h1
      cases h
      conv => lhs; rw [← List.take_append_drop cmd.path.length words]
      rw [h1]
    · cases h
  · rintro rfl
    simp

theorem findSome_unique {α β : Type} {l : List α} {f : α → Option β} {a : α} (ha : a ∈ l)
    (hu : ∀ x ∈ l, x ≠ a → f x = none) : l.findSome? f = f a := by
  induction l with
  | nil => cases ha
  | cons x t ih =>
    rw [List.findSome?_cons]
    by_cases hx : x = a
    · subst hx
      cases hf : f x with
      | some b => rfl
      | none =>
        simp only
        rw [List.findSome?_eq_none_iff]
        intro y hy
        by_cases hyx : y = x
        · rw [hyx]; exact hf
        · exact hu y (List.mem_cons_of_mem _ hy) hyx
    · rw [hu x List.mem_cons_self hx]
      exact ih ((List.mem_cons.1 ha).resolve_left (Ne.symm hx)) fun y hy => hu y (List.mem_cons_of_mem _ hy)

theorem sent_iff (c : Cfg) (cl : Machine) (words : List String) (x : MsgType × Bytes) :
    sent c cl words = some x ↔ ∃ cmd ∈ commands, ∃ args f, words = cmd.path ++ args ∧ cmd.fields c cl args = some f ∧
      x = (cmd.msg, marshal cmd.msg.schema f) := by
  unfold sent
  constructor
  · intro h
    obtain ⟨cmd, hc, h⟩ := List.exists_of_findSome?_eq_some h
    obtain ⟨args, h1, h2⟩ := Option.bind_eq_some_iff.1 h
    obtain ⟨f, h3, h4⟩ := Option.map_eq_some_iff.1 h2
    exact ⟨cmd, hc, args, f, (rest_iff _ _ _).1 h1, h3, h4.symm⟩
  · rintro ⟨cmd, hc, args, f, rfl, hf, rfl⟩
    rw [findSome_unique hc ?_]
    · rw [(rest_iff _ _ _).2 rfl, Option.bind_some, hf]; rfl
    · intro b hb hne
      have : b.rest (cmd.path ++ args) = none := by
        cases hr : b.rest (cmd.path ++ args) with
        | none => rfl
        | some a2 =>
          exfalso
          have hp : b.path <+: cmd.path ++ args := ⟨a2, ((rest_iff _ _ _).1 hr).symm⟩
          rcases List.prefix_or_prefix_of_prefix hp (List.prefix_append _ _) with h | h
          · exact hne (commands_prefix hb hc h)
          · exact hne (commands_prefix hc hb h).symm
      rw [this]; rfl

/-- The generated part of a transaction command. -/
theorem received_iff (c : Cfg) (cl : Machine) (words : List String) (m : Msg)
    (hlen : ∀ x, sent c cl words = some x → x.2.length < 2 ^ 63) :
    (sent c cl words).bind received = some m ↔
    ∃ cmd ∈ commands, ∃ args, words = cmd.path ++ args ∧ args.any isFlag = false ∧ ∃ g r : Fields,
      Reads c cl g cmd.args args ∧ g 1 = .bs (Json.utf8 cl.sender.toList) ∧
        (∀ e ∈ cmd.msg.schema, fieldRead GoInt.goText e.2 (g e.1) = .ok (r e.1)) ∧ m = cmd.msg.toMsg r := by
  rw [Option.bind_eq_some_iff]
  constructor
  · rintro ⟨x, hx, hm⟩
    obtain ⟨cmd, hc, args, f, hw, hf, rfl⟩ := (sent_iff _ _ _ _).1 hx
    have hd : decodeMsg GoInt.goText cmd.msg (marshal cmd.msg.schema f) = .ok m := by
      unfold received at hm
      split at hm
      · rename_i h; rw [h]; cases hm; rfl
      · cases hm
    refine ⟨cmd, hc, args, hw, (command_iff c cl hc args m fun f' hf' => ?_).1 ⟨f, hf, hd⟩⟩
    exact hlen _ ((sent_iff _ _ _ _).2 ⟨cmd, hc, args, f', hw, hf', rfl⟩)
  · rintro ⟨cmd, hc, args, hw, h⟩
    obtain ⟨f, hf, hd⟩ := (command_iff c cl hc args m fun f' hf' =>
      hlen _ ((sent_iff _ _ _ _).2 ⟨cmd, hc, args, f', hw, hf', rfl⟩)).2 h
    refine ⟨_, (sent_iff _ _ _ _).2 ⟨cmd, hc, args, f, hw, hf, rfl⟩, ?_⟩
    unfold received
    rw [hd]

/-! ### Arguments, as the chain reads them -/

theorem arg_amount (c : Cfg) (cl : Machine) (w : String) (z : FVal) :
    (∃ v, Arg.read c cl w .text = some v ∧ fieldRead GoInt.goText .int v = .ok z) ↔ ∃ x, AmountText w x ∧ z = .int x := by
  constructor
  · rintro ⟨v, h, h2⟩
    cases h
    obtain ⟨x, rfl, h⟩ := (read_amount w z).1 h2
    exact ⟨x, h, rfl⟩
  · rintro ⟨x, h, rfl⟩
    exact ⟨_, rfl, (read_amount w _).2 ⟨x, rfl, h⟩⟩

theorem arg_chain (c : Cfg) (cl : Machine) (w : String) (z : FVal) :
    (∃ v, Arg.read c cl w .u32 = some v ∧ fieldRead GoInt.goText .u16 v = .ok z) ↔
      ∃ n : Nat, ChainText w n ∧ z = .num ((n % 65536 : Nat) : Int) := by
  have key : ∀ n : Nat, n < 2 ^ 32 →
      fieldRead GoInt.goText .u16 (.num (n : Int)) = .ok (.num ((n % 65536 : Nat) : Int)) := by
    intro n hn
    have : toUint64 (n : Int) = n := by unfold toUint64; omega
    show PRes.ok (FVal.num (((toUint64 (n : Int)) % 2 ^ 16 : Nat) : Int)) = _
    rw [this]
  constructor
  · rintro ⟨v, h, h2⟩
    obtain ⟨n, hn, rfl⟩ := Option.map_eq_some_iff.1 h
    have hc := (chain_iff w n).1 hn
    rw [key n hc.2.1] at h2
    exact ⟨n, hc, (PRes.ok.inj h2).symm⟩
  · rintro ⟨n, hc, rfl⟩
    exact ⟨.num n, Option.map_eq_some_iff.2 ⟨n, (chain_iff w n).2 hc, rfl⟩, key n hc.2.1⟩

theorem arg_bytes (c : Cfg) (cl : Machine) (w : String) (z : FVal) :
    (∃ v, Arg.read c cl w .bytes = some v ∧ fieldRead GoInt.goText .bytes v = .ok z) ↔ ∃ b, BytesText cl w b ∧ z = .bs b := by
  constructor
  · rintro ⟨v, h, h2⟩
    obtain ⟨b, hb, rfl⟩ := Option.map_eq_some_iff.1 h
    exact ⟨b, (readBytes_iff _ _ _).1 hb, (PRes.ok.inj h2).symm⟩
  · rintro ⟨b, hb, rfl⟩
    exact ⟨.bs b, Option.map_eq_some_iff.2 ⟨b, (readBytes_iff _ _ _).2 hb, rfl⟩, rfl⟩

theorem arg_bool (c : Cfg) (cl : Machine) (w : String) (z : FVal) :
    (∃ v, Arg.read c cl w .bool = some v ∧ fieldRead GoInt.goText .bool v = .ok z) ↔ ∃ b, TruthText w b ∧ z = .ofBool b := by
  constructor
  · rintro ⟨v, h, h2⟩
    obtain ⟨b, hb, rfl⟩ := Option.map_eq_some_iff.1 h
    refine ⟨b, (readBool_iff _ _).1 hb, ?_⟩
    cases b <;> exact (PRes.ok.inj h2).symm
  · rintro ⟨b, hb, rfl⟩
    exact ⟨.ofBool b, Option.map_eq_some_iff.2 ⟨b, (readBool_iff _ _).2 hb, rfl⟩, by cases b <;> rfl⟩

theorem arg_addr (c : Cfg) (cl : Machine) (w : String) (z : FVal) :
    (∃ v, Arg.read c cl w .addr = some v ∧ fieldRead GoInt.goText .bytes v = .ok z) ↔
      ∃ o, AddrText c cl w o ∧ z = .bs (Json.utf8 o.toList) := by
  constructor
  · rintro ⟨v, h, h2⟩
    obtain ⟨b, hb, rfl⟩ := Option.map_eq_some_iff.1 h
    exact ⟨b, (readAddr_iff _ _ _ _).1 hb, (PRes.ok.inj h2).symm⟩
  · rintro ⟨b, hb, rfl⟩
    exact ⟨_, Option.map_eq_some_iff.2 ⟨b, (readAddr_iff _ _ _ _).2 hb, rfl⟩, rfl⟩

theorem arg_vault (c : Cfg) (cl : Machine) (w : String) (z : FVal) :
    (∃ v, Arg.read c cl w (.name vaultNames) = some v ∧ fieldRead GoInt.goText .i32 v = .ok z) ↔
      ∃ v, VaultText w v ∧ z = .num v := by
  have key : ∀ v, VaultText w v → fieldRead GoInt.goText .i32 (.num v) = .ok (.num v) := by
    rintro v (⟨_, rfl⟩ | ⟨_, rfl⟩ | ⟨_, rfl⟩) <;> decide
  constructor
  · rintro ⟨v, h, h2⟩
    obtain ⟨b, hb, rfl⟩ := Option.map_eq_some_iff.1 h
    have hv := (vault_iff _ _).1 hb
    rw [key b hv] at h2
    exact ⟨b, hv, (PRes.ok.inj h2).symm⟩
  · rintro ⟨b, hb, rfl⟩
    exact ⟨_, Option.map_eq_some_iff.2 ⟨b, (vault_iff _ _).2 hb, rfl⟩, key b hb⟩

theorem arg_pause (c : Cfg) (cl : Machine) (w : String) (z : FVal) :
    (∃ v, Arg.read c cl w (.name pauseNames) = some v ∧ fieldRead GoInt.goText .i32 v = .ok z) ↔
      ∃ v, PauseText w v ∧ z = .num v := by
  have key : ∀ v, PauseText w v → fieldRead GoInt.goText .i32 (.num v) = .ok (.num v) := by
    rintro v (⟨_, rfl⟩ | ⟨_, rfl⟩ | ⟨_, rfl⟩ | ⟨_, rfl⟩) <;> decide
  constructor
  · rintro ⟨v, h, h2⟩
    obtain ⟨b, hb, rfl⟩ := Option.map_eq_some_iff.1 h
    have hv := (pause_iff _ _).1 hb
    rw [key b hv] at h2
    exact ⟨b, hv, (PRes.ok.inj h2).symm⟩
  · rintro ⟨b, hb, rfl⟩
    exact ⟨_, Option.map_eq_some_iff.2 ⟨b, (pause_iff _ _).2 hb, rfl⟩, key b hb⟩

end Dollar.AutoCli
