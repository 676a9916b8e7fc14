import Verif.Lemmas.AutoCli2

/-
C118: the generated command line.  What every line of words means, as a transaction and as a query, and how bytes are written.
-/
namespace Dollar.AutoCli

open Proto Spec Spec.Shell

theorem plain_iff (w : String) : isFlag w = false ↔ Word w := by
  unfold isFlag Word
  simp

theorem plain_all (ws : List String) : ws.any isFlag = false ↔ ∀ w ∈ ws, Word w := by
  rw [List.any_eq_false]
  exact ⟨fun h w hw => (plain_iff w).1 (by simpa using h w hw), fun h w hw => by simpa using (plain_iff w).2 (h w hw)⟩

theorem plain_truthtext {w : String} {b : Bool} (h : TruthText w b) : Word w := by
  rcases h with ⟨_, h⟩ | ⟨_, h⟩ <;> simp only [List.mem_cons, List.not_mem_nil, or_false] at h <;>
    rcases h with rfl | rfl | rfl | rfl | rfl | rfl <;> decide

theorem plain_vaulttext {w : String} {v : Int} (h : VaultText w v) : Word w := by
  rcases h with ⟨rfl, _⟩ | ⟨rfl, _⟩ | ⟨rfl, _⟩ <;> decide

theorem plain_pausetext {w : String} {v : Int} (h : PauseText w v) : Word w := by
  rcases h with ⟨rfl, _⟩ | ⟨rfl, _⟩ | ⟨rfl, _⟩ | ⟨rfl, _⟩ <;> decide

theorem plain_chaintext {w : String} {n : Nat} (h : ChainText w n) : Word w := h.2.2.2

theorem getBool_ofBool (b : Bool) : (FVal.ofBool b).getBool = b := by cases b <;> rfl

theorem reads_none {c : Cfg} {cl : Machine} {g : Fields} {ws : List String} (h : Reads c cl g [] ws) : ws = [] := by
  cases ws with
  | nil => rfl
  | cons _ _ => exact h.elim

theorem reads_some {c : Cfg} {cl : Machine} {g : Fields} {n : Nat} {k : Arg} {ks : List (Nat × Arg)} {ws : List String}
    (h : Reads c cl g ((n, k) :: ks) ws) : ∃ w t, ws = w :: t ∧ k.read c cl w = some (g n) ∧ Reads c cl g ks t := by
  cases ws with
  | nil => exact h.elim
  | cons w t => exact ⟨w, t, rfl, h.1, h.2⟩

/-- The generated commands, one direction. -/
theorem says_of {c : Cfg} {cl : Machine} (hs : Ascii cl.sender) {cmd : Cmd} (hc : cmd ∈ commands) {args : List String}
    (ha : ∀ w ∈ args, ∀ o, AddrText c cl w o → Ascii o) (hp : args.any isFlag = false) {g r : Fields}
    (hr : Reads c cl g cmd.args args) (h1 : g 1 = .bs (Json.utf8 cl.sender.toList))
    (hf : ∀ e ∈ cmd.msg.schema, fieldRead GoInt.goText e.2 (g e.1) = .ok (r e.1)) :
    Says c cl (cmd.path ++ args) (cmd.msg.toMsg r) := by
  have hp := (plain_all _).1 hp
  have key : ∀ (h : fieldRead GoInt.goText .bytes (g 1) = .ok (r 1)), str (r 1).getBytes = cl.sender := by
    intro h
    rw [h1] at h
    rw [← PRes.ok.inj h]
    exact str_utf8 hs
  simp only [commands, List.mem_cons, List.not_mem_nil, or_false] at hc
  rcases hc with rfl | rfl | rfl | rfl | rfl | rfl | rfl | rfl | rfl | rfl | rfl <;>
    simp only [MsgType.schema, List.mem_cons, List.not_mem_nil, or_false, forall_eq_or_imp, forall_eq] at hf <;>
    simp only [MsgType.toMsg]
  · obtain rfl := reads_none hr
    rw [key hf]; exact .claimYield
  · obtain ⟨w, t, rfl, k1, hr⟩ := reads_some hr
    obtain rfl := reads_none hr
    obtain ⟨b, hb, e⟩ := (arg_bool c cl w _).1 ⟨_, k1, hf.2⟩
    rw [key hf.1, e, getBool_ofBool]; exact .setPaused hb
  · obtain ⟨w, t, rfl, k1, hr⟩ := reads_some hr
    obtain rfl := reads_none hr
    obtain ⟨b, hb, e⟩ := (arg_bytes c cl w _).1 ⟨_, k1, hf.2⟩
    rw [e]; exact .deliver (hp w (by simp)) hb
  · obtain ⟨a, t, rfl, k1, hr⟩ := reads_some hr
    obtain ⟨ch, t, rfl, k2, hr⟩ := reads_some hr
    obtain ⟨tk, t, rfl, k3, hr⟩ := reads_some hr
    obtain ⟨rc, t, rfl, k4, hr⟩ := reads_some hr
    obtain rfl := reads_none hr
    obtain ⟨x, hx, e1⟩ := (arg_amount c cl a _).1 ⟨_, k1, hf.2.1⟩
    obtain ⟨n, hn, e2⟩ := (arg_chain c cl ch _).1 ⟨_, k2, hf.2.2.1⟩
    obtain ⟨tb, ht, e3⟩ := (arg_bytes c cl tk _).1 ⟨_, k3, hf.2.2.2.1⟩
    obtain ⟨rb, hrb, e4⟩ := (arg_bytes c cl rc _).1 ⟨_, k4, hf.2.2.2.2⟩
    rw [key hf.1, e1, e2, e3, e4]
    exact .transfer (hp a (by simp)) (hp tk (by simp)) (hp rc (by simp)) hx hn ht hrb
  · obtain ⟨w, t, rfl, k1, hr⟩ := reads_some hr
    obtain rfl := reads_none hr
    obtain ⟨b, hb, e⟩ := (arg_bool c cl w _).1 ⟨_, k1, hf.2⟩
    rw [key hf.1, e, getBool_ofBool]; exact .portalSetPaused hb
  · obtain ⟨ch, t, rfl, k2, hr⟩ := reads_some hr
    obtain ⟨tk, t, rfl, k3, hr⟩ := reads_some hr
    obtain ⟨rc, t, rfl, k4, hr⟩ := reads_some hr
    obtain rfl := reads_none hr
    obtain ⟨n, hn, e2⟩ := (arg_chain c cl ch _).1 ⟨_, k2, hf.2.1⟩
    obtain ⟨tb, ht, e3⟩ := (arg_bytes c cl tk _).1 ⟨_, k3, hf.2.2.1⟩
    obtain ⟨rb, hrb, e4⟩ := (arg_bytes c cl rc _).1 ⟨_, k4, hf.2.2.2⟩
    rw [key hf.1, e2, e3, e4]
    exact .setPeer (hp tk (by simp)) (hp rc (by simp)) hn ht hrb
  · obtain ⟨ch, t, rfl, k2, hr⟩ := reads_some hr
    obtain ⟨tk, t, rfl, k3, hr⟩ := reads_some hr
    obtain ⟨s, t, rfl, k4, hr⟩ := reads_some hr
    obtain rfl := reads_none hr
    obtain ⟨n, hn, e2⟩ := (arg_chain c cl ch _).1 ⟨_, k2, hf.2.1⟩
    obtain ⟨tb, ht, e3⟩ := (arg_bytes c cl tk _).1 ⟨_, k3, hf.2.2.1⟩
    obtain ⟨b, hb, e4⟩ := (arg_bool c cl s _).1 ⟨_, k4, hf.2.2.2⟩
    rw [key hf.1, e2, e3, e4, getBool_ofBool]
    exact .setBridgingPath (hp tk (by simp)) hn ht hb
  · obtain ⟨w, t, rfl, k1, hr⟩ := reads_some hr
    obtain rfl := reads_none hr
    obtain ⟨o, ho, e⟩ := (arg_addr c cl w _).1 ⟨_, k1, hf.2⟩
    rw [key hf.1, e]
    show Says c cl _ (.transferOwnership _ (str (Json.utf8 o.toList)))
    rw [str_utf8 (ha w (by simp) o ho)]
    exact .transferOwnership (hp w (by simp)) ho
  · obtain ⟨w, t, rfl, k1, hr⟩ := reads_some hr
    obtain ⟨a, t, rfl, k2, hr⟩ := reads_some hr
    obtain rfl := reads_none hr
    obtain ⟨v, hv, e1⟩ := (arg_vault c cl w _).1 ⟨_, k1, hf.2.1⟩
    obtain ⟨x, hx, e2⟩ := (arg_amount c cl a _).1 ⟨_, k2, hf.2.2⟩
    rw [key hf.1, e1, e2]
    exact .lock (hp a (by simp)) hv hx
  · obtain ⟨w, t, rfl, k1, hr⟩ := reads_some hr
    obtain ⟨a, t, rfl, k2, hr⟩ := reads_some hr
    obtain rfl := reads_none hr
    obtain ⟨v, hv, e1⟩ := (arg_vault c cl w _).1 ⟨_, k1, hf.2.1⟩
    obtain ⟨x, hx, e2⟩ := (arg_amount c cl a _).1 ⟨_, k2, hf.2.2⟩
    rw [key hf.1, e1, e2]
    exact .unlock (hp a (by simp)) hv hx
  · obtain ⟨w, t, rfl, k1, hr⟩ := reads_some hr
    obtain rfl := reads_none hr
    obtain ⟨v, hv, e1⟩ := (arg_pause c cl w _).1 ⟨_, k1, hf.2⟩
    rw [key hf.1, e1]
    exact .vaultsSetPaused hv

/-- A generated command: its words, plain, are read as values, which the chain reads as the fields of the message. -/
def Generated (c : Cfg) (cl : Machine) (words : List String) (m : Msg) : Prop :=
  ∃ cmd ∈ commands, ∃ args, words = cmd.path ++ args ∧ args.any isFlag = false ∧ ∃ g r : Fields,
    Reads c cl g cmd.args args ∧ g 1 = .bs (Json.utf8 cl.sender.toList) ∧
      (∀ e ∈ cmd.msg.schema, fieldRead GoInt.goText e.2 (g e.1) = .ok (r e.1)) ∧ m = cmd.msg.toMsg r

theorem generated_intro {c : Cfg} {cl : Machine} (hs : Ascii cl.sender) (path : List String) (t : MsgType)
    (ks : List (Nat × Arg)) (hc : (⟨path, t, ks⟩ : Cmd) ∈ commands) (args : List String) (hp : ∀ w ∈ args, Word w)
    (vs zs : List FVal) (m : Msg)
    (hr : Reads c cl (Fields.ofList (.bs (Json.utf8 cl.sender.toList) :: vs)) ks args)
    (hf : ∀ e ∈ t.schema, e.1 ≠ 1 → fieldRead GoInt.goText e.2 (Fields.ofList (.bs (Json.utf8 cl.sender.toList) :: vs) e.1) =
      .ok (Fields.ofList (.bs (Json.utf8 cl.sender.toList) :: zs) e.1))
    (hm : str (Json.utf8 cl.sender.toList) = cl.sender → m = t.toMsg (Fields.ofList (.bs (Json.utf8 cl.sender.toList) :: zs))) :
    Generated c cl (path ++ args) m := by
  refine ⟨_, hc, args, rfl, (plain_all _).2 hp, _, _, hr, rfl, fun e he => ?_, hm (str_utf8 hs)⟩
  by_cases h1 : e.1 = 1
  · have : e.2 = .bytes := by
      obtain ⟨sch, h2, _⟩ := command_fits hc
      have hk := kind_of_mem (MsgType.schema_wf t).2 (n := e.1) (k := e.2) he
      have hk2 := kind_of_mem (MsgType.schema_wf t).2 (n := 1) (k := .bytes) (by
        have h2 : t.schema = _ := h2
        rw [h2]; exact List.mem_cons_self)
      rw [h1, hk2] at hk
      exact (Option.some.inj hk).symm
    rw [this, h1]; rfl
  · exact hf e he h1


theorem generated_of_says {c : Cfg} {cl : Machine} (hs : Ascii cl.sender) {words : List String}
    (ha : ∀ w ∈ words, ∀ o, AddrText c cl w o → Ascii o) {m : Msg} (h : Says c cl words m) :
    (∃ p i r, words = ["set-yield-recipient", p, i, r]) ∨ Generated c cl words m := by
  have e0 : str (Json.utf8 cl.sender.toList) = cl.sender := str_utf8 hs
  cases h with
  | setYieldRecipient _ _ _ _ => exact .inl ⟨_, _, _, rfl⟩
  | claimYield =>
    exact .inr (generated_intro hs ["claim-yield"] .claimYield [] (by simp [commands]) [] (by simp) [] [] _ trivial
      (by simp [MsgType.schema]) (fun e => by simp only [MsgType.toMsg]; exact congrArg _ e.symm))
  | @setPaused w b hb =>
    obtain ⟨v, h1, h2⟩ := (arg_bool c cl w _).2 ⟨b, hb, rfl⟩
    refine .inr (generated_intro hs ["set-paused-state"] .setPaused [(2, .bool)] (by simp [commands]) [w]
      (by simpa using plain_truthtext hb) [v] [.ofBool b] _ ⟨h1, trivial⟩ ?_ fun e => ?_)
    · simp [MsgType.schema]; exact h2
    · show _ = Msg.setPaused (str (Json.utf8 cl.sender.toList)) (FVal.ofBool b).getBool
      rw [e, getBool_ofBool]
  | @deliver w b hp hb =>
    obtain ⟨v, h1, h2⟩ := (arg_bytes c cl w _).2 ⟨b, hb, rfl⟩
    refine .inr (generated_intro hs ["portal", "deliver"] .deliver [(2, .bytes)] (by simp [commands]) [w]
      (by simpa using hp) [v] [.bs b] _ ⟨h1, trivial⟩ ?_ fun e => rfl)
    simp [MsgType.schema]; exact h2
  | @transfer a ch t r x n tb rb pa pt pr hx hn ht hr =>
    obtain ⟨v1, h1, h2⟩ := (arg_amount c cl a _).2 ⟨x, hx, rfl⟩
    obtain ⟨v2, h3, h4⟩ := (arg_chain c cl ch _).2 ⟨n, hn, rfl⟩
    obtain ⟨v3, h5, h6⟩ := (arg_bytes c cl t _).2 ⟨tb, ht, rfl⟩
    obtain ⟨v4, h7, h8⟩ := (arg_bytes c cl r _).2 ⟨rb, hr, rfl⟩
    refine .inr (generated_intro hs ["portal", "transfer"] .transfer [(2, .text), (3, .u32), (4, .bytes), (5, .bytes)]
      (by simp [commands]) [a, ch, t, r] (by simpa using ⟨pa, plain_chaintext hn, pt, pr⟩) [v1, v2, v3, v4]
      [.int x, .num ((n % 65536 : Nat) : Int), .bs tb, .bs rb] _ ⟨h1, h3, h5, h7, trivial⟩ ?_ fun e => ?_)
    · simp [MsgType.schema]; exact ⟨h2, h4, h6, h8⟩
    · show _ = Msg.transfer (str (Json.utf8 cl.sender.toList)) x (n % 65536) tb rb
      rw [e]
  | @portalSetPaused w b hb =>
    obtain ⟨v, h1, h2⟩ := (arg_bool c cl w _).2 ⟨b, hb, rfl⟩
    refine .inr (generated_intro hs ["portal", "set-paused-state"] .portalSetPaused [(2, .bool)] (by simp [commands]) [w]
      (by simpa using plain_truthtext hb) [v] [.ofBool b] _ ⟨h1, trivial⟩ ?_ fun e => ?_)
    · simp [MsgType.schema]; exact h2
    · show _ = Msg.portalSetPaused (str (Json.utf8 cl.sender.toList)) (FVal.ofBool b).getBool
      rw [e, getBool_ofBool]
  | @setPeer ch t r n tb rb pt pr hn ht hr =>
    obtain ⟨v2, h3, h4⟩ := (arg_chain c cl ch _).2 ⟨n, hn, rfl⟩
    obtain ⟨v3, h5, h6⟩ := (arg_bytes c cl t _).2 ⟨tb, ht, rfl⟩
    obtain ⟨v4, h7, h8⟩ := (arg_bytes c cl r _).2 ⟨rb, hr, rfl⟩
    refine .inr (generated_intro hs ["portal", "set-peer"] .setPeer [(2, .u32), (3, .bytes), (4, .bytes)]
      (by simp [commands]) [ch, t, r] (by simpa using ⟨plain_chaintext hn, pt, pr⟩) [v2, v3, v4]
      [.num ((n % 65536 : Nat) : Int), .bs tb, .bs rb] _ ⟨h3, h5, h7, trivial⟩ ?_ fun e => ?_)
    · simp [MsgType.schema]; exact ⟨h4, h6, h8⟩
    · show _ = Msg.setPeer (str (Json.utf8 cl.sender.toList)) (n % 65536) tb rb
      rw [e]
  | @setBridgingPath ch t s n tb b pt hn ht hb =>
    obtain ⟨v2, h3, h4⟩ := (arg_chain c cl ch _).2 ⟨n, hn, rfl⟩
    obtain ⟨v3, h5, h6⟩ := (arg_bytes c cl t _).2 ⟨tb, ht, rfl⟩
    obtain ⟨v4, h7, h8⟩ := (arg_bool c cl s _).2 ⟨b, hb, rfl⟩
    refine .inr (generated_intro hs ["portal", "set-bridging-path"] .setBridgingPath [(2, .u32), (3, .bytes), (4, .bool)]
      (by simp [commands]) [ch, t, s] (by simpa using ⟨plain_chaintext hn, pt, plain_truthtext hb⟩) [v2, v3, v4]
      [.num ((n % 65536 : Nat) : Int), .bs tb, .ofBool b] _ ⟨h3, h5, h7, trivial⟩ ?_ fun e => ?_)
    · simp [MsgType.schema]; exact ⟨h4, h6, h8⟩
    · show _ = Msg.setBridgingPath (str (Json.utf8 cl.sender.toList)) (n % 65536) tb (FVal.ofBool b).getBool
      rw [e, getBool_ofBool]
  | @transferOwnership w o hp ho =>
    obtain ⟨v, h1, h2⟩ := (arg_addr c cl w _).2 ⟨o, ho, rfl⟩
    refine .inr (generated_intro hs ["portal", "transfer-ownership"] .transferOwnership [(2, .addr)] (by simp [commands]) [w]
      (by simpa using hp) [v] [.bs (Json.utf8 o.toList)] _ ⟨h1, trivial⟩ ?_ fun e => ?_)
    · simp [MsgType.schema]; exact h2
    · show _ = Msg.transferOwnership (str (Json.utf8 cl.sender.toList)) (str (Json.utf8 o.toList))
      rw [e, str_utf8 (ha w (by simp) o ho)]
  | @lock w a v x pa hv hx =>
    obtain ⟨v1, h1, h2⟩ := (arg_vault c cl w _).2 ⟨v, hv, rfl⟩
    obtain ⟨v2, h3, h4⟩ := (arg_amount c cl a _).2 ⟨x, hx, rfl⟩
    refine .inr (generated_intro hs ["vaults", "lock"] .lock [(2, .name vaultNames), (3, .text)]
      (by simp [commands]) [w, a] (by simpa using ⟨plain_vaulttext hv, pa⟩) [v1, v2]
      [.num v, .int x] _ ⟨h1, h3, trivial⟩ ?_ fun e => ?_)
    · simp [MsgType.schema]; exact ⟨h2, h4⟩
    · show _ = Msg.lock (str (Json.utf8 cl.sender.toList)) v x
      rw [e]
  | @unlock w a v x pa hv hx =>
    obtain ⟨v1, h1, h2⟩ := (arg_vault c cl w _).2 ⟨v, hv, rfl⟩
    obtain ⟨v2, h3, h4⟩ := (arg_amount c cl a _).2 ⟨x, hx, rfl⟩
    refine .inr (generated_intro hs ["vaults", "unlock"] .unlock [(2, .name vaultNames), (3, .text)]
      (by simp [commands]) [w, a] (by simpa using ⟨plain_vaulttext hv, pa⟩) [v1, v2]
      [.num v, .int x] _ ⟨h1, h3, trivial⟩ ?_ fun e => ?_)
    · simp [MsgType.schema]; exact ⟨h2, h4⟩
    · show _ = Msg.unlock (str (Json.utf8 cl.sender.toList)) v x
      rw [e]
  | @vaultsSetPaused w v hv =>
    obtain ⟨v1, h1, h2⟩ := (arg_pause c cl w _).2 ⟨v, hv, rfl⟩
    refine .inr (generated_intro hs ["vaults", "set-paused-state"] .vaultsSetPaused [(2, .name pauseNames)]
      (by simp [commands]) [w] (by simpa using plain_pausetext hv) [v1]
      [.num v] _ ⟨h1, trivial⟩ ?_ fun e => ?_)
    · simp [MsgType.schema]; exact h2
    · show _ = Msg.vaultsSetPaused (str (Json.utf8 cl.sender.toList)) v
      rw [e]

theorem custom_iff (cl : Machine) (args : List String) (m : Msg) :
    (if args.any isFlag then none else cliSetRecipient cl.sender args) = some m ↔
      ∃ p i r v, args = [p, i, r] ∧ Word p ∧ Word i ∧ Word r ∧ parseProvider p = some v ∧
        m = .setYieldRecipient cl.sender v i r := by
  by_cases hf : args.any isFlag = true
  · rw [if_pos hf]
    refine ⟨fun h => (nomatch h), ?_⟩
    rintro ⟨p, i, r, v, rfl, h1, h2, h3, _⟩
    have : [p, i, r].any isFlag = false := (plain_all _).2 (by simpa using ⟨h1, h2, h3⟩)
    rw [this] at hf; cases hf
  · rw [if_neg hf]
    have hp := (plain_all args).1 (by simpa using hf)
    constructor
    · intro h
      unfold cliSetRecipient at h
      split at h
      · rename_i p i r
        obtain ⟨v, hv, rfl⟩ := Option.map_eq_some_iff.1 h
        exact ⟨p, i, r, v, rfl, hp _ (by simp), hp _ (by simp), hp _ (by simp), hv, rfl⟩
      · cases h
    · rintro ⟨p, i, r, v, rfl, _, _, _, hv, rfl⟩
      show (parseProvider p).map _ = _
      rw [hv]; rfl

end Dollar.AutoCli

namespace Dollar

open Proto Spec Spec.Shell AutoCli

/-- Every line of words means at most one message, namely the one its usage says, and a line that its usage gives a meaning
has it: what the chain receives is characterised for all words, for every machine the command runs on. -/
theorem C118_transactions (c : Cfg) (cl : Machine) (words : List String) (hs : Ascii cl.sender)
    (ha : ∀ w ∈ words, ∀ o, AddrText c cl w o → Ascii o)
    (hlen : ∀ x, sent c cl words = some x → x.2.length < 2 ^ 63) (m : Msg) :
    message c cl words = some m ↔ Says c cl words m := by
  cases words with
  | nil => exact ⟨fun h => (nomatch h), fun h => (nomatch h)⟩
  | cons w args =>
    unfold message
    simp only
    by_cases hw : w = "set-yield-recipient"
    · subst hw
      rw [if_pos rfl, custom_iff]
      constructor
      · rintro ⟨p, i, r, v, rfl, h1, h2, h3, h4, rfl⟩
        exact .setYieldRecipient h1 h2 h3 h4
      · intro h
        generalize hw : "set-yield-recipient" :: args = ws at h
        cases h <;> simp at hw
        case setYieldRecipient h1 h2 h3 h4 => exact ⟨_, _, _, _, hw, h1, h2, h3, h4, rfl⟩
    · rw [if_neg hw, received_iff c cl _ m hlen]
      constructor
      · rintro ⟨cmd, hc, as, e, hp, g, r, hr, h1, hf, rfl⟩
        rw [e]
        exact says_of hs hc (fun w hw => ha w (by rw [e]; exact List.mem_append_right _ hw)) hp hr h1 hf
      · intro h
        rcases generated_of_says hs ha h with ⟨p, i, r, e⟩ | h
        · cases e; exact absurd rfl hw
        · exact h

/-- Every line of words makes at most one query, the one its usage says. -/
theorem C118_queries (c : Cfg) (cl : Machine) (words : List String) (q : Rest.Query) :
    query c cl words = some q ↔ Requests c cl words q := by
  unfold query
  constructor
  · intro h
    split at h
    · cases h
    · rename_i hf
      have hp := (plain_all words).1 (by simpa using hf)
      unfold queryOf at h
      split at h <;>
        first
        | (cases h; exact .pendingRewardsBy (hp _ (by simp)))
        | (cases h; exact .positions (hp _ (by simp)))
        | (cases h; constructor)
        | skip
      · obtain ⟨o, ho, rfl⟩ := Option.map_eq_some_iff.1 h
        exact .principal (hp _ (by simp)) ((readAddr_iff _ _ _ _).1 ho)
      · obtain ⟨o, ho, rfl⟩ := Option.map_eq_some_iff.1 h
        exact .yield (hp _ (by simp)) ((readAddr_iff _ _ _ _).1 ho)
      · obtain ⟨v, hv, rfl⟩ := Option.map_eq_some_iff.1 h
        exact .yieldRecipient (hp _ (by simp)) (hp _ (by simp)) hv
      · obtain ⟨v, hv, rfl⟩ := Option.map_eq_some_iff.1 h
        exact .retryAmount (hp _ (by simp)) (hp _ (by simp)) hv
      · obtain ⟨n, hn, rfl⟩ := Option.map_eq_some_iff.1 h
        exact .destinationTokens ((chain_iff _ _).1 hn)
      all_goals cases h
  · intro h
    have hp : words.any isFlag = false := by
      rw [plain_all]
      cases h <;> simp only [List.mem_cons, List.not_mem_nil, or_false, forall_eq_or_imp, forall_eq]
      case principal h _ => exact ⟨by decide, h⟩
      case yield h _ => exact ⟨by decide, h⟩
      case yieldRecipient h1 h2 _ => exact ⟨by decide, h1, h2⟩
      case retryAmount h1 h2 _ => exact ⟨by decide, h1, h2⟩
      case destinationTokens h => exact ⟨by decide, by decide, plain_chaintext h⟩
      case pendingRewardsBy h => exact ⟨by decide, by decide, h⟩
      case positions h => exact ⟨by decide, by decide, h⟩
      all_goals decide
    rw [if_neg (by rw [hp]; decide)]
    cases h with
    | principal _ h => exact Option.map_eq_some_iff.2 ⟨_, (readAddr_iff _ _ _ _).2 h, rfl⟩
    | yield _ h => exact Option.map_eq_some_iff.2 ⟨_, (readAddr_iff _ _ _ _).2 h, rfl⟩
    | yieldRecipient _ _ h => exact Option.map_eq_some_iff.2 ⟨_, h, rfl⟩
    | retryAmount _ _ h => exact Option.map_eq_some_iff.2 ⟨_, h, rfl⟩
    | destinationTokens h => exact Option.map_eq_some_iff.2 ⟨_, (chain_iff _ _).2 h, rfl⟩
    | _ => rfl

end Dollar
