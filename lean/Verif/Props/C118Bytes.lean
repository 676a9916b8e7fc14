import Verif.Props.C118
import Verif.Lemmas.Base64Time
import Verif.Lemmas.GenesisJson
import Verif.Spec.Demo

/-
C118, continued: every message can be written; how bytes may be written and what goes wrong.
-/
namespace Dollar.AutoCli

open Proto Spec Spec.Shell

theorem hexChar_lower {d : Nat} (h : d < 16) : (hexChar d).toLower = hexChar d := by
  have : ∀ d < 16, (hexChar d).toLower = hexChar d := by decide
  exact this d h

theorem hexOf_chars (b : Bytes) : ∀ c ∈ hexOf b, ∃ d < 16, c = hexChar d := by
  intro c hc
  obtain ⟨x, _, hx⟩ := List.mem_flatMap.1 hc
  have := x.toNat_lt
  simp only [List.mem_cons, List.not_mem_nil, or_false] at hx
  rcases hx with rfl | rfl
  · exact ⟨x.toNat / 16, by omega, rfl⟩
  · exact ⟨x.toNat % 16, by omega, rfl⟩

theorem hexText_hexOf (b : Bytes) : HexText (String.ofList (hexOf b)) b := by
  unfold HexText
  rw [String.toList_ofList]
  conv => rhs; rw [← List.map_id (hexOf b)]
  refine List.map_congr_left fun c hc => ?_
  obtain ⟨d, hd, rfl⟩ := hexOf_chars b c hc
  exact hexChar_lower hd

theorem word_hexOf (b : Bytes) : Word (String.ofList (hexOf b)) := by
  unfold Word
  rw [String.toList_ofList]
  intro h
  obtain ⟨d, hd, e⟩ := hexOf_chars b _ (List.mem_of_mem_head? h)
  have : ∀ d < 16, '-' ≠ hexChar d := by decide
  exact this d hd e

theorem hexOf_inj {a b : Bytes} (h : hexOf a = hexOf b) : a = b := by
  have e := (unhex_iff _ _).2 (hexText_hexOf a)
  have e2 := (unhex_iff _ _).2 (hexText_hexOf b)
  rw [h] at e
  exact Option.some.inj (e.symm.trans e2)

theorem hexOf_length (b : Bytes) : (hexOf b).length = 2 * b.length := by
  induction b with
  | nil => rfl
  | cons x t ih => rw [hexOf_cons, List.length_cons, List.length_cons, List.length_cons, ih]; omega

theorem head_nat (n : Nat) : ∀ {c : Char}, (toString (n : Int)).toList.head? = some c → c.isDigit = true := by
  intro c h
  rw [Json.toString_ofNat] at h
  exact (Json.toDigits_spec n).2.1 c (List.mem_of_mem_head? h)

theorem chain_toString {n : Nat} (h : n < 2 ^ 32) : ChainText (toString n) n := by
  have e : (toString n : String) = toString (n : Int) := rfl
  rw [e]
  refine ⟨(C99_written_is_read (n : Int)).1, h, fun hh => ?_, fun hh => ?_⟩
  · exact absurd (head_nat n hh) (by decide)
  · exact absurd (head_nat n hh) (by decide)

theorem amount_toString {x : Int} (h0 : 0 ≤ x) (h : x < 2 ^ 256) :
    Word (toString x) ∧ AmountText (toString x) (some x) := by
  obtain ⟨n, rfl⟩ := Int.eq_ofNat_of_zero_le h0
  refine ⟨fun hh => absurd (head_nat n hh) (by decide), .inr ⟨_, (C99_literal _ _).1 (C99_written_is_read _).1, ?_, rfl⟩⟩
  omega

theorem truth_text (p : Bool) : TruthText (if p then "true" else "false") p := by
  cases p
  · exact .inr ⟨rfl, by decide⟩
  · exact .inl ⟨rfl, by decide⟩

theorem vault_text {v : Int} (h : v = 0 ∨ v = 1 ∨ v = 2) :
    VaultText (["unspecified", "staked", "flexible"].getD v.toNat "") v := by
  rcases h with rfl | rfl | rfl
  · exact .inl ⟨rfl, rfl⟩
  · exact .inr (.inl ⟨rfl, rfl⟩)
  · exact .inr (.inr ⟨rfl, rfl⟩)

theorem pause_text {v : Int} (h : v = 0 ∨ v = 1 ∨ v = 2 ∨ v = 3) :
    PauseText (["none", "lock", "unlock", "all"].getD v.toNat "") v := by
  rcases h with rfl | rfl | rfl | rfl
  · exact .inl ⟨rfl, rfl⟩
  · exact .inr (.inl ⟨rfl, rfl⟩)
  · exact .inr (.inr (.inl ⟨rfl, rfl⟩))
  · exact .inr (.inr (.inr ⟨rfl, rfl⟩))

theorem unb64Groups_length : ∀ (l : List Char) {b : Bytes}, Json.unb64Groups l = some b → l.length % 4 = 0
  | [], _, _ => rfl
  | [_], _, h => by simp [Json.unb64Groups] at h
  | [_, _], _, h => by simp [Json.unb64Groups] at h
  | [_, _, _], _, h => by simp [Json.unb64Groups] at h
  | a :: b :: c :: d :: t, x, h => by
    by_cases hd : d = '='
    · subst hd
      cases t with
      | nil => simp only [List.length_cons, List.length_nil]
      | cons e t =>
        have hv : Json.b64Val '=' = none := by decide
        have hq : Json.b64Quad a b c '=' = none := by
          unfold Json.b64Quad
          rw [hv]
          cases Json.b64Val a <;> cases Json.b64Val b <;> cases Json.b64Val c <;> rfl
        unfold Json.unb64Groups at h
        split at h
        · rename_i heq; cases heq
        · rename_i heq; cases heq
        · rename_i heq; cases heq
        · rename_i heq; cases heq; rw [hq] at h; cases h
        · cases h
    · rw [Json.unb64Groups_full hd] at h
      obtain ⟨q, _, h⟩ := Option.bind_eq_some_iff.1 h
      obtain ⟨r, hr, _⟩ := Option.bind_eq_some_iff.1 h
      have := unb64Groups_length t hr
      simp only [List.length_cons]
      omega

/-- Text of base64 characters in whole groups is always decoded. -/
theorem unb64Groups_total : ∀ (n : Nat) (l : List Char), l.length = 4 * n → (∀ c ∈ l, c ≠ '=' ∧ (Json.b64Val c).isSome) →
    ∃ b, Json.unb64Groups l = some b ∧ b.length = 3 * n
  | 0, l, hl, _ => by
    have : l = [] := List.eq_nil_of_length_eq_zero (by omega)
    subst this
    exact ⟨[], rfl, rfl⟩
  | n + 1, l, hl, h => by
    match l, hl with
    | a :: b :: c :: d :: t, hl =>
      obtain ⟨r, hr, hlen⟩ := unb64Groups_total n t (by simp only [List.length_cons] at hl; omega)
        fun x hx => h x (by simp [hx])
      obtain ⟨va, ea⟩ := Option.isSome_iff_exists.1 (h a (by simp)).2
      obtain ⟨vb, eb⟩ := Option.isSome_iff_exists.1 (h b (by simp)).2
      obtain ⟨vc, ec⟩ := Option.isSome_iff_exists.1 (h c (by simp)).2
      obtain ⟨vd, ed⟩ := Option.isSome_iff_exists.1 (h d (by simp)).2
      rw [Json.unb64Groups_full (h d (by simp)).1]
      unfold Json.b64Quad
      rw [ea, eb, ec, ed, hr]
      refine ⟨_, rfl, ?_⟩
      rw [List.length_append, hlen]
      simp only [List.length_cons, List.length_nil]
      omega

end Dollar.AutoCli

namespace Dollar

open Proto Spec Spec.Shell AutoCli

/-- Every message with fields of the right types can be sent: the usual line means exactly that message, unless a file has the name of
an argument.  (Amounts that are negative or missing, and names and addresses that begin with a dash, cannot be written this way.) -/
theorem C118_line (c : Cfg) (cl : Machine) (m : Msg) (words : List String) (hm : Sendable c cl m) (hl : line m = some words)
    (hfile : ∀ w ∈ words, cl.file w = none) : Says c cl words m := by
  have hb : ∀ b, cl.file (String.ofList (hexOf b)) = none → BytesText cl (String.ofList (hexOf b)) b :=
    fun b h => .inr ⟨h, .inl (hexText_hexOf b)⟩
  cases m <;> try exact hm.elim
  case claimYield s => cases hl; cases hm; exact .claimYield
  case setPaused s p => cases hl; cases hm; exact .setPaused (truth_text p)
  case setYieldRecipient s p i r =>
    cases hl
    obtain ⟨rfl, h1, h2, h3⟩ := hm
    rcases h1 with rfl | rfl
    · exact .setYieldRecipient (by decide) h2 h3 (by decide)
    · exact .setYieldRecipient (by decide) h2 h3 (by decide)
  case deliver v => cases hl; exact .deliver (word_hexOf v) (hb v (hfile _ (by simp)))
  case transfer s x ch t r =>
    obtain ⟨rfl, ⟨n, rfl, h0, h1⟩, h2⟩ := hm
    cases hl
    have ha := amount_toString h0 h1
    have := Says.transfer (c := c) (cl := cl) ha.1 (word_hexOf t) (word_hexOf r) ha.2
      (chain_toString (n := ch) (by omega)) (hb t (hfile _ (by simp))) (hb r (hfile _ (by simp)))
    rwa [Nat.mod_eq_of_lt h2] at this
  case portalSetPaused s p => cases hl; cases hm; exact .portalSetPaused (truth_text p)
  case setPeer s ch t r =>
    obtain ⟨rfl, h2⟩ := hm
    cases hl
    have := Says.setPeer (c := c) (cl := cl) (word_hexOf t) (word_hexOf r)
      (chain_toString (n := ch) (by omega)) (hb t (hfile _ (by simp))) (hb r (hfile _ (by simp)))
    rwa [Nat.mod_eq_of_lt h2] at this
  case setBridgingPath s ch t b =>
    obtain ⟨rfl, h2⟩ := hm
    cases hl
    have := Says.setBridgingPath (c := c) (cl := cl) (word_hexOf t)
      (chain_toString (n := ch) (by omega)) (hb t (hfile _ (by simp))) (truth_text b)
    rwa [Nat.mod_eq_of_lt h2] at this
  case transferOwnership s o =>
    obtain ⟨rfl, h1, h2, h3⟩ := hm
    cases hl
    exact .transferOwnership h1 (.inr ⟨h2, rfl, h3⟩)
  case lock s v x =>
    obtain ⟨rfl, hv, ⟨n, rfl, h0, h1⟩⟩ := hm
    cases hl
    have ha := amount_toString h0 h1
    exact .lock ha.1 (vault_text hv) ha.2
  case unlock s v x =>
    obtain ⟨rfl, hv, ⟨n, rfl, h0, h1⟩⟩ := hm
    cases hl
    have ha := amount_toString h0 h1
    exact .unlock ha.1 (vault_text hv) ha.2
  case vaultsSetPaused s p =>
    obtain ⟨rfl, hp⟩ := hm
    cases hl
    exact .vaultsSetPaused (pause_text hp)

/-- No line carries a negative amount. -/
theorem C118_no_negative (c : Cfg) (cl : Machine) (words : List String) (s : String) (x : Int) :
    (∀ v, Says c cl words (.lock s v (some x)) → 0 ≤ x) ∧ (∀ v, Says c cl words (.unlock s v (some x)) → 0 ≤ x) ∧
    (∀ ch t r, Says c cl words (.transfer s (some x) ch t r) → 0 ≤ x) := by
  have key : ∀ w, Word w → AmountText w (some x) → 0 ≤ x := by
    rintro w hw (⟨_, h⟩ | ⟨y, ⟨n, h⟩, _, e⟩)
    · cases h
    · cases e
      rcases h with ⟨_, rfl⟩ | ⟨_, _, _, rfl⟩ | ⟨t, ht, _⟩
      · omega
      · omega
      · exact absurd (by rw [ht]; rfl) hw
  refine ⟨fun v h => ?_, fun v h => ?_, fun ch t r h => ?_⟩
  · cases h with | lock h1 _ h2 => exact key _ h1 h2
  · cases h with | unlock h1 _ h2 => exact key _ h1 h2
  · cases h with | transfer h1 _ _ h2 => exact key _ h1 h2

/-- Bytes in hexadecimal, in upper or lower case, are read as those bytes and no others. -/
theorem C118_hex (cl : Machine) (w : String) (b b' : Bytes) (hw : HexText w b) (hf : cl.file w = none) :
    BytesText cl w b' ↔ b' = b := by
  constructor
  · rintro (h | ⟨_, h | ⟨h, _⟩⟩)
    · rw [hf] at h; cases h
    · exact hexOf_inj (h.symm.trans hw)
    · exact absurd hw (h b)
  · rintro rfl
    exact .inr ⟨hf, .inl hw⟩

theorem b64_pad (b : Bytes) (h : b.length % 3 ≠ 0) : '=' ∈ Json.b64 b := by
  induction b using Json.b64.induct with
  | case1 a b c t ih =>
    unfold Json.b64
    have := ih (by simp only [List.length_cons] at h; omega)
    simp [this]
  | case2 a b => simp [Json.b64]
  | case3 a => simp [Json.b64]
  | case4 => exact absurd rfl h

/-- Bytes in base64 are read as those bytes if their number is not a multiple of three, as for the 32 bytes of an address or a token. -/
theorem C118_base64 (cl : Machine) (b b' : Bytes) (h3 : b.length % 3 ≠ 0) (hf : cl.file (String.ofList (Json.b64 b)) = none) :
    BytesText cl (String.ofList (Json.b64 b)) b' ↔ b' = b := by
  have hno : ∀ x, ¬ HexText (String.ofList (Json.b64 b)) x := by
    intro x hx
    unfold HexText at hx
    rw [String.toList_ofList] at hx
    have hm : Char.toLower '=' ∈ hexOf x := by rw [← hx]; exact List.mem_map_of_mem (b64_pad b h3)
    obtain ⟨d, hd, e⟩ := hexOf_chars x _ hm
    have : ∀ d < 16, Char.toLower '=' ≠ hexChar d := by decide
    exact this d hd e
  unfold BytesText
  rw [hf, String.toList_ofList, Json.unb64_b64]
  constructor
  · rintro (h | ⟨_, h | ⟨_, h⟩⟩)
    · cases h
    · exact absurd h (hno b')
    · exact (Option.some.inj h).symm
  · rintro rfl
    exact .inr ⟨rfl, .inr ⟨hno, rfl⟩⟩

/-- Hexadecimal after `0x` is refused for an even number of bytes, such as the 32 of an address; for an odd number it is taken for base64
and read as other bytes. -/
theorem C118_prefix (cl : Machine) (b : Bytes) (hf : cl.file (String.ofList ('0' :: 'x' :: hexOf b)) = none) :
    (b.length % 2 = 0 → ∀ b', ¬ BytesText cl (String.ofList ('0' :: 'x' :: hexOf b)) b') ∧
    (b.length % 2 = 1 → ∃ b', BytesText cl (String.ofList ('0' :: 'x' :: hexOf b)) b' ∧ b'.length = 3 * ((b.length + 1) / 2)) := by
  have hno : ∀ x, ¬ HexText (String.ofList ('0' :: 'x' :: hexOf b)) x := by
    intro x hx
    unfold HexText at hx
    rw [String.toList_ofList] at hx
    have hm : Char.toLower 'x' ∈ hexOf x := by rw [← hx]; exact List.mem_map_of_mem (by simp)
    obtain ⟨d, hd, e⟩ := hexOf_chars x _ hm
    have : ∀ d < 16, Char.toLower 'x' ≠ hexChar d := by decide
    exact this d hd e
  have hchars : ∀ c ∈ '0' :: 'x' :: hexOf b, c ≠ '=' ∧ (Json.b64Val c).isSome ∧ c ≠ '\r' ∧ c ≠ '\n' := by
    intro c hc
    rcases List.mem_cons.1 hc with rfl | hc
    · decide
    · rcases List.mem_cons.1 hc with rfl | hc
      · decide
      · obtain ⟨d, hd, rfl⟩ := hexOf_chars b c hc
        have : ∀ d < 16, hexChar d ≠ '=' ∧ (Json.b64Val (hexChar d)).isSome ∧ hexChar d ≠ '\r' ∧ hexChar d ≠ '\n' := by decide
        exact this d hd
  have hfil : Json.unb64 ('0' :: 'x' :: hexOf b) = Json.unb64Groups ('0' :: 'x' :: hexOf b) := by
    unfold Json.unb64
    rw [List.filter_eq_self.2]
    intro c hc
    have := hchars c hc
    simp [this.2.2.1, this.2.2.2]
  have hlen : ('0' :: 'x' :: hexOf b).length = 2 + 2 * b.length := by
    rw [List.length_cons, List.length_cons, hexOf_length]; omega
  constructor
  · rintro he b' (h | ⟨_, h | ⟨_, h⟩⟩)
    · rw [hf] at h; cases h
    · exact hno b' h
    · rw [String.toList_ofList, hfil] at h
      have := unb64Groups_length _ h
      omega
  · intro ho
    obtain ⟨x, hx, hl⟩ := unb64Groups_total ((b.length + 1) / 2) ('0' :: 'x' :: hexOf b) (by omega)
      fun c hc => ⟨(hchars c hc).1, (hchars c hc).2.1⟩
    exact ⟨x, .inr ⟨hf, .inr ⟨hno, by rw [String.toList_ofList, hfil]; exact hx⟩⟩, hl⟩


/-- The name of a key goes before an address: a text that is both stands for the key. -/
theorem C118_key_first (c : Cfg) (cl : Machine) (w : String) (a : Addr) (m : Msg) (hk : cl.key w = some a) (hw : Word w) :
    Says c cl ["portal", "transfer-ownership", w] m ↔ m = .transferOwnership cl.sender (c.encode a) := by
  constructor
  · intro h
    generalize e : ["portal", "transfer-ownership", w] = ws at h
    cases h <;> simp at e
    case transferOwnership hw ho =>
      subst e
      rcases ho with ⟨a', h1, rfl⟩ | ⟨h1, _⟩
      · rw [hk] at h1; cases h1; rfl
      · rw [hk] at h1; cases h1
  · rintro rfl
    exact .transferOwnership hw (.inl ⟨a, hk, rfl⟩)

/-- The statistics of version 1 cannot be asked for: `stats` asks for those of version 2. -/
theorem C118_stats (c : Cfg) (cl : Machine) : (∀ words, query c cl words ≠ some .stats) ∧
    query c cl ["stats"] = some .statsV2 := by
  refine ⟨fun words h => ?_, rfl⟩
  have := (C118_queries c cl words _).1 h
  cases this

/-! ### Examples -/

/-- A machine without files, with one key. -/
def Demo.machine : Machine := ⟨fun _ => none, fun w => if w = "bob" then some [1, 2] else none, "alice"⟩

/-- The hypotheses of `C118_transactions` hold of a line, and its meaning: a leading zero makes the amount octal, and the chain is
reduced to 16 bits. -/
theorem C118_octal : message Demo.cfg Demo.machine ["portal", "transfer", "0100", "65538", "ab", "qw=="] =
    some (.transfer "alice" (some 64) 2 [0xab] [0xab]) := by decide +kernel

example : Ascii Demo.machine.sender ∧
    (∀ w ∈ ["portal", "transfer", "0100", "65538", "ab", "qw=="], ∀ o, AddrText Demo.cfg Demo.machine w o → Ascii o) ∧
    (∀ x, sent Demo.cfg Demo.machine ["portal", "transfer", "0100", "65538", "ab", "qw=="] = some x → x.2.length < 2 ^ 63) := by
  refine ⟨by decide, ?_, ?_⟩
  · have key : ∀ w ∈ ["portal", "transfer", "0100", "65538", "ab", "qw=="], Demo.machine.key w = none ∧ Demo.cfg.decode w = none := by
      decide +kernel
    intro w hw o
    obtain ⟨h1, h2⟩ := key w hw
    rintro (⟨a, h, _⟩ | ⟨_, _, a, h⟩)
    · rw [h1] at h; cases h
    · rw [h2] at h; cases h
  · intro x hx
    have e : (sent Demo.cfg Demo.machine ["portal", "transfer", "0100", "65538", "ab", "qw=="]).map (fun x => x.2.length) = some 23 := by
      decide +kernel
    rw [hx] at e
    have : x.2.length = 23 := Option.some.inj e
    omega

/-- Base64 of three bytes that is also hexadecimal is read as two other bytes. -/
theorem C118_ambiguous : String.ofList (Json.b64 [0x69, 0xb7, 0x1d]) = "abcd" ∧
    message Demo.cfg Demo.machine ["portal", "deliver", "abcd"] = some (.deliver [0xab, 0xcd]) := by decide +kernel

example : message Demo.cfg Demo.machine ["vaults", "lock", "flexible", "1000000"] = some (.lock "alice" 2 (some 1000000)) ∧
    message Demo.cfg Demo.machine ["vaults", "lock", "Flexible", "1000000"] = none ∧
    message Demo.cfg Demo.machine ["vaults", "lock", "flexible", "1e6"] = none ∧
    message Demo.cfg Demo.machine ["vaults", "lock", "flexible"] = none ∧
    message Demo.cfg Demo.machine ["vaults", "lock", "flexible", "-5"] = none ∧
    message Demo.cfg Demo.machine ["vaults", "set-paused-state", "all"] = some (.vaultsSetPaused "alice" 3) ∧
    message Demo.cfg Demo.machine ["set-paused-state", "T"] = some (.setPaused "alice" true) ∧
    message Demo.cfg Demo.machine ["set-yield-recipient", "IBC", "channel-0", "x"] =
      some (.setYieldRecipient "alice" 0 "channel-0" "x") := by decide +kernel

example : query Demo.cfg Demo.machine ["portal", "destination-tokens", "0x10"] = some (.destinationTokens 16) ∧
    query Demo.cfg Demo.machine ["yield", "bob"] = some (.yield (Demo.cfg.encode [1, 2])) ∧
    query Demo.cfg Demo.machine ["vaults", "positions-by-provider", "bob"] = some (.positions "bob") ∧
    query Demo.cfg Demo.machine ["vaults", "stats", "x"] = none := by decide +kernel

example : Sendable Demo.cfg Demo.machine (.setPeer "alice" 2 [1] [0xff]) ∧
    line (.setPeer "alice" 2 [1] [0xff]) = some ["portal", "set-peer", "2", "01", "ff"] := ⟨⟨rfl, by decide⟩, by decide +kernel⟩

example : Demo.machine.key "bob" = some [1, 2] ∧ Word "bob" := by decide

end Dollar
