import Mathlib.Tactic.IntervalCases
import Verif.Model.Cli
import Verif.Lemmas.RouteKeys
import Verif.Props.C48
import Verif.Props.C103

/-
C107: the command line names routes as the lists print them, in any letter case, and what was set is what is shown.
-/
set_option maxRecDepth 100000
namespace Dollar
open MM Spec

/-- `input` is the lower-case `word`, each letter in either case; a capital I may carry a dot. -/
def Spec.Spells (input word : String) : Prop :=
  List.Forall₂ (fun c l => c = l ∨ c = l.toUpper ∨ c.toNat = 0x130 ∧ l = 'i') input.toList word.toList

/-- A provider as a user names it. -/
def Spec.Names (input : String) (provider : Int) : Prop :=
  (provider = 0 ∧ Spells input "ibc") ∨ (provider = 1 ∧ Spells input "hyperlane")

theorem char_eq_of_toNat {a b : Char} (h : a.toNat = b.toNat) : a = b := Char.toNat_inj.1 h

theorem runeLower_upper (c : Char) (h : 'A' ≤ c ∧ c ≤ 'Z') : (runeLower c).toNat = c.toNat + 32 ∧ 65 ≤ c.toNat ∧ c.toNat ≤ 90 := by
  have h1 : 65 ≤ c.toNat := h.1
  have h2 : c.toNat ≤ 90 := h.2
  refine ⟨?_, h1, h2⟩
  unfold runeLower
  rw [if_pos h]
  generalize c.toNat = n at h1 h2
  interval_cases n <;> rfl

theorem runeLower_iff (c l : Char) (hl : l ∈ "abcdefghijlmnopqrstuvwxyz".toList) :
    runeLower c = l ↔ c = l ∨ c = l.toUpper ∨ c.toNat = 0x130 ∧ l = 'i' := by
  have facts : (97 ≤ l.toNat ∧ l.toNat ≤ 122 ∧ l ≠ 'k') ∧ l.toUpper.toNat + 32 = l.toNat := by
    revert l; decide
  obtain ⟨⟨g1, g2, g3⟩, g4⟩ := facts
  by_cases hu : 'A' ≤ c ∧ c ≤ 'Z'
  · obtain ⟨e, h1, h2⟩ := runeLower_upper c hu
    constructor
    · intro h
      rw [h] at e
      exact .inr (.inl (char_eq_of_toNat (by omega)))
    · rintro (h | h | ⟨h, _⟩)
      · rw [h] at h2; omega
      · refine char_eq_of_toNat ?_
        rw [e, h]; exact g4
      · omega
  · have hu' : ¬ (65 ≤ c.toNat ∧ c.toNat ≤ 90) := hu
    unfold runeLower
    rw [if_neg hu]
    split
    · next h =>
      constructor
      · intro e; exact .inr (.inr ⟨h, e.symm⟩)
      · rintro (e | e | ⟨_, e⟩)
        · rw [e] at h; omega
        · rw [e] at h; omega
        · exact e.symm
    · next h =>
      split
      · next h2 =>
        constructor
        · intro e; exact absurd e.symm g3
        · rintro (e | e | ⟨e, _⟩)
          · rw [e] at h2; omega
          · rw [e] at h2; omega
          · omega
      · constructor
        · exact .inl
        · rintro (e | e | ⟨e, _⟩)
          · exact e
          · rw [e] at hu'; omega
          · exact absurd e h

theorem toLowerGo_iff (s w : String) (hw : ∀ l ∈ w.toList, l ∈ "abcdefghijlmnopqrstuvwxyz".toList) :
    toLowerGo s = w ↔ Spells s w := by
  have e : toLowerGo s = w ↔ s.toList.map runeLower = w.toList := by
    unfold toLowerGo
    constructor
    · intro h; rw [← h, String.toList_ofList]
    · intro h; rw [h, String.ofList_toList]
  rw [e]
  unfold Spells
  clear e
  generalize s.toList = a at *
  generalize w.toList = b at *
  induction a generalizing b with
  | nil =>
    cases b with
    | nil => exact ⟨fun _ => .nil, fun _ => rfl⟩
    | cons => exact ⟨fun h => (nomatch h), fun h => (nomatch h)⟩
  | cons x t ih =>
    cases b with
    | nil => exact ⟨fun h => (nomatch h), fun h => (nomatch h)⟩
    | cons y u =>
      rw [List.map_cons, List.cons.injEq, List.forall₂_cons, runeLower_iff x y (hw y List.mem_cons_self)]
      exact and_congr Iff.rfl (ih u fun l hl => hw l (List.mem_cons_of_mem _ hl))

theorem spells_length {s w : String} (h : Spells s w) : s.toList.length = w.toList.length := h.length_eq

/-- The first argument is understood exactly if it names one of the two providers, in any letter case. -/
theorem C107_provider (input : String) (p : Int) : parseProvider input = some p ↔ Names input p := by
  have h1 := toLowerGo_iff input "ibc" (by decide)
  have h2 := toLowerGo_iff input "hyperlane" (by decide)
  unfold parseProvider Names
  rw [← h1, ← h2]
  split
  · next h =>
    rw [h]
    constructor
    · intro e; exact .inl ⟨(Option.some.inj e).symm, rfl⟩
    · rintro (⟨rfl, _⟩ | ⟨_, e⟩)
      · rfl
      · exact absurd e (by decide)
  · next h =>
    split
    · next h' =>
      constructor
      · intro e; exact .inr ⟨(Option.some.inj e).symm, h'⟩
      · rintro (⟨_, e⟩ | ⟨rfl, _⟩)
        · exact absurd e h
        · rfl
    · next h' =>
      constructor
      · intro e; cases e
      · rintro (⟨_, e⟩ | ⟨_, e⟩)
        · exact absurd e h
        · exact absurd e h'

/-- The name that the lists print is understood as the provider for which it is printed. -/
theorem names_providerName {p : Int} (h : p = 0 ∨ p = 1) : Names (providerName p) p := by
  rw [← C107_provider]
  rcases h with rfl | rfl <;> decide

theorem recipientKey_toList (k : Int × String) : (recipientKey k).toList = (providerName k.1).toList ++ '/' :: k.2.toList := by
  unfold recipientKey
  rw [String.toList_append, String.toList_append]
  simp

theorem recipientKey_inj {k k' : Int × String} (h : k.1 = 0 ∨ k.1 = 1) (h' : k'.1 = 0 ∨ k'.1 = 1)
    (e : recipientKey k = recipientKey k') : k = k' := by
  have e := congrArg String.toList e
  rw [recipientKey_toList, recipientKey_toList] at e
  obtain ⟨p, i⟩ := k
  obtain ⟨p', i'⟩ := k'
  have n0 : (providerName 0).toList = ['I', 'B', 'C'] := by decide
  have n1 : (providerName 1).toList = ['H', 'Y', 'P', 'E', 'R', 'L', 'A', 'N', 'E'] := by decide
  rcases h with rfl | rfl <;> rcases h' with rfl | rfl <;>
    simp only [n0, n1, List.cons_append, List.nil_append, List.cons.injEq] at e
  · rw [String.toList_inj.1 (show i.toList = i'.toList by simpa using e)]
  · exact absurd e.1 (by decide)
  · exact absurd e.1 (by decide)
  · rw [String.toList_inj.1 (show i.toList = i'.toList by simpa using e)]

/-- The routes of a store belong to the two providers that exist. -/
def Spec.Known {V : Type} (m : KV (Int × String) V) : Prop := ∀ e ∈ m, e.1.1 = 0 ∨ e.1.1 = 1

theorem known_keys {V W : Type} {m : KV (Int × String) V} (hs : m.Sorted) (h : Known m) (f : V → W) :
    ((m.map fun e => (recipientKey e.1, f e.2)).map Prod.fst).Nodup := by
  rw [List.map_map]
  have := KV.nodup_keys hs
  rw [List.Nodup, List.pairwise_map] at this ⊢
  exact this.imp_of_mem fun ha hb hne e => hne (recipientKey_inj (h _ ha) (h _ hb) e)

/-- `yield-recipients` lists a route with a recipient exactly if `yield-recipient` shows that recipient when asked for the
route by any spelling of its provider. -/
theorem C107_recipients {c : Cfg} {s : State} (hr : Reachable c s) (h : Known s.recipients) (name : String) (p : Int)
    (hn : Names name p) (id r : String) :
    (∃ l, cliYieldRecipients s [] = some l ∧ (l.map Prod.fst).Nodup ∧ (providerName p ++ "/" ++ id, r) ∈ l) ↔
      cliYieldRecipient s [name, id] = some r := by
  have hp : p = 0 ∨ p = 1 := hn.imp And.left And.left
  have k := known_keys hr.shape.recipients h (fun r => r)
  have hq := goMap_perm _ k
  unfold cliYieldRecipients cliYieldRecipient
  simp only [(C107_provider name p).2 hn, Option.bind_some]
  unfold queryYieldRecipient queryYieldRecipients
  constructor
  · rintro ⟨l, hl', _, hl⟩
    cases hl'
    obtain ⟨⟨k', v⟩, he, e⟩ := List.mem_map.1 (hq.mem_iff.1 hl)
    have e1 : recipientKey k' = recipientKey (p, id) := congrArg Prod.fst e
    have e2 : v = r := congrArg Prod.snd e
    rw [← recipientKey_inj (h _ he) hp e1, ← e2]
    exact KV.get?_of_mem hr.shape.recipients he
  · intro e
    exact ⟨_, rfl, (hq.map Prod.fst).nodup_iff.2 k, hq.mem_iff.2 (List.mem_map.2 ⟨((p, id), r), KV.mem_of_get? e, rfl⟩)⟩

/-- The same for the amounts waiting for a retry; a route that is not listed has none. -/
theorem C107_retry {c : Cfg} {s : State} (hr : Reachable c s) (h : Known s.retry) (name : String) (p : Int)
    (hn : Names name p) (id : String) :
    ∃ l a, cliRetryAmounts s [] = some l ∧ (l.map Prod.fst).Nodup ∧ cliRetryAmount s [name, id] = some a ∧
      (∀ t, (providerName p ++ "/" ++ id, t) ∈ l → t = toString a) ∧
      ((∀ t, (providerName p ++ "/" ++ id, t) ∉ l) → a = 0) := by
  have hp : p = 0 ∨ p = 1 := hn.imp And.left And.left
  have k := known_keys hr.shape.retry h (fun v : Int => toString v)
  have hq := goMap_perm _ k
  unfold cliRetryAmounts cliRetryAmount
  simp only [(C107_provider name p).2 hn, Option.map_some]
  unfold queryRetryAmount queryRetryAmounts
  refine ⟨_, _, rfl, (hq.map Prod.fst).nodup_iff.2 k, rfl, fun t ht => ?_, fun hno => ?_⟩
  · obtain ⟨⟨k', v⟩, he, e⟩ := List.mem_map.1 (hq.mem_iff.1 ht)
    have e1 : recipientKey k' = recipientKey (p, id) := congrArg Prod.fst e
    have e2 : toString v = t := congrArg Prod.snd e
    have e3 := recipientKey_inj (h _ he) hp e1
    subst e3
    have := KV.get?_of_mem hr.shape.retry he
    unfold State.retryOf
    rw [← e2, this]
    rfl
  · unfold State.retryOf
    cases e : s.retry.get? (p, id) with
    | none => rfl
    | some v => exact absurd (hq.mem_iff.2 (List.mem_map.2 ⟨((p, id), v), KV.mem_of_get? e, rfl⟩)) (hno _)

/-- `set-yield-recipient` signs a message exactly if the provider is named; if it is executed, `yield-recipient` shows the
recipient for every spelling of the provider, and every other route shows what it showed before. -/
theorem C107_set {c : Cfg} {s s' : State} (env : Env) (signer name id r : String) {m : Msg}
    (hm : cliSetRecipient signer [name, id, r] = some m) (hx : exec c env m s = .ok () s') :
    ∃ p, Names name p ∧ signer = c.authority ∧ RouteExists c env s p id ∧
      (∀ n, Names n p → cliYieldRecipient s' [n, id] = some r) ∧
      ∀ n q i, Names n q → (q, i) ≠ (p, id) → cliYieldRecipient s' [n, i] = cliYieldRecipient s [n, i] := by
  unfold cliSetRecipient at hm
  simp only [Option.map_eq_some_iff] at hm
  obtain ⟨p, hp, rfl⟩ := hm
  obtain ⟨a1, a2⟩ := (C48_set_recipient_iff c env signer p id r s).1 ⟨s', hx⟩
  obtain ⟨b1, b2, _⟩ := C48_set_recipient_effect c env signer p id r s s' hx
  refine ⟨p, (C107_provider _ _).1 hp, a1, a2, fun n hn => ?_, fun n q i hn hne => ?_⟩
  · unfold cliYieldRecipient
    simp only [(C107_provider _ _).2 hn, Option.bind_some]
    exact b1
  · unfold cliYieldRecipient
    simp only [(C107_provider _ _).2 hn, Option.bind_some]
    exact b2 _ hne

/-- As long as every yield recipient is set by that command, all stores of routes hold the two providers only, so the lists above are complete. -/
theorem C107_known {c : Cfg} (h : History) (s : State)
    (hcli : ∀ e ∈ h, ∀ signer p i r, e.2 = .setYieldRecipient signer p i r →
      ∃ name, cliSetRecipient signer [name, i, r] = some e.2)
    (h0 : Known s.recipients ∧ Known s.retry ∧ Known s.extYield) :
    Known (run c h s).recipients ∧ Known (run c h s).retry ∧ Known (run c h s).extYield := by
  have step : ∀ t : State, Keyed (fun k => k.1 = 0 ∨ k.1 = 1) t → Keyed (fun k => k.1 = 0 ∨ k.1 = 1) (run c h t) := by
    induction h with
    | nil => exact fun t ht => ht
    | cons e l ih =>
      intro t ht
      refine ih (fun x hx => hcli x (List.mem_cons_of_mem _ hx)) _ ?_
      rcases step_cases c e.1 e.2 t with hs | hx
      · rw [hs]; exact ht
      · refine exec_keyed ht (fun signer p i r hm => ?_) hx
        obtain ⟨name, hn⟩ := hcli e List.mem_cons_self signer p i r hm
        unfold cliSetRecipient at hn
        simp only [Option.map_eq_some_iff] at hn
        obtain ⟨q, hq, hq'⟩ := hn
        rw [hm] at hq'
        cases hq'
        exact ((C107_provider _ _).1 hq).imp And.left And.left
  have := step s ⟨h0.1, h0.2.2, h0.2.1, fun _ _ => .inl rfl⟩
  exact ⟨this.recips, this.retry, this.ext⟩

/-- A provider that does not exist: the message itself is not refused, but no command signs it. -/
def Demo.oddProvider : Msg := .setYieldRecipient "authority" 7 "anything" "noble1x"

/-- Non-vacuity: the authority names a route in mixed case, with a dotted capital I even, and both commands show it; the
list prints the route in capitals.  A message with an unknown provider can be executed, but not signed with the command. -/
example : Demo.cfg.authority = "authority" ∧ Names "HyperLane" 1 ∧ Names "ibC" 0 ∧ parseProvider "İbc" = some 0 ∧
    parseProvider "wormhole" = none ∧
    (let s := run Demo.cfg Demo.histStats Demo.start
     Known s.recipients ∧ Known s.retry ∧
     (∃ m, cliSetRecipient "authority" ["Ibc", "channel-0", "osmo1new"] = some m ∧
       let s' := step Demo.cfg (Demo.env 9) m s
       (exec Demo.cfg (Demo.env 9) m s).isOk = true ∧
       cliYieldRecipient s' ["IBC", "channel-0"] = some "osmo1new" ∧
       cliYieldRecipient s' ["hyperlane", "A"] = cliYieldRecipient s ["hyperlane", "A"] ∧
       (cliYieldRecipients s' []).map (·.contains ("IBC/channel-0", "osmo1new")) = some true) ∧
     (exec Demo.cfg (Demo.env 9) Demo.oddProvider s).isOk = true ∧
     ¬ Known (step Demo.cfg (Demo.env 9) Demo.oddProvider s).recipients ∧
     ∀ args, cliSetRecipient "authority" args ≠ some Demo.oddProvider) := by
  refine ⟨by decide +kernel, (C107_provider _ _).1 (by decide), (C107_provider _ _).1 (by decide), by decide, by decide, ?_, ?_, ?_, ?_, ?_, ?_⟩
  · show ∀ e ∈ (run _ _ _).recipients, e.1.1 = 0 ∨ e.1.1 = 1
    decide +kernel
  · show ∀ e ∈ (run _ _ _).retry, e.1.1 = 0 ∨ e.1.1 = 1
    decide +kernel
  · exact ⟨_, rfl, by decide +kernel⟩
  · decide +kernel
  · show ¬ ∀ e ∈ (step _ _ _ _).recipients, e.1.1 = 0 ∨ e.1.1 = 1
    decide +kernel
  · intro args e
    unfold cliSetRecipient at e
    split at e
    · simp only [Option.map_eq_some_iff] at e
      obtain ⟨q, hq, hq'⟩ := e
      have : q = 7 := by injection hq'
      rcases (C107_provider _ _).1 hq with ⟨h, _⟩ | ⟨h, _⟩ <;> omega
    · cases e

end Dollar
