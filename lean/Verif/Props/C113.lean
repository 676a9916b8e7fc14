import Verif.Lemmas.Bech32
import Verif.Lemmas.Spelling
import Verif.Props.C39

/-
C113.  Accounts as text.  With the address codec that the module is built with, an account has exactly two spellings, the
lower case one and the upper case one; a text with a mistake within six neighbouring characters is refused; the module's
assumptions about the codec hold; users may sign with either spelling, the authority and the owner may not.
-/
set_option linter.unusedSimpArgs false
namespace Dollar
open Spec MM

/-- The same message of a user, signed under two names. -/
inductive Spec.Resigned (p q : String) : Msg → Msg → Prop
  | claim : Resigned p q (.claimYield p) (.claimYield q)
  | lock (v : Int) (x : Option Int) : Resigned p q (.lock p v x) (.lock q v x)
  | unlock (v : Int) (x : Option Int) : Resigned p q (.unlock p v x) (.unlock q v x)
  | transfer (x : Option Int) (chain : Nat) (token recipient : Bytes) :
    Resigned p q (.transfer p x chain token recipient) (.transfer q x chain token recipient)

/-- The upper case spelling. -/
def Spec.upperStr (s : String) : String := String.ofList (s.toList.map Char.toUpper)

/-- A state without its log. -/
def Spec.unlogged (s : State) : State := { s with events := [] }

/-! ### The spellings of an account -/

/-- A text is read as an account exactly if the account has 1 to 255 bytes and the text is its lower case or its upper case
spelling. -/
theorem C113_spellings (pre : String) (hp : Bech32.PrefixOk pre.toList) (s : String) (a : Addr) :
    Bech32.decode pre s = some a ↔
      (s = Bech32.encode pre a ∨ s = upperStr (Bech32.encode pre a)) ∧ 1 ≤ a.length ∧ a.length ≤ 255 :=
  Bech32.decode_iff hp s a

/-- What is written is read back, and different accounts are written differently. -/
theorem C113_roundtrip (pre : String) (hp : Bech32.PrefixOk pre.toList) (a : Addr) (h1 : 1 ≤ a.length)
    (h2 : a.length ≤ 255) : Bech32.decode pre (Bech32.encode pre a) = some a :=
  (C113_spellings pre hp _ a).2 ⟨Or.inl rfl, h1, h2⟩

/-- Different accounts, of any length, are written differently. -/
theorem C113_injective (pre : String) (a b : Addr) (h : Bech32.encode pre a = Bech32.encode pre b) : a = b :=
  Bech32.encode_inj h

/-! ### Mistakes -/

namespace Bech32

/-- The groups of an address and its check sum. -/
def full (pre : String) (a : Addr) : List Nat := to5 a ++ checksum pre.toList (to5 a)

theorem full_lt (pre : String) (a : Addr) : ∀ d ∈ full pre a, d < 32 := fun d hd => by
  rcases List.mem_append.1 hd with hd | hd
  · exact to5_lt a d hd
  · exact checksum_lt _ _ d hd

theorem encode_full (pre : String) (a : Addr) :
    (encode pre a).toList = pre.toList ++ '1' :: (full pre a).map charOf := by
  unfold encode
  rw [String.toList_ofList, encode5_eq]
  rfl

theorem full_fold (pre : String) (a : Addr) :
    (full pre a).foldl polyStep ((hrpExpand pre.toList).foldl polyStep 1) = 1 := by
  have := (verified_iff pre.toList (to5 a) _ (checksum_length _ _) (checksum_lt _ _)).2 rfl
  unfold verified polymod at this
  rw [List.foldl_append] at this
  exact of_decide_eq_true this

theorem map_charOf_inj {l m : List Nat} (hl : ∀ d ∈ l, d < 32) (hm : ∀ d ∈ m, d < 32)
    (h : l.map charOf = m.map charOf) : l = m := by
  have := mapM_charOf hl
  rw [h, mapM_charOf hm] at this
  exact (Option.some.inj this).symm

theorem full_inj {pre : String} {a b : Addr} (h : full pre a = full pre b) : a = b := by
  have h4 := (List.append_inj' h (by rw [checksum_length, checksum_length])).1
  have := to8_to5 a
  rw [h4, to8_to5] at this
  exact (Option.some.inj this).symm

/-- Texts that differ within six neighbouring places and are both read are read as the same account. -/
theorem same_of_burst {pre : String} {l w w' r : List Char} (hw : w.length = w'.length) (h6 : w.length ≤ 6) {a b : Addr}
    (h : lowerStr (String.ofList (l ++ w ++ r)) = encode pre a)
    (h' : lowerStr (String.ofList (l ++ w' ++ r)) = encode pre b) : a = b := by
  have e := congrArg String.toList h
  have e' := congrArg String.toList h'
  unfold lowerStr at e e'
  rw [String.toList_ofList, String.toList_ofList, encode_full, List.map_append, List.map_append] at e e'
  have cut : ∀ {L W R T : List Char}, L ++ W ++ R = pre.toList ++ '1' :: T →
      T = L.drop (pre.toList.length + 1) ++ W.drop (pre.toList.length + 1 - L.length) ++
        R.drop (pre.toList.length + 1 - (L.length + W.length)) := by
    intro L W R T hT
    have h1 := congrArg (List.drop (pre.toList.length + 1)) hT
    rw [List.drop_append, List.drop_append, List.length_append] at h1
    rw [h1, show pre.toList ++ '1' :: T = (pre.toList ++ ['1']) ++ T by simp, List.drop_left' (by simp)]
  have f := cut e
  have f' := cut e'
  rw [List.length_map, List.length_map] at f f'
  rw [← hw] at f'
  obtain ⟨x, r1, hx, hl, hr⟩ := List.map_eq_append_iff.1 f
  obtain ⟨l1, w1, rfl, hl1, hw1⟩ := List.map_eq_append_iff.1 hl
  obtain ⟨x', r2, hx', hl', hr'⟩ := List.map_eq_append_iff.1 f'
  obtain ⟨l2, w2, rfl, hl2, hw2⟩ := List.map_eq_append_iff.1 hl'
  have lt := full_lt pre a
  have lt' := full_lt pre b
  rw [hx] at lt
  rw [hx'] at lt'
  have hl : l1 = l2 := map_charOf_inj (fun d hd => lt d (by simp [hd])) (fun d hd => lt' d (by simp [hd])) (hl1.trans hl2.symm)
  have hr : r1 = r2 := map_charOf_inj (fun d hd => lt d (by simp [hd])) (fun d hd => lt' d (by simp [hd])) (hr.trans hr'.symm)
  subst hl hr
  have hlen : w1.length = w2.length := by
    have e1 := congrArg List.length hw1
    have e2 := congrArg List.length hw2
    simp only [List.length_map, List.length_drop] at e1 e2
    omega
  have h7 : w1.length ≤ 6 := by
    have e1 := congrArg List.length hw1
    simp only [List.length_map, List.length_drop] at e1
    omega
  have g := full_fold pre a
  have g' := full_fold pre b
  rw [hx] at g
  rw [hx'] at g'
  have := burst hlen h7 (fun d hd => lt d (by simp [hd])) (fun d hd => lt' d (by simp [hd])) (g.trans g'.symm)
  subst this
  exact full_inj (hx.trans hx'.symm)

end Bech32

/-- Replace up to six neighbouring characters of the text of an account by as many others: if more than the case changes,
the result is not an account. -/
theorem C113_typo (pre : String) (l w w' r : List Char) (hw : w.length = w'.length) (h6 : w.length ≤ 6) (a : Addr)
    (h : Bech32.decode pre (String.ofList (l ++ w ++ r)) = some a) (hne : w.map Char.toLower ≠ w'.map Char.toLower) :
    Bech32.decode pre (String.ofList (l ++ w' ++ r)) = none := by
  cases h' : Bech32.decode pre (String.ofList (l ++ w' ++ r)) with
  | none => rfl
  | some b =>
    have e1 := Bech32.decode_lower h
    have e2 := Bech32.decode_lower h'
    obtain rfl := Bech32.same_of_burst hw h6 e1 e2
    have e3 := congrArg String.toList (e1.trans e2.symm)
    simp only [String.toList_ofList, List.map_append, List.append_assoc] at e3
    have e4 := List.append_cancel_left e3
    exact absurd (List.append_inj_left e4 (by simp [hw])) hne

/-- Two neighbouring characters swapped: not an account, unless they are the same letter. -/
theorem C113_swap (pre : String) (l r : List Char) (x y : Char) (a : Addr)
    (h : Bech32.decode pre (String.ofList (l ++ [x, y] ++ r)) = some a) (hne : x.toLower ≠ y.toLower) :
    Bech32.decode pre (String.ofList (l ++ [y, x] ++ r)) = none :=
  C113_typo pre l [x, y] [y, x] r rfl (by simp) a h fun e => hne (List.cons.inj e).1

/-- One character wrong, be it only in its case: not an account. -/
theorem C113_one_char (pre : String) (hp : Bech32.PrefixOk pre.toList) (l r : List Char) (x y : Char) (a : Addr)
    (h : Bech32.decode pre (String.ofList (l ++ x :: r)) = some a) (hne : x ≠ y) :
    Bech32.decode pre (String.ofList (l ++ y :: r)) = none := by
  by_cases hc : x.toLower = y.toLower
  · cases h' : Bech32.decode pre (String.ofList (l ++ y :: r)) with
    | none => rfl
    | some b =>
      exfalso
      have e1 := Bech32.decode_lower h
      have e2 := Bech32.decode_lower h'
      have hab : a = b := Bech32.same_of_burst (l := l) (w := [x]) (w' := [y]) (r := r) rfl (by simp)
        (by rw [List.append_assoc]; exact e1) (by rw [List.append_assoc]; exact e2)
      subst hab
      have s1 := ((C113_spellings pre hp _ a).1 h).1
      have s2 := ((C113_spellings pre hp _ a).1 h').1
      -- the first two characters of the prefix are letters, and one of them is not the one that changed
      have key : ∀ {u v : Char}, String.ofList (l ++ u :: r) = Bech32.encode pre a →
          String.ofList (l ++ v :: r) = upperStr (Bech32.encode pre a) → False := by
        intro u v hu hv
        have hu := congrArg String.toList hu
        have hv := congrArg String.toList hv
        unfold upperStr at hv
        rw [String.toList_ofList] at hu hv
        rw [String.toList_ofList, ← hu, List.map_append, List.map_cons] at hv
        rw [Bech32.encode_full] at hu
        obtain ⟨p0, p1, ps, hps⟩ : ∃ p0 p1 ps, pre.toList = p0 :: p1 :: ps := by
          have := hp.two
          match hq : pre.toList with
          | [] => rw [hq] at this; simp at this
          | [_] => rw [hq] at this; simp at this
          | a :: b :: t => exact ⟨a, b, t, rfl⟩
        have l0 := (Bech32.letter (hp.letters p0 (by rw [hps]; simp))).2.1
        have l1 := (Bech32.letter (hp.letters p1 (by rw [hps]; simp))).2.1
        rw [hps] at hu
        cases l with
        | nil =>
          cases r with
          | nil => simp at hu
          | cons b t =>
            simp only [List.nil_append, List.cons_append, List.map_cons, List.cons.injEq, List.map_nil] at hu hv
            obtain ⟨_, rfl, _⟩ := hu
            exact l1 hv.2.1.symm
        | cons b t =>
          simp only [List.cons_append, List.map_cons, List.cons.injEq] at hu hv
          obtain ⟨rfl, _⟩ := hu
          exact l0 hv.1.symm
      rcases s1 with s1 | s1 <;> rcases s2 with s2 | s2
      · exact hne (List.cons.inj (List.append_cancel_left (String.ofList_injective (s1.trans s2.symm)))).1
      · exact key s1 s2
      · exact key s2 s1
      · exact hne (List.cons.inj (List.append_cancel_left (String.ofList_injective (s1.trans s2.symm)))).1
  · have := C113_typo pre l [x] [y] r rfl (by simp) a (by rw [List.append_assoc]; exact h)
      fun e => hc (List.cons.inj e).1
    rw [List.append_assoc] at this
    exact this

/-- Insertions are another matter: two `q` before the last `p` of this account give the text of another account. -/
theorem C113_longer :
    Bech32.decode "noble" "noble1qnpswpc8qurswpc8qurswpc8qurswpc8qv8ydp" = some ([4, 195] ++ List.replicate 18 7) ∧
    Bech32.decode "noble" "noble1qnpswpc8qurswpc8qurswpc8qurswpc8qv8ydqqp" =
      some ([4, 195] ++ List.replicate 18 7 ++ [3]) := by decide +kernel

/-! ### What the rest of the model assumes -/

/-- The chain's address codec. -/
structure Spec.ChainCodec (pre : String) (c : Cfg) : Prop where
  ok : Bech32.PrefixOk pre.toList
  decode : c.decode = Bech32.decode pre
  encode : c.encode = Bech32.encode pre

/-- With this codec the assumptions of the model about addresses as text hold; what is left concerns hashes and the bank's
block list. -/
theorem C113_wf (pre : String) (c : Cfg) (hc : ChainCodec pre c)
    (h1 : ∀ m n, c.modAddr m = c.modAddr n → m = n)
    (h2 : ∀ a b, c.escrow "transfer" a = c.escrow "transfer" b → a = b)
    (h3 : ∀ n p ch, c.modAddr n ≠ c.escrow p ch)
    (h4 : (c.modAddr "dollar/portal/manager").length = 20)
    (h5 : c.blocked c.moduleAddr = true) : c.WF where
  mod_inj := h1
  escrow_inj := h2
  mod_ne_escrow := h3
  mod_len := h4
  decode_lower := fun s a h => by rw [hc.decode] at h; rw [hc.encode]; exact Bech32.decode_lower h
  encode_inj := fun a b h => by rw [hc.encode] at h; exact Bech32.encode_inj h
  module_blocked := h5

/-- With this codec a state can be exported as soon as its accounts have addresses of 1 to 255 bytes and its routes have plain
names. -/
theorem C113_exportable (pre : String) (c : Cfg) (hc : ChainCodec pre c) (s : State)
    (h1 : ∀ e ∈ s.principal, 1 ≤ e.1.length ∧ e.1.length ≤ 255) (h2 : 1 ≤ s.collector.length ∧ s.collector.length ≤ 255)
    (h3 : ∀ e ∈ s.extYield, PlainRoute e.1) (h4 : ∀ e ∈ s.recipients, PlainRoute e.1) (h5 : ∀ e ∈ s.retry, PlainRoute e.1) :
    Exportable c s where
  accounts := fun e he => by
    rw [hc.decode, hc.encode]; exact C113_roundtrip pre hc.ok _ (h1 e he).1 (h1 e he).2
  collector := by rw [hc.decode, hc.encode]; exact C113_roundtrip pre hc.ok _ h2.1 h2.2
  extYield := h3
  recipients := h4
  retry := h5

/-! ### Signers -/

/-- Whichever spelling of their account a user signs with: the message ends the same way, and does the same to everything but
the log. -/
theorem C113_either (c : Cfg) (hc : c.WF) (env : Env) (s : State) (p q : String) (a : Addr) (hp : c.decode p = some a)
    (hq : c.decode q = some a) (m m' : Msg) (h : Resigned p q m m') :
    outcome c env m s = outcome c env m' s ∧ unlogged (step c env m s) = unlogged (step c env m' s) := by
  have hd : c.decode p = c.decode q := hp.trans hq.symm
  have hl : lowerStr p = lowerStr q := (hc.decode_lower p a hp).trans (hc.decode_lower q a hq).symm
  have key : Same2 Retold (exec c env m) (exec c env m') := by
    cases h with
    | claim => exact Retold.claimYield hd
    | lock v x => exact Retold.lock env hd hl v x
    | unlock v x => exact Retold.unlock hd hl v x
    | transfer x ch t r => exact Retold.transfer env hd x ch t r
  have hr := key.rel s s (Retold.refl s)
  unfold outcome step runTx
  revert hr
  cases exec c env m s <;> cases exec c env m' s <;> intro hr <;> first | exact (hr : False).elim | skip
  · obtain ⟨_, l, rfl⟩ := hr
    exact ⟨rfl, rfl⟩
  · obtain ⟨rfl, _⟩ := hr
    exact ⟨rfl, rfl⟩
  · exact ⟨rfl, rfl⟩

theorem upper_ne {pre : String} (hp : Bech32.PrefixOk pre.toList) (a : Addr) :
    upperStr (Bech32.encode pre a) ≠ Bech32.encode pre a := by
  intro e
  have h := congrArg String.toList e
  unfold upperStr at h
  rw [String.toList_ofList, Bech32.encode_full] at h
  have := hp.two
  match hq : pre.toList with
  | [] => rw [hq] at this; simp at this
  | b :: t =>
    rw [hq] at h
    simp only [List.cons_append, List.map_cons, List.cons.injEq] at h
    exact (Bech32.letter (hp.letters b (by rw [hq]; simp))).2.1 h.1

theorem outcome_err {c : Cfg} {env : Env} {m : Msg} {s : State} {e : Err} (h : exec c env m s = .err e s) :
    outcome c env m s = .error e := by
  unfold outcome; rw [h]

theorem not_authority {c : Cfg} {q : String} (hne : q ≠ c.authority) (env : Env) (s : State) :
    (∀ b, outcome c env (.setPaused q b) s = .error .invalidAuthority) ∧
    (∀ v i r, outcome c env (.setYieldRecipient q v i r) s = .error .invalidAuthority) ∧
    (∀ v, outcome c env (.vaultsSetPaused q v) s = .error .invalidAuthority) := by
  refine ⟨fun b => outcome_err ?_, fun v i r => outcome_err ?_, fun v => outcome_err ?_⟩
  · show setPaused c q b s = _
    unfold setPaused
    rw [if_pos hne]
    rfl
  · show setYieldRecipient c env q v i r s = _
    unfold setYieldRecipient
    rw [if_pos hne]
    rfl
  · show vaultsSetPaused c q v s = _
    unfold vaultsSetPaused
    rw [if_pos hne]
    rfl

theorem not_owner {c : Cfg} {q : String} {s : State} (ho : s.owner ≠ "") (hne : q ≠ s.owner) (env : Env) :
    (∀ b, outcome c env (.portalSetPaused q b) s = .error .notOwner) ∧
    (∀ ch t m, outcome c env (.setPeer q ch t m) s = .error .notOwner) ∧
    (∀ ch t b, outcome c env (.setBridgingPath q ch t b) s = .error .notOwner) ∧
    (∀ n, outcome c env (.transferOwnership q n) s = .error .notOwner) := by
  have key : ensureOwner q s = .err .notOwner s := by
    unfold ensureOwner
    show (if s.owner = "" then _ else _ : M Unit) s = _
    rw [if_neg ho, if_pos hne]
    rfl
  have run : ∀ {f : Unit → M Unit}, (ensureOwner q >>= f) s = .err .notOwner s := by
    intro f; rw [bind_apply, key]
  exact ⟨fun b => outcome_err run, fun ch t m => outcome_err run, fun ch t b => outcome_err run, fun n => outcome_err run⟩

/-- The authority and the owner are compared as text: the upper case spelling of the same account is refused, by every
message that only they may send, in every state. -/
theorem C113_authority (pre : String) (c : Cfg) (hc : ChainCodec pre c) (env : Env) (s : State) (a : Addr)
    (hlen : 1 ≤ a.length ∧ a.length ≤ 255) (q : String) (hq : q = upperStr (c.encode a)) :
    c.decode q = some a ∧
    (c.authority = c.encode a →
      (∀ b, outcome c env (.setPaused q b) s = .error .invalidAuthority) ∧
      (∀ v i r, outcome c env (.setYieldRecipient q v i r) s = .error .invalidAuthority) ∧
      (∀ v, outcome c env (.vaultsSetPaused q v) s = .error .invalidAuthority)) ∧
    (s.owner = c.encode a →
      (∀ b, outcome c env (.portalSetPaused q b) s = .error .notOwner) ∧
      (∀ ch t m, outcome c env (.setPeer q ch t m) s = .error .notOwner) ∧
      (∀ ch t b, outcome c env (.setBridgingPath q ch t b) s = .error .notOwner) ∧
      (∀ n, outcome c env (.transferOwnership q n) s = .error .notOwner)) := by
  rw [hc.encode] at hq
  have hne : q ≠ c.encode a := by rw [hq, hc.encode]; exact upper_ne hc.ok a
  refine ⟨?_, fun he => not_authority (he ▸ hne) env s, fun he => not_owner ?_ (he ▸ hne) env⟩
  · rw [hc.decode]
    exact (C113_spellings pre hc.ok _ a).2 ⟨Or.inr hq, hlen⟩
  · rw [he, hc.encode]
    intro e
    have := congrArg (fun x => x.toList.length) e
    simp [Bech32.encode_full] at this

/-- The check against handing over to oneself compares text too: the owner can hand over to the other spelling of their own
account, and is then refused under the name that worked before. -/
theorem C113_own_account (pre : String) (c : Cfg) (hc : ChainCodec pre c) (env : Env) (s : State) (a : Addr)
    (hlen : 1 ≤ a.length ∧ a.length ≤ 255) (ho : s.owner = c.encode a) :
    let s' := step c env (.transferOwnership (c.encode a) (upperStr (c.encode a))) s
    s'.owner = upperStr (c.encode a) ∧ ∀ b, outcome c env (.portalSetPaused (c.encode a) b) s' = .error .notOwner := by
  intro s'
  have hne : upperStr (c.encode a) ≠ c.encode a := by rw [hc.encode]; exact upper_ne hc.ok a
  have hd : c.decode (upperStr (c.encode a)) = some a := by
    rw [hc.decode, hc.encode]
    exact (C113_spellings pre hc.ok _ a).2 ⟨Or.inr rfl, hlen⟩
  have h0 : ∀ x : String, x.toList.length = (c.encode a).toList.length → x ≠ "" := by
    intro x hx e
    rw [e, hc.encode, Bech32.encode_full] at hx
    simp at hx
  have hu : upperStr (c.encode a) ≠ "" := h0 _ (by unfold upperStr; rw [String.toList_ofList, List.length_map])
  have key : ensureOwner (c.encode a) s = .ok () s := by
    unfold ensureOwner
    show (if s.owner = "" then _ else _ : M Unit) s = _
    rw [if_neg (by rw [ho]; exact h0 _ rfl), if_neg (by rw [ho]; exact fun h => h rfl)]
    rfl
  have hs : s'.owner = upperStr (c.encode a) := by
    show (runTx (transferOwnership c (c.encode a) (upperStr (c.encode a))) s).owner = _
    unfold runTx transferOwnership
    rw [bind_apply, key]
    simp only [hd]
    rw [if_neg hne]
    rfl
  exact ⟨hs, (not_owner (by rw [hs]; exact hu) (by rw [hs]; exact hne.symm) env).1⟩

/-! ### The hypotheses are met -/

theorem noble_ok : Bech32.PrefixOk "noble".toList := ⟨by decide, by decide, by decide⟩

/-- An account of twenty bytes, its two spellings, and the same with a mistake. -/
example :
    Bech32.encode "noble" (List.range 20 |>.map UInt8.ofNat) = "noble1qqqsyqcyq5rqwzqfpg9scrgwpugpzysnt4yjfh" ∧
    Bech32.decode "noble" "NOBLE1QQQSYQCYQ5RQWZQFPG9SCRGWPUGPZYSNT4YJFH" = some (List.range 20 |>.map UInt8.ofNat) ∧
    Bech32.decode "noble" "noble1qqqsyqcyq5rqwzqfpg9scrgwpugpzysn4tyjfh" = none ∧
    Bech32.decode "noble" "Noble1qqqsyqcyq5rqwzqfpg9scrgwpugpzysnt4yjfh" = none := by decide +kernel

/-- A chain with this codec that satisfies every assumption of the model: the module accounts of the demo, written with it. -/
def Demo.nobleCfg : Cfg :=
  { Demo.cfg with
    decode := Bech32.decode "noble", encode := Bech32.encode "noble",
    authority := Bech32.encode "noble" (List.replicate 20 9) }

theorem Demo.noble : ChainCodec "noble" Demo.nobleCfg := ⟨noble_ok, rfl, rfl⟩

theorem Demo.nobleWF : Demo.nobleCfg.WF :=
  C113_wf "noble" _ Demo.noble Demo.cfg_wf.mod_inj Demo.cfg_wf.escrow_inj Demo.cfg_wf.mod_ne_escrow Demo.cfg_wf.mod_len
    Demo.cfg_wf.module_blocked

/-- A user with two million locks half of it, signing with the upper case spelling; the authority succeeds with its own spelling
only. -/
example :
    let a : Addr := List.range 20 |>.map UInt8.ofNat
    let s : State := { Demo.start with bal := KV.set Demo.start.bal a 2000000, principal := KV.set Demo.start.principal a 2000000 }
    let q := upperStr (Bech32.encode "noble" a)
    outcome Demo.nobleCfg (Demo.env 5) (.lock q FLEXIBLE (some 1000000)) s = .done ∧
    (step Demo.nobleCfg (Demo.env 5) (.lock q FLEXIBLE (some 1000000)) s).balance a = 1000000 ∧
    outcome Demo.nobleCfg (Demo.env 5) (.setPaused Demo.nobleCfg.authority true) s = .done ∧
    outcome Demo.nobleCfg (Demo.env 5) (.setPaused (upperStr Demo.nobleCfg.authority) true) s = .error .invalidAuthority := by
  decide +kernel

end Dollar
