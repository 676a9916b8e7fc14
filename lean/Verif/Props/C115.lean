import Verif.Lemmas.Sign
import Verif.Spec.Signing
import Verif.Spec.Demo
import Verif.Props.C12
import Verif.Props.C75

/-
C115: what is signed is what is executed.  A hardware wallet shows and signs the JSON of the messages.  Two different lists of
messages never have the same JSON, except that a missing amount looks like zero, and a message with a missing amount does
nothing.  There is one gap: the chain of a transfer is shown with 32 bits and executed with 16.
-/
namespace Dollar

open Json Spec Proto

theorem own_signed (relayer : String) {m : Msg} : (signJson relayer m).isSome ↔ Own m := by
  unfold signJson
  cases m <;> simp [signFields, Own]

theorem sign_json {relayer : String} {m : Msg} {j : J} (h : signJson relayer m = some j) :
    ∃ k l, signFields relayer m = some (k, l) ∧
      j = .ofFields [("type", .ofString k), ("value", .ofFields (goMap l))] := by
  unfold signJson at h
  cases hf : signFields relayer m with
  | none => rw [hf] at h; cases h
  | some x =>
    rw [hf] at h
    exact ⟨x.1, x.2, rfl, (Option.some.inj h).symm⟩

theorem sign_json_ok {relayer : String} {m : Msg} {j : J} (h : signJson relayer m = some j) : j.Ok := by
  obtain ⟨k, l, hf, rfl⟩ := sign_json h
  obtain ⟨hok, hn⟩ := sign_ok hf
  refine ok_fields ?_
  intro e he
  simp only [List.mem_cons, List.not_mem_nil, or_false] at he
  rcases he with rfl | rfl
  · exact ok_str _
  · exact ok_fields fun e he => hok e ((goMap_perm l hn).mem_iff.1 he)

theorem fields_inj {l l' : List (String × J)} (h : J.ofFields l = J.ofFields l') : l = l' := by
  unfold J.ofFields at h
  have h := J.obj.inj h
  refine List.map_injective_iff.2 (fun a b hab => ?_) h
  obtain ⟨h1, h2⟩ := Prod.mk.inj hab
  exact Prod.ext (String.toList_inj.1 h1) h2

/-- Two messages with the same JSON. -/
theorem sign_json_inj {relayer relayer' : String} {m m' : Msg} {j : J} (h : signJson relayer m = some j)
    (h' : signJson relayer' m' = some j) : m = m' ∨ (withZero m = withZero m' ∧ (Missing m ∨ Missing m')) := by
  obtain ⟨k, l, hf, rfl⟩ := sign_json h
  obtain ⟨k', l', hf', e⟩ := sign_json h'
  have e := fields_inj e
  simp only [List.cons.injEq, Prod.mk.injEq, true_and, and_true] at e
  obtain ⟨ek, el⟩ := e
  have ek := ofString_inj.1 ek
  subst ek
  have el := fields_inj el
  have hl : ∀ n, l.lookup n = l'.lookup n := by
    intro n
    have hp := goMap_perm l (sign_ok hf).2
    have hp' := goMap_perm l' (sign_ok hf').2
    rw [← el] at hp'
    have hq : l.Perm l' := hp.symm.trans hp'
    cases hx : l.lookup n with
    | none =>
      cases hy : l'.lookup n with
      | none => rfl
      | some v =>
        have hm : (n, v) ∈ l' := by
          obtain ⟨l1, l2, rfl, _⟩ := List.lookup_eq_some_iff.1 hy
          exact List.mem_append_right _ List.mem_cons_self
        rw [lookup_of_mem (sign_ok hf).2 (hq.mem_iff.2 hm)] at hx
        cases hx
    | some v =>
      have hm : (n, v) ∈ l := by
        obtain ⟨l1, l2, rfl, _⟩ := List.lookup_eq_some_iff.1 hx
        exact List.mem_append_right _ List.mem_cons_self
      exact (lookup_of_mem (sign_ok hf').2 (hq.mem_iff.1 hm)).symm
  rcases sign_same hf hf' hl with h | ⟨s, v, a, a', ⟨rfl, rfl⟩ | ⟨rfl, rfl⟩, ha⟩ | ⟨s, a, a', ch, t, r, rfl, rfl, ha⟩
  · exact .inl h
  all_goals
    cases a <;> cases a'
    · exact .inl rfl
    · exact .inr ⟨by simp only [withZero, ha], .inl trivial⟩
    · exact .inr ⟨by simp only [withZero, ha], .inr trivial⟩
    · have ha : _ = _ := ha
      simp only [Option.getD_some] at ha
      rw [ha]
      exact .inl rfl

theorem mapM_forall {α β : Type} {f : α → Option β} {l : List α} {r : List β} (h : l.mapM f = some r) :
    List.Forall₂ (fun x y => f x = some y) l r := by
  induction l generalizing r with
  | nil =>
    cases h
    exact .nil
  | cons x t ih =>
    rw [List.mapM_cons] at h
    obtain ⟨y, hy, h⟩ := Option.bind_eq_some_iff.1 h
    obtain ⟨ys, hys, h⟩ := Option.bind_eq_some_iff.1 h
    cases h
    exact .cons hy (ih hys)

theorem sign_pairs {l l' : List (String × Msg)} {js : List J} (f1 : List.Forall₂ (fun x y => signJson x.1 x.2 = some y) l js)
    (f2 : List.Forall₂ (fun x y => signJson x.1 x.2 = some y) l' js) :
    List.Forall₂ (fun a b => a.2 = b.2 ∨ (withZero a.2 = withZero b.2 ∧ (Missing a.2 ∨ Missing b.2))) l l' := by
  induction f1 generalizing l' with
  | nil =>
    cases f2
    exact .nil
  | cons hx _ ih =>
    cases f2 with
    | cons hy f2 => exact .cons (sign_json_inj hx hy) (ih f2)

/-- C115: lists of messages with the same JSON are the same, message by message, but for missing amounts, which look like zero. -/
theorem C115_binding {l l' : List (String × Msg)} {x : List Char} (h : signText l = some x) (h' : signText l' = some x) :
    List.Forall₂ (fun a b => a.2 = b.2 ∨ (withZero a.2 = withZero b.2 ∧ (Missing a.2 ∨ Missing b.2))) l l' := by
  unfold signText at h h'
  obtain ⟨js, hjs, h⟩ := Option.map_eq_some_iff.1 h
  obtain ⟨js', hjs', h'⟩ := Option.map_eq_some_iff.1 h'
  have f1 := mapM_forall hjs
  have f2 := mapM_forall hjs'
  have hok : ∀ {l : List (String × Msg)} {js : List J}, List.Forall₂ (fun x y => signJson x.1 x.2 = some y) l js →
      ∀ j ∈ js, j.Ok := by
    intro l js hf
    induction hf with
    | nil => exact fun _ h => nomatch h
    | cons hx _ ih =>
      intro j hj
      rcases List.mem_cons.1 hj with rfl | hj
      · exact sign_json_ok hx
      · exact ih j hj
  have oka : ∀ {js : List J}, (∀ j ∈ js, j.Ok) → (J.arr js).Ok := by
    intro js hj
    have := ok_arr (write := id) js hj
    rwa [List.map_id] at this
  have he : js = js' := J.arr.inj (text_inj (oka (hok f1)) (oka (hok f2)) (h.trans h'.symm))
  subst he
  exact sign_pairs f1 f2

/-- C115: a message with a missing amount does nothing. -/
theorem C115_missing (c : Cfg) (env : Env) {m : Msg} (h : Missing m) (s : State) : step c env m s = s := by
  have : ∀ u s', exec c env m s ≠ .ok u s' := by
    intro u s' hx
    cases m <;> first | exact h.elim | skip
    case lock sg v a =>
      cases a with
      | some => exact h.elim
      | none => obtain ⟨_, _, h1, _⟩ := lock_ok (show lock c env sg v none s = .ok u s' from hx); cases h1
    case unlock sg v a =>
      cases a with
      | some => exact h.elim
      | none => obtain ⟨_, _, _, _, h1, _⟩ := unlock_ok (show unlock c sg v none s = .ok u s' from hx); cases h1
    case transfer sg a ch t r =>
      cases a with
      | some => exact h.elim
      | none => obtain ⟨_, h1, _⟩ := transfer_ok (show transfer c env sg none ch t r s = .ok u s' from hx); cases h1
  unfold step runTx
  cases hx : exec c env m s with
  | ok u s' => exact absurd hx (this u s')
  | err => rfl
  | panic => rfl

/-- C115: two messages that look the same to whoever signs, and both do something, are the same. -/
theorem C115_effect (c : Cfg) (env env' : Env) {relayer relayer' : String} {m m' : Msg} {x : List Char}
    (h : signText [(relayer, m)] = some x) (h' : signText [(relayer', m')] = some x) {s s' : State}
    (he : step c env m s ≠ s) (he' : step c env' m' s' ≠ s') : m = m' := by
  cases C115_binding h h' with
  | cons hx _ =>
    rcases hx with hx | ⟨_, hx | hx⟩
    · exact hx
    · exact absurd (C115_missing c env hx s) he
    · exact absurd (C115_missing c env' hx s') he'

/-- C115, the gap: a transfer is shown with the chain it has on the wire, but the handler receives the lower 16 bits.  From 65536
on the message that is executed looks different from the one that was signed. -/
theorem C115_chain (T : IntText) (s : String) (a : Int) (n : Nat) (token recipient : Bytes)
    (hs : Latin s) (ha : a.natAbs < 2 ^ 256) (hn : n < 2 ^ 32) (hbig : 65536 ≤ n)
    (hlen : (encodeFields .transfer [.bs (ascii s), .int (some a), .num n, .bs token, .bs recipient]).length < 2 ^ 63) :
    ∃ m, decodeMsg T .transfer (encodeFields .transfer [.bs (ascii s), .int (some a), .num n, .bs token, .bs recipient]) = .ok m ∧
      signText [(s, m)] ≠ signText [(s, .transfer s (some a) n token recipient)] := by
  refine ⟨_, C75_chain_truncated T s a n token recipient hs ha hn hlen, fun h => ?_⟩
  have hx : (signText [(s, .transfer s (some a) n token recipient)]).isSome := rfl
  obtain ⟨x, hx⟩ := Option.isSome_iff_exists.1 hx
  cases C115_binding (h.trans hx) hx with
  | cons hm _ =>
    rcases hm with hm | ⟨_, hm | hm⟩
    · injection hm with _ _ hm
      omega
    · exact hm
    · exact hm

/-! ### What the wallet shows -/

example : signText [("", .claimYield "alice"), ("", .setPaused "authority" true)] =
    some ("[{\"type\":\"dollar/ClaimYield\",\"value\":{\"signer\":\"alice\"}}," ++
      "{\"type\":\"dollar/SetPausedState\",\"value\":{\"paused\":true,\"signer\":\"authority\"}}]").toList := by decide +kernel

example : signText [("", .setYieldRecipient "authority" 1 "channel-0" "bob")] =
    some ("[{\"type\":\"dollar/SetYieldRecipient\",\"value\":{\"identifier\":\"channel-0\",\"provider\":1,\"recipient\":\"bob\"," ++
      "\"signer\":\"authority\"}}]").toList := by decide +kernel

example : signText [("relayer", .deliver [1, 2, 3])] =
    some "[{\"type\":\"dollar/portal/Deliver\",\"value\":{\"signer\":\"relayer\",\"vaa\":\"AQID\"}}]".toList := by decide +kernel

example : signText [("", .transfer "alice" (some 100) 65538 [1] [2])] =
    some ("[{\"type\":\"dollar/portal/Transfer\",\"value\":{\"amount\":\"100\",\"destination_chain_id\":65538," ++
      "\"destination_token\":\"AQ==\",\"recipient\":\"Ag==\",\"signer\":\"alice\"}}]").toList := by decide +kernel

example : signText [("", .portalSetPaused "owner" true)] =
    some "[{\"type\":\"dollar/portal/SetPausedState\",\"value\":{\"paused\":true,\"signer\":\"owner\"}}]".toList := by decide +kernel

example : signText [("", .setPeer "owner" 2 [1] [255])] =
    some ("[{\"type\":\"dollar/portal/SetPeer\",\"value\":{\"chain\":2,\"manager\":\"/w==\",\"signer\":\"owner\"," ++
      "\"transceiver\":\"AQ==\"}}]").toList := by decide +kernel

example : signText [("", .setBridgingPath "owner" 2 [1] true)] =
    some ("[{\"type\":\"dollar/portal/SetBridgingPath\",\"value\":{\"destination_chain_id\":2,\"destination_token\":\"AQ==\"," ++
      "\"signer\":\"owner\",\"supported\":true}}]").toList := by decide +kernel

example : signText [("", .transferOwnership "owner" "bob")] =
    some "[{\"type\":\"dollar/portal/TransferOwnership\",\"value\":{\"new_owner\":\"bob\",\"signer\":\"owner\"}}]".toList := by
  decide +kernel

example : signText [("", .lock "alice" 1 (some 5)), ("", .unlock "alice" 2 (some 7)), ("", .vaultsSetPaused "authority" 3)] =
    some ("[{\"type\":\"dollar/vaults/Lock\",\"value\":{\"amount\":\"5\",\"signer\":\"alice\",\"vault\":1}}," ++
      "{\"type\":\"dollar/vaults/Unlock\",\"value\":{\"amount\":\"7\",\"signer\":\"alice\",\"vault\":2}}," ++
      "{\"type\":\"dollar/vaults/SetPausedState\",\"value\":{\"paused\":3,\"signer\":\"authority\"}}]").toList := by decide +kernel

/-! A missing amount looks like zero. -/

example : signText [("", .transfer "alice" none 0 [] [])] =
    some "[{\"type\":\"dollar/portal/Transfer\",\"value\":{\"amount\":\"0\",\"signer\":\"alice\"}}]".toList := by decide +kernel

example : signText [("", .lock "alice" 1 none)] = signText [("", .lock "alice" 1 (some 0))] := by decide +kernel

/-! Text chosen by the signer cannot imitate another field. -/

example : signText [("", .transferOwnership "owner" "bob\",\"x\":\"<")] =
    some ("[{\"type\":\"dollar/portal/TransferOwnership\",\"value\":{\"new_owner\":\"bob\\\",\\\"x\\\":\\\"\\u003c\"," ++
      "\"signer\":\"owner\"}}]").toList := by decide +kernel

/-- The chain that is shown and the chain that is executed. -/
example : (signText [("", .transfer "alice" (some 100) 65538 [1] [2])]).isSome = true ∧
    signText [("", .transfer "alice" (some 100) 65538 [1] [2])] ≠ signText [("", .transfer "alice" (some 100) (65538 % 65536) [1] [2])] := by
  decide +kernel

/-- A lock that does something, as `C115_effect` asks. -/
example : step Demo.cfg (Demo.env 50) (.lock Demo.bobS 2 (some 2000000)) (run Demo.cfg Demo.hist1 Demo.start) ≠
    run Demo.cfg Demo.hist1 Demo.start := by
  intro h
  have h := congrArg (fun s : State => s.totalFlexible) h
  revert h
  decide +kernel

end Dollar
