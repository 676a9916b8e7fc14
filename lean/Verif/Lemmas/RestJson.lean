import Verif.Spec.RestJson
import Verif.Lemmas.GenesisJson

/-
Helper lemmas for C120.
-/
namespace Dollar.Rest
open Json Spec

theorem memberOf_fields (name : String) (l : List (String × J)) :
    memberOf name (J.ofFields l) = (l.find? fun e => decide (e.1 = name)).map Prod.snd := by
  unfold memberOf J.ofFields
  simp only [List.find?_map, Option.map_map]
  have : ((fun e : List Char × J => decide (e.1 = name.toList)) ∘ fun e : String × J => (e.1.toList, e.2)) =
      fun e => decide (e.1 = name) := by
    funext e
    simp [String.toList_inj]
  rw [this]
  rfl

/-! ### Decimals -/

theorem takeWhile_digits {l r : List Char} (h : ∀ c ∈ l, c.isDigit = true) (hr : ∀ c, r.head? = some c → c.isDigit = false) :
    (l ++ r).takeWhile Char.isDigit = l ∧ (l ++ r).dropWhile Char.isDigit = r := by
  induction l with
  | nil =>
    cases r with
    | nil => exact ⟨rfl, rfl⟩
    | cons c t =>
      have := hr c rfl
      simp [this]
  | cons c t ih =>
    obtain ⟨i1, i2⟩ := ih fun x hx => h x (List.mem_cons_of_mem _ hx)
    have := h c List.mem_cons_self
    simp [this, i1, i2]

theorem digits_isDigit (k n : Nat) : ∀ c ∈ digits k n, c.isDigit = true := by
  induction k generalizing n with
  | zero => intro c hc; cases hc
  | succ k ih =>
    intro c hc
    unfold digits at hc
    rcases List.mem_append.1 hc with hc | hc
    · exact ih _ c hc
    · rw [List.mem_singleton.1 hc]
      exact digitChar_digit (Nat.mod_lt n (by decide))

theorem digits_len (k n : Nat) : (digits k n).length = k := by
  induction k generalizing n with
  | zero => rfl
  | succ k ih => unfold digits; rw [List.length_append, ih]; rfl

theorem fold_digits (k n m : Nat) (h : n < 10 ^ k) :
    (digits k n).foldl (fun v ch => v * 10 + (ch.toNat - 48)) m = m * 10 ^ k + n := by
  induction k generalizing n m with
  | zero =>
    have : n = 0 := by simpa using h
    subst this
    simp [digits]
  | succ k ih =>
    have h' : n / 10 < 10 ^ k := by
      rw [Nat.pow_succ] at h
      omega
    unfold digits
    rw [List.foldl_append, ih _ _ h']
    simp only [List.foldl_cons, List.foldl_nil]
    rw [GoInt.digitChar_toNat (Nat.mod_lt n (by decide)), Nat.pow_succ]
    have := Nat.div_add_mod n 10
    have e : m * (10 ^ k * 10) = m * 10 ^ k * 10 := (Nat.mul_assoc _ _ _).symm
    rw [e]
    omega

theorem fold_toDigits (n : Nat) : (Nat.toDigits 10 n).foldl (fun v ch => v * 10 + (ch.toNat - 48)) 0 = n := by
  have h := (GoInt.codes_spec n).2.2.2
  unfold GoInt.valueIn GoInt.codes at h
  rw [List.foldl_map] at h
  exact h

theorem decimal_decText (d : Int) : decimal (.str (decText d)) = some d := by
  have hn := toDigits_spec (d.natAbs / 10 ^ 18)
  have hlt : d.natAbs % 10 ^ 18 < 10 ^ 18 := Nat.mod_lt _ (by decide)
  obtain ⟨t1, t2⟩ := takeWhile_digits (l := Nat.toDigits 10 (d.natAbs / 10 ^ 18))
    (r := '.' :: digits 18 (d.natAbs % 10 ^ 18)) hn.2.1 (fun c hc => by cases hc; rfl)
  have hv : ((Nat.toDigits 10 (d.natAbs / 10 ^ 18) ++ digits 18 (d.natAbs % 10 ^ 18)).foldl
      (fun v ch => v * 10 + (ch.toNat - 48)) 0) = d.natAbs := by
    rw [List.foldl_append, fold_toDigits, fold_digits _ _ _ hlt]
    exact Nat.div_add_mod' d.natAbs (10 ^ 18)
  have hf : digits 18 (d.natAbs % 10 ^ 18) ≠ [] := fun e => by
    have := digits_len 18 (d.natAbs % 10 ^ 18)
    rw [e] at this
    cases this
  have ha : (digits 18 (d.natAbs % 10 ^ 18)).all Char.isDigit = true :=
    List.all_eq_true.2 (digits_isDigit _ _)
  have hl := digits_len 18 (d.natAbs % 10 ^ 18)
  obtain ⟨c, r, hc⟩ := List.exists_cons_of_ne_nil hn.1
  have hd : c.isDigit = true := hn.2.1 c (by rw [hc]; exact List.mem_cons_self)
  have hne : c ≠ '-' := fun e => by rw [e] at hd; exact absurd hd (by decide)
  unfold decimal decText
  generalize Nat.toDigits 10 (d.natAbs / 10 ^ 18) = w at *
  generalize digits 18 (d.natAbs % 10 ^ 18) = f at *
  have hz : (10 : Nat) ^ (18 - f.length) = 1 := by rw [hl]; rfl
  simp only
  by_cases h : d < 0
  · rw [if_pos h]
    simp only [List.head?_cons, if_true, List.tail_cons, t1, t2]
    rw [if_pos ⟨hn.1, hf, hl.le, ha⟩, hv, hz, Nat.mul_one]
    congr 1
    omega
  · rw [if_neg h]
    have hh : (w ++ '.' :: f).head? ≠ some '-' := by
      rw [hc]
      simpa using hne
    simp only [if_neg hh, t1, t2]
    rw [if_pos ⟨hn.1, hf, hl.le, ha⟩, hv, hz, Nat.mul_one]
    congr 1
    omega

/-! ### Answers -/

theorem count_ofBig {n : Nat} (h : n < 2 ^ 64) : count (J.ofBig n) = some n := by
  unfold count
  rw [toNum_ofBig (by omega) (by omega)]
  rfl

theorem textMap_ofStrings (l : List (String × String)) : textMap (J.ofStrings l) = some l := by
  show (l.map fun e => (e.1.toList, J.ofString e.2)).mapM _ = _
  rw [List.mapM_map, mapM_some (g := id), List.map_id]
  intro e _
  simp only [Function.comp, toStr_ofString, Option.bind_eq_bind, Option.bind_some, String.ofList_toList]
  rfl

theorem external_read {l : List (String × String × Int)} (h : ∀ e ∈ l, Big e.2.2) :
    J.toMap (fun k => some (String.ofList k)) (fun j => do
      let i ← (memberOf "chain_id" j).bind J.toStr
      let x ← (memberOf "amount" j).bind J.toBig
      some (i, x)) (ofExternal l) = some l := by
  show (l.map fun e => (e.1.toList, J.ofFields _)).mapM _ = _
  rw [List.mapM_map, mapM_some (g := id), List.map_id]
  intro e he
  simp only [Function.comp, memberOf_fields, List.find?_cons, String.reduceEq, decide_true, decide_false, Option.map_some,
    Option.bind_some, Option.bind_eq_bind, toStr_ofString, toBig_ofBig (h e he), String.ofList_toList]
  rfl

theorem peers_read {l : List (Nat × Peer)} (h : ∀ e ∈ l, e.1 < 65536) :
    J.toMap (fun k => (readLit 0 65536 k).map Int.toNat) (fun j => do
      let t ← (memberOf "transceiver" j).bind J.toBytes
      let m ← (memberOf "manager" j).bind J.toBytes
      some (⟨t, m⟩ : Peer)) (.obj (l.map fun e => ((toString e.1).toList, J.ofPeer e.2))) = some l := by
  show (l.map fun e => ((toString e.1).toList, J.ofPeer e.2)).mapM _ = _
  rw [List.mapM_map, mapM_some (g := id), List.map_id]
  intro e he
  have := h e he
  have e1 : readLit 0 65536 (toString e.1).toList = some (e.1 : Int) :=
    readLit_toString (x := (e.1 : Int)) (by omega) (by omega)
  simp only [Function.comp, e1, J.ofPeer, memberOf_fields, List.find?_cons, String.reduceEq, decide_true, decide_false,
    toBytes_ofBytes, Option.bind_eq_bind, Option.bind_some, Option.map_some, Int.toNat_natCast]
  rfl

theorem position_read (nanos : PosEntry → Nat) {p : PosEntry} (h : (-2 ^ 31 ≤ p.vault ∧ p.vault < 2 ^ 31) ∧ Big p.principal ∧
      (-2 ^ 63 ≤ p.index ∧ p.index < 2 ^ 63) ∧ Big p.amount ∧ (-62135596800 ≤ p.time ∧ p.time < 253402300800)) :
    (do
      let a ← (memberOf "address" (J.ofPosition nanos p)).bind J.toBytes
      let v ← (memberOf "vault" (J.ofPosition nanos p)).bind (J.toEnum [(0, "UNSPECIFIED"), (1, "STAKED"), (2, "FLEXIBLE")])
      let q ← (memberOf "principal" (J.ofPosition nanos p)).bind J.toBig
      let i ← (memberOf "index" (J.ofPosition nanos p)).bind (J.toNum (-2 ^ 63) (2 ^ 63))
      let x ← (memberOf "amount" (J.ofPosition nanos p)).bind J.toBig
      let t ← (memberOf "time" (J.ofPosition nanos p)).bind J.toTime
      some (⟨a, v, q, i, x, t⟩ : PosEntry)) = some p := by
  obtain ⟨h1, h2, h3, h4, h5⟩ := h
  have hv : (J.ofEnum vaultNames p.vault).toEnum [(0, "UNSPECIFIED"), (1, "STAKED"), (2, "FLEXIBLE")] = some p.vault :=
    toEnum_ofEnum (names := vaultNames) (by decide) h1.1 h1.2
  have hi := toNum_ofBig h3.1 h3.2
  have ht := toTime_timeText (nanos p) h5.1 h5.2
  simp only [J.ofPosition, memberOf_fields, List.find?_cons, String.reduceEq, decide_true, decide_false, Option.map_some,
    Option.bind_some, Option.bind_eq_bind, toBytes_ofBytes, hv, toBig_ofBig h2, toBig_ofBig h4, hi, ht]

theorem positions_read (nanos : PosEntry → Nat) {l : List PosEntry} (h : NumbersFit (.positions l)) :
    J.toList (fun j => do
      let a ← (memberOf "address" j).bind J.toBytes
      let v ← (memberOf "vault" j).bind (J.toEnum [(0, "UNSPECIFIED"), (1, "STAKED"), (2, "FLEXIBLE")])
      let q ← (memberOf "principal" j).bind J.toBig
      let i ← (memberOf "index" j).bind (J.toNum (-2 ^ 63) (2 ^ 63))
      let x ← (memberOf "amount" j).bind J.toBig
      let t ← (memberOf "time" j).bind J.toTime
      some (⟨a, v, q, i, x, t⟩ : PosEntry)) (.arr (l.map (J.ofPosition nanos))) = some l :=
  toList_arr fun p hp => position_read nanos (h p hp)

theorem pending_read {l : List (Int × Int)} (h : ∀ e ∈ l, Big e.1 ∧ Big e.2) :
    J.toList (fun j => do
      let x ← (memberOf "amount" j).bind J.toBig
      let r ← (memberOf "pending_rewards" j).bind J.toBig
      some (x, r))
      (.arr (l.map fun e => .ofFields [("amount", .ofBig e.1), ("pending_rewards", .ofBig e.2)])) = some l :=
  toList_arr fun e he => by
    simp only [memberOf_fields, List.find?_cons, String.reduceEq, decide_true, decide_false, Option.map_some,
      Option.bind_some, Option.bind_eq_bind, toBig_ofBig (h e he).1, toBig_ofBig (h e he).2]

theorem learn_ofAnswer (nanos : PosEntry → Nat) {q : Query} {a : Answer} (hf : Fitting q a) (hr : NumbersFit a) :
    learn q (ofAnswer nanos (fieldName q) a) = some a := by
  cases q <;> cases a <;> first | exact hf.elim | skip
  all_goals simp only [learn, ofAnswer, fieldName, J.ofStats, J.ofVStats, memberOf_fields, List.find?_cons, String.reduceEq,
    decide_true, decide_false, Option.map_some, Option.bind_some, Option.bind_eq_bind]
  all_goals unfold NumbersFit at hr
  · rw [decimal_decText]; rfl
  · rfl
  · rw [toBig_ofBig hr]; rfl
  · rw [toBig_ofBig hr]; rfl
  · rw [count_ofBig hr.1, toBig_ofBig hr.2.1, toBig_ofBig hr.2.2]; rfl
  · rw [count_ofBig hr.1, toBig_ofBig hr.2.1, toBig_ofBig hr.2.2.1]
    simp only [Option.bind_some]
    have := external_read hr.2.2.2
    simp only [Option.bind_eq_bind] at this
    rw [this]
    rfl
  · rw [textMap_ofStrings]; rfl
  · rw [toStr_ofString]; rfl
  · rw [textMap_ofStrings]; rfl
  · rw [toBig_ofBig hr]; rfl
  · rw [toStr_ofString]; rfl
  · rfl
  · have := peers_read hr
    simp only [Option.bind_eq_bind] at this
    rw [this]
    rfl
  · rw [toList_arr fun b _ => toBytes_ofBytes b]; rfl
  · rw [toNum_ofNum (by omega) (by omega)]; rfl
  · rename_i l
    have := positions_read nanos (l := l) hr
    simp only [Option.bind_eq_bind] at this
    rw [this]
    rfl
  · rw [toBig_ofBig hr]; rfl
  · rw [toBig_ofBig hr.1]
    have := pending_read hr.2
    simp only [Option.bind_eq_bind] at this
    simp only [Option.bind_some]
    rw [this]
    rfl
  · rw [show (J.ofEnum pausedNames _).toEnum [(0, "NONE"), (1, "LOCK"), (2, "UNLOCK"), (3, "ALL")] = some _ from
      toEnum_ofEnum (names := pausedNames) (by decide) hr.1 hr.2]
    rfl
  · rw [toBig_ofBig hr.1, count_ofBig hr.2.1, toBig_ofBig hr.2.2.1, toBig_ofBig hr.2.2.2.1, count_ofBig hr.2.2.2.2]
    rfl

theorem ok_answer (nanos : PosEntry → Nat) (name : String) (a : Answer) : (ofAnswer nanos name a).Ok := by
  cases a
  all_goals unfold ofAnswer
  case stats x => exact ok_stats x
  case vaultsStats v => exact ok_vstats v
  all_goals
    refine ok_fields fun e he => ?_
    simp only [List.mem_cons, List.not_mem_nil, or_false] at he
  case statsV2 x ext =>
    rcases he with rfl | rfl | rfl | rfl
    · exact ok_str _
    · exact ok_str _
    · exact ok_str _
    · exact ok_obj _ fun e _ => ok_fields fun f hf => by
        simp only [List.mem_cons, List.not_mem_nil, or_false] at hf
        rcases hf with rfl | rfl <;> exact ok_str _
  case pending total l =>
    rcases he with rfl | rfl
    · exact ok_str _
    · exact ok_arr _ fun e _ => ok_fields fun f hf => by
        simp only [List.mem_cons, List.not_mem_nil, or_false] at hf
        rcases hf with rfl | rfl <;> exact ok_str _
  all_goals subst he
  · exact ok_str _
  · exact ok_bool _
  · exact ok_str _
  · exact ok_strings _
  · exact ok_str _
  · exact ok_obj _ fun e _ => ok_peer _
  · exact ok_arr _ fun e _ => ok_str _
  · exact ok_ofNum _
  · exact ok_arr _ fun e _ => ok_position nanos e
  · exact ok_enum _ _

end Dollar.Rest
