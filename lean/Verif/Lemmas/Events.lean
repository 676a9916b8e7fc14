import Verif.Model.Events
import Verif.Lemmas.GenesisJson
import Verif.Lemmas.Genesis
import Verif.Props.C106

/-
Events as ABCI attributes: UTF-8, reading attributes back, and what two events with the same attributes share.
-/
namespace Dollar.Json

/-! ### UTF-8 -/

theorem char_range (c : Char) : c.toNat < 0x110000 ∧ ¬ (0xd800 ≤ c.toNat ∧ c.toNat < 0xe000) := by
  have h := c.valid
  have e : c.val.toNat = c.toNat := rfl
  simp only [UInt32.isValidChar, Nat.isValidChar] at h
  omega

theorem charIn_char (c : Char) {lo hi : Nat} (h1 : lo ≤ c.toNat) (h2 : c.toNat < hi) {n : Nat} (hn : n = c.toNat) :
    charIn lo hi n = some c := by
  have := char_range c
  unfold charIn
  rw [hn, if_pos ⟨h1, h2, this.2⟩, Char.ofNat_toNat]

theorem cont_ofNat {n : Nat} (h : n < 64) : cont (UInt8.ofNat (0x80 + n)) = some n := by
  unfold cont
  have e : (UInt8.ofNat (0x80 + n)).toNat = 0x80 + n := by
    rw [UInt8.toNat_ofNat']
    omega
  rw [e, if_pos (by omega), Nat.add_sub_cancel_left]

theorem toNat_byte {n : Nat} (h : n < 256) : (UInt8.ofNat n).toNat = n := by
  rw [UInt8.toNat_ofNat']
  omega

theorem decode_encode (c : Char) (r : Bytes) : ∃ b t, encodeRune c = b :: t ∧ decodeRune b (t ++ r) = (c, r) := by
  have hr := char_range c
  unfold encodeRune
  simp only
  by_cases h1 : c.toNat < 0x80
  · rw [if_pos h1]
    refine ⟨_, _, rfl, ?_⟩
    unfold decodeRune
    simp only [toNat_byte (show c.toNat < 256 by omega), if_pos h1, List.nil_append, Char.ofNat_toNat]
  by_cases h2 : c.toNat < 0x800
  · rw [if_neg h1, if_pos h2]
    refine ⟨_, _, rfl, ?_⟩
    unfold decodeRune
    simp only [toNat_byte (show 0xc0 + c.toNat / 64 < 256 by omega)]
    rw [if_neg (by omega), if_neg (by omega), if_pos (by omega)]
    simp only [List.cons_append, List.nil_append, cont_ofNat (Nat.mod_lt c.toNat (by decide : 0 < 64)), Option.bind_some]
    rw [charIn_char c (by omega) h2 (by omega)]
  by_cases h3 : c.toNat < 0x10000
  · rw [if_neg h1, if_neg h2, if_pos h3]
    refine ⟨_, _, rfl, ?_⟩
    unfold decodeRune
    simp only [toNat_byte (show 0xe0 + c.toNat / 4096 < 256 by omega)]
    rw [if_neg (by omega), if_neg (by omega), if_neg (by omega), if_pos (by omega)]
    simp only [List.cons_append, List.nil_append, cont_ofNat (Nat.mod_lt c.toNat (by decide : 0 < 64)),
      cont_ofNat (Nat.mod_lt (c.toNat / 64) (by decide : 0 < 64)), Option.bind_some]
    rw [charIn_char c (by omega) h3 (by omega)]
  · rw [if_neg h1, if_neg h2, if_neg h3]
    refine ⟨_, _, rfl, ?_⟩
    unfold decodeRune
    simp only [toNat_byte (show 0xf0 + c.toNat / 262144 < 256 by omega)]
    rw [if_neg (by omega), if_neg (by omega), if_neg (by omega), if_neg (by omega)]
    simp only [List.cons_append, List.nil_append, cont_ofNat (Nat.mod_lt c.toNat (by decide : 0 < 64)),
      cont_ofNat (Nat.mod_lt (c.toNat / 64) (by decide : 0 < 64)),
      cont_ofNat (Nat.mod_lt (c.toNat / 4096) (by decide : 0 < 64)), Option.bind_some]
    rw [charIn_char c (by omega) hr.1 (by omega)]

theorem runesN_utf8 (l : List Char) (n : Nat) (h : (utf8 l).length ≤ n) : runesN n (utf8 l) = l := by
  induction l generalizing n with
  | nil => cases n <;> rfl
  | cons c l ih =>
    obtain ⟨b, t, e1, e2⟩ := decode_encode c (utf8 l)
    have e : utf8 (c :: l) = b :: (t ++ utf8 l) := by
      unfold utf8
      rw [List.flatMap_cons, e1, List.cons_append]
    rw [e] at h ⊢
    cases n with
    | zero => simp at h
    | succ n =>
      rw [runesN]
      simp only [e2]
      rw [ih n (by simp only [List.length_cons, List.length_append] at h; omega)]

theorem runes_utf8 (l : List Char) : runes (utf8 l) = l := runesN_utf8 l _ (Nat.le_refl _)

theorem utf8_inj {l m : List Char} (h : utf8 l = utf8 m) : l = m := by
  rw [← runes_utf8 l, h, runes_utf8]

/-! ### Bytes that are no text -/

theorem charIn_of {lo hi n : Nat} {c : Char} (h : charIn lo hi n = some c) (hh : hi ≤ 0x110000) : c.toNat = n ∧ lo ≤ n ∧ n < hi := by
  unfold charIn at h
  split at h
  · rename_i hc
    obtain ⟨h1, h2, h3⟩ := hc
    cases h
    refine ⟨?_, h1, h2⟩
    have hv : n.isValidChar := by
      unfold Nat.isValidChar
      omega
    exact Demo.toNat_ofNat hv
  · cases h

theorem cont_of {b : UInt8} {k : Nat} (h : cont b = some k) : k < 64 ∧ b = UInt8.ofNat (0x80 + k) := by
  unfold cont at h
  split at h
  · rename_i hc
    have h := Option.some.inj h
    subst h
    refine ⟨by omega, ?_⟩
    have e : (UInt8.ofNat (0x80 + (b.toNat - 0x80))).toNat = b.toNat := by
      rw [UInt8.toNat_ofNat']
      have := b.toNat_lt
      omega
    exact (UInt8.toNat_inj.1 e).symm
  · cases h

theorem byte_of {b : UInt8} {n : Nat} (h : b.toNat = n) : b = UInt8.ofNat n := by
  subst h
  simp

/-- What is read is either the first character or a replacement of the first byte. -/
theorem decode_cases (b : UInt8) (t : Bytes) :
    decodeRune b t = (Char.ofNat 0xfffd, t) ∨ ∃ ch r, decodeRune b t = (ch, r) ∧ b :: t = encodeRune ch ++ r := by
  have hb := b.toNat_lt
  unfold decodeRune
  simp only
  by_cases h1 : b.toNat < 0x80
  · rw [if_pos h1]
    refine .inr ⟨_, _, rfl, ?_⟩
    have e : (Char.ofNat b.toNat).toNat = b.toNat :=
      (charIn_of (lo := 0) (hi := 0x80) (n := b.toNat) (by unfold charIn; rw [if_pos (by omega)]) (by decide)).1
    unfold encodeRune
    simp only [e, if_pos h1]
    simp
  rw [if_neg h1]
  by_cases h2 : b.toNat < 0xc0
  · rw [if_pos h2]
    exact .inl rfl
  rw [if_neg h2]
  by_cases h3 : b.toNat < 0xe0
  · rw [if_pos h3]
    rcases t with _ | ⟨x, r⟩
    · exact .inl rfl
    simp only
    cases hc : (cont x).bind fun x => charIn 0x80 0x800 ((b.toNat - 0xc0) * 64 + x) with
    | none => exact .inl rfl
    | some c =>
      obtain ⟨k, hk, hc1⟩ := Option.bind_eq_some_iff.1 hc
      clear hc
      obtain ⟨hk, rfl⟩ := cont_of hk
      obtain ⟨e, h4, h5⟩ := charIn_of hc1 (by decide)
      refine .inr ⟨_, _, rfl, ?_⟩
      unfold encodeRune
      simp only
      rw [if_neg (by omega), if_pos (by omega)]
      rw [show b = UInt8.ofNat (0xc0 + c.toNat / 64) from byte_of (by omega), show c.toNat % 64 = k by omega]
      rfl
  rw [if_neg h3]
  by_cases h4 : b.toNat < 0xf0
  · rw [if_pos h4]
    rcases t with _ | ⟨x, _ | ⟨y, r⟩⟩
    · exact .inl rfl
    · exact .inl rfl
    simp only
    cases hc : (cont x).bind fun x => (cont y).bind fun y => charIn 0x800 0x10000 ((b.toNat - 0xe0) * 4096 + x * 64 + y) with
    | none => exact .inl rfl
    | some c =>
      obtain ⟨k, hk, hc1⟩ := Option.bind_eq_some_iff.1 hc
      clear hc
      obtain ⟨hk, rfl⟩ := cont_of hk
      obtain ⟨k', hk', hc2⟩ := Option.bind_eq_some_iff.1 hc1
      clear hc1
      obtain ⟨hk', rfl⟩ := cont_of hk'
      obtain ⟨e, h5, h6⟩ := charIn_of hc2 (by decide)
      refine .inr ⟨_, _, rfl, ?_⟩
      unfold encodeRune
      simp only
      rw [if_neg (by omega), if_neg (by omega), if_pos (by omega)]
      rw [show b = UInt8.ofNat (0xe0 + c.toNat / 4096) from byte_of (by omega), show c.toNat / 64 % 64 = k by omega,
        show c.toNat % 64 = k' by omega]
      rfl
  rw [if_neg h4]
  rcases t with _ | ⟨x, _ | ⟨y, _ | ⟨z, r⟩⟩⟩
  · exact .inl rfl
  · exact .inl rfl
  · exact .inl rfl
  simp only
  cases hc : (cont x).bind fun x => (cont y).bind fun y => (cont z).bind fun z =>
        charIn 0x10000 0x110000 ((b.toNat - 0xf0) * 262144 + x * 4096 + y * 64 + z) with
  | none => exact .inl rfl
  | some c =>
    obtain ⟨k, hk, hc1⟩ := Option.bind_eq_some_iff.1 hc
    clear hc
    obtain ⟨hk, rfl⟩ := cont_of hk
    obtain ⟨k', hk', hc2⟩ := Option.bind_eq_some_iff.1 hc1
    clear hc1
    obtain ⟨hk', rfl⟩ := cont_of hk'
    obtain ⟨k'', hk'', hc3⟩ := Option.bind_eq_some_iff.1 hc2
    clear hc2
    obtain ⟨hk'', rfl⟩ := cont_of hk''
    obtain ⟨e, h5, h6⟩ := charIn_of hc3 (by decide)
    refine .inr ⟨_, _, rfl, ?_⟩
    unfold encodeRune
    simp only
    rw [if_neg (by omega), if_neg (by omega), if_neg (by omega)]
    rw [show b = UInt8.ofNat (0xf0 + c.toNat / 262144) from byte_of (by omega), show c.toNat / 4096 % 64 = k by omega,
      show c.toNat / 64 % 64 = k' by omega, show c.toNat % 64 = k'' by omega]
    rfl

theorem encode_ne (ch : Char) : encodeRune ch ≠ [] := by
  obtain ⟨b, t, e, _⟩ := decode_encode ch []
  rw [e]
  exact List.cons_ne_nil _ _

theorem decode_shorter (b : UInt8) (t : Bytes) : (decodeRune b t).2.length ≤ t.length := by
  rcases decode_cases b t with h | ⟨ch, r, h, e⟩
  · rw [h]
  · rw [h]
    have := congrArg List.length e
    have h2 := List.length_pos_iff.2 (encode_ne ch)
    simp only [List.length_cons, List.length_append] at this
    simp only
    omega

theorem runesN_enough (b : Bytes) (n : Nat) (h : b.length ≤ n) : runesN n b = runes b := by
  unfold runes
  generalize hm : b.length = m
  have hb : b.length ≤ m := by omega
  clear hm
  induction n generalizing b m with
  | zero =>
    cases b with
    | nil => cases m <;> rfl
    | cons => simp at h
  | succ n ih =>
    cases b with
    | nil => cases m <;> rfl
    | cons x t =>
      cases m with
      | zero => simp at hb
      | succ m =>
        simp only [List.length_cons] at h hb
        have := decode_shorter x t
        rw [runesN, runesN]
        rw [ih _ (by omega) m (by omega)]

theorem runes_cons (b : UInt8) (t : Bytes) : runes (b :: t) = (decodeRune b t).1 :: runes (decodeRune b t).2 := by
  unfold runes
  rw [List.length_cons, runesN]
  rw [runesN_enough _ _ (decode_shorter b t)]
  rfl

/-! ### Attributes -/

theorem text_inj {j k : J} (hj : j.Ok) (hk : k.Ok) (h : j.text = k.text) : j = k :=
  Option.some.inj (by rw [← read_text j hj, ← read_text k hk, h])

theorem ok_ofOld (b : Bytes) : (J.ofOld b).Ok := by
  unfold J.ofOld
  split
  · unfold J.Ok
    trivial
  · exact ok_str _

theorem typed_ok (c : Cfg) {e : Event} {k : String} {fs : List (String × J)} (h : typedFields c e = some (k, fs)) :
    (∀ f ∈ fs, f.2.Ok) ∧ (fs.map Prod.fst).Nodup := by
  cases e <;> cases h <;>
    (constructor
     · simp only [List.mem_cons, List.not_mem_nil, or_false, forall_eq_or_imp, forall_eq, IsEmpty.forall_iff, implies_true]
       try simp [J.ofBig, J.ofString, J.ofBytes, ok_ofNum, ok_str, ok_bool, ok_enum, ok_ofOld]
     · simp)

theorem lookup_of_mem {V : Type} {l : List (String × V)} (hn : (l.map Prod.fst).Nodup) {k : String} {v : V}
    (h : (k, v) ∈ l) : l.lookup k = some v := by
  induction l with
  | nil => cases h
  | cons x t ih =>
    rw [List.map_cons, List.nodup_cons] at hn
    rw [List.lookup_cons]
    rcases List.mem_cons.1 h with rfl | h
    · simp
    · have hne : (k == x.1) = false := by
        rw [beq_eq_false_iff_ne]
        rintro rfl
        exact hn.1 (List.mem_map.2 ⟨_, h, rfl⟩)
      rw [hne]
      exact ih hn.2 h

/-- Every field is found under its name. -/
theorem attr_typed {α : Type} (c : Cfg) {e : Event} {k : String} {fs : List (String × J)}
    (h : typedFields c e = some (k, fs)) {name : String} {j : J} (hm : (name, j) ∈ fs) (read : J → Option α) :
    attr (abci c e) name read = read j := by
  obtain ⟨hok, hn⟩ := typed_ok c h
  have hn' : ((fs.map fun f => (f.1, utf8 f.2.text)).map Prod.fst).Nodup := by
    rw [List.map_map]
    exact hn
  have hp := goMap_perm _ hn'
  have e1 : abci c e = ⟨k, goMap (fs.map fun f => (f.1, utf8 f.2.text))⟩ := by
    unfold abci
    rw [h]
  have e2 : (abci c e).attrs.lookup name = some (utf8 j.text) := by
    rw [e1]
    exact lookup_of_mem ((hp.map Prod.fst).nodup_iff.2 hn')
      (hp.mem_iff.2 (List.mem_map.2 ⟨(name, j), hm, rfl⟩))
  unfold attr
  rw [e2, Option.bind_some, runes_utf8, read_text j (hok _ hm), Option.bind_some]

theorem kind_typed (c : Cfg) {e : Event} {k : String} {fs : List (String × J)} (h : typedFields c e = some (k, fs)) :
    (abci c e).kind = k := by
  unfold abci
  rw [h]

/-- Lists with the same names and the same map are the same. -/
theorem goMap_inj {V : Type} {l m : List (String × V)} (hn : (l.map Prod.fst).Nodup)
    (hk : l.map Prod.fst = m.map Prod.fst) (h : goMap l = goMap m) : l = m := by
  have hp : l.Perm m := (goMap_perm l hn).symm.trans (h ▸ goMap_perm m (hk ▸ hn))
  have hm : (m.map Prod.fst).Nodup := hk ▸ hn
  refine List.ext_getElem hp.length_eq fun i h1 h2 => ?_
  have hk' : l[i].1 = m[i].1 := by
    have := congrArg (fun x => x[i]?) hk
    simpa [h1, h2] using this
  have a1 := lookup_of_mem hm (hp.mem_iff.1 (show (l[i].1, l[i].2) ∈ l from List.getElem_mem h1))
  have a2 := lookup_of_mem hm (show (m[i].1, m[i].2) ∈ m from List.getElem_mem h2)
  rw [← hk', a1] at a2
  exact Prod.ext hk' (Option.some.inj a2)

/-! ### What a field says -/

theorem toStringInt_inj {x y : Int} (h : toString x = toString y) : x = y :=
  Option.some.inj (by rw [← GoInt.parse_toString x, ← GoInt.parse_toString y, h])

theorem ofBig_inj {x y : Int} : J.ofBig x = J.ofBig y ↔ x = y := by
  refine ⟨fun h => ?_, fun h => h ▸ rfl⟩
  unfold J.ofBig at h
  exact toStringInt_inj (String.toList_inj.1 (J.str.inj h))

theorem ofNum_inj {x y : Int} : J.ofNum x = J.ofNum y ↔ x = y := by
  refine ⟨fun h => ?_, fun h => h ▸ rfl⟩
  unfold J.ofNum at h
  exact toStringInt_inj (String.toList_inj.1 (J.num.inj h))

theorem ofString_inj {x y : String} : J.ofString x = J.ofString y ↔ x = y := by
  refine ⟨fun h => ?_, fun h => h ▸ rfl⟩
  exact Option.some.inj (by rw [← toStr_ofString x, ← toStr_ofString y, h])

theorem ofBytes_inj {x y : Bytes} : J.ofBytes x = J.ofBytes y ↔ x = y := by
  refine ⟨fun h => ?_, fun h => h ▸ rfl⟩
  exact Option.some.inj (by rw [← toBytes_ofBytes x, ← toBytes_ofBytes y, h])

theorem ofOld_inj {x y : Bytes} : J.ofOld x = J.ofOld y ↔ x = y := by
  refine ⟨fun h => ?_, fun h => h ▸ rfl⟩
  unfold J.ofOld at h
  by_cases hx : x = [] <;> by_cases hy : y = []
  · rw [hx, hy]
  · rw [if_pos hx, if_neg hy] at h; cases h
  · rw [if_neg hx, if_pos hy] at h; cases h
  · rw [if_neg hx, if_neg hy] at h
    exact ofBytes_inj.1 h

theorem lookup_mem {names : List (Int × String)} {x : Int} {n : String} (h : names.lookup x = some n) : (x, n) ∈ names := by
  induction names with
  | nil => cases h
  | cons e t ih =>
    rw [List.lookup_cons] at h
    by_cases he : x = e.1
    · subst he
      rw [beq_self_eq_true] at h
      cases h
      exact List.mem_cons_self
    · rw [beq_eq_false_iff_ne.2 he] at h
      exact List.mem_cons_of_mem _ (ih h)

theorem names_inj {names : List (Int × String)} (hn : (names.map Prod.snd).Nodup) {x y : Int} {n : String}
    (hx : (x, n) ∈ names) (hy : (y, n) ∈ names) : x = y :=
  congrArg Prod.fst (List.inj_on_of_nodup_map hn hx hy rfl)

theorem ofEnum_inj {names : List (Int × String)} (hn : (names.map Prod.snd).Nodup) {x y : Int}
    (h : J.ofEnum names x = J.ofEnum names y) : x = y := by
  unfold J.ofEnum at h
  cases hx : names.lookup x <;> cases hy : names.lookup y <;> simp only [hx, hy] at h
  · exact ofNum_inj.1 h
  · exact (nomatch h)
  · exact (nomatch h)
  · rw [ofString_inj] at h
    subst h
    exact names_inj hn (lookup_mem hx) (lookup_mem hy)

theorem enumText_inj {names : List (Int × String)} (hn : (names.map Prod.snd).Nodup)
    (hd : ∀ e ∈ names, GoInt.parse (e.2.toList.map Char.toNat) = none) {x y : Int} (h : enumText names x = enumText names y) : x = y := by
  unfold enumText at h
  cases hx : names.lookup x <;> cases hy : names.lookup y <;> simp only [hx, hy] at h
  · exact toStringInt_inj h
  · have := hd _ (lookup_mem hy)
    rw [← h, GoInt.parse_toString] at this
    exact (nomatch this)
  · have := hd _ (lookup_mem hx)
    rw [h, GoInt.parse_toString] at this
    exact (nomatch this)
  · subst h
    exact names_inj hn (lookup_mem hx) (lookup_mem hy)

theorem vaultText_inj {x y : Int} : enumText vaultNames x = enumText vaultNames y ↔ x = y :=
  ⟨enumText_inj (by decide) (by decide +kernel), fun h => h ▸ rfl⟩

theorem pausedText_inj {x y : Int} : enumText pausedNames x = enumText pausedNames y ↔ x = y :=
  ⟨enumText_inj (by decide) (by decide +kernel), fun h => h ▸ rfl⟩

theorem provider_inj {x y : Int} : J.ofEnum providerNames x = J.ofEnum providerNames y ↔ x = y :=
  ⟨ofEnum_inj (by decide), fun h => h ▸ rfl⟩

/-- A previous peer and its two fields. -/
theorem old_fields {o : Option Peer} (h : o ≠ some ⟨[], []⟩) :
    oldPeer ((o.map Peer.transceiver).getD []) ((o.map Peer.manager).getD []) = o := by
  unfold oldPeer
  cases o with
  | none => simp
  | some p =>
    simp only [Option.map_some, Option.getD_some]
    rw [if_neg]
    rintro ⟨h1, h2⟩
    apply h
    cases p
    simp_all

/-- Events that say the same. -/
def Alike (e e' : Event) : Prop :=
  e = e' ∨ ∃ ch o o' n, e = .peerUpdated ch o n ∧ e' = .peerUpdated ch o' n ∧
    (o.map Peer.transceiver).getD [] = (o'.map Peer.transceiver).getD [] ∧
    (o.map Peer.manager).getD [] = (o'.map Peer.manager).getD []

theorem typed_alike {c : Cfg} (hc : ∀ a b, c.encode a = c.encode b → a = b) {e e' : Event} {x : String × List (String × J)}
    (h : typedFields c e = some x) (h' : typedFields c e' = some x) : Alike e e' := by
  have hi : ∀ a b, c.encode a = c.encode b ↔ a = b := fun a b => ⟨hc a b, fun h => h ▸ rfl⟩
  cases e <;> simp only [typedFields, Option.some.injEq, reduceCtorEq] at h <;> subst h <;> cases e' <;>
    simp only [typedFields, Option.some.injEq, Prod.mk.injEq, List.cons.injEq, reduceCtorEq, and_true, true_and,
      ofBig_inj, ofNum_inj, ofString_inj, ofBytes_inj, ofOld_inj, vaultText_inj, pausedText_inj, provider_inj, hi] at h'
  case peerUpdated.peerUpdated ch o n ch' o' n' =>
    obtain ⟨h1, h2, h3, h4, h5⟩ := h'
    refine .inr ⟨ch, o, o', n, rfl, ?_, h2.symm, h4.symm⟩
    have h1 := Int.ofNat.inj h1
    obtain ⟨t, m⟩ := n
    obtain ⟨t', m'⟩ := n'
    cases h1
    cases h3
    cases h5
    rfl
  all_goals first
    | exact absurd h' (by decide)
    | exact absurd h'.1 (by decide)
    | (left; simp_all; done)
    | (rename_i a b; cases a <;> cases b <;> first | exact .inl rfl | exact absurd h' (by decide))

theorem quote_inj {s t : List Char} (h : quote s = quote t) : s = t := by
  have h1 := string_quote s []
  rw [h, string_quote] at h1
  exact (Prod.mk.inj (Option.some.inj h1)).1.symm

/-- The names of the fields depend on the type only. -/
theorem typed_names {c : Cfg} {e e' : Event} {k : String} {fs fs' : List (String × J)}
    (h : typedFields c e = some (k, fs)) (h' : typedFields c e' = some (k, fs')) : fs.map Prod.fst = fs'.map Prod.fst := by
  cases e <;> simp only [typedFields, Option.some.injEq, Prod.mk.injEq, reduceCtorEq] at h <;> obtain ⟨rfl, rfl⟩ := h <;>
    cases e' <;> simp only [typedFields, Option.some.injEq, Prod.mk.injEq, reduceCtorEq] at h' <;>
    (obtain ⟨h1, rfl⟩ := h'; first | rfl | exact absurd h1 (by decide) | (split at h1 <;> exact absurd h1 (by decide)))

theorem kind_ne {c : Cfg} {e : Event} {fs : List (String × J)} : typedFields c e ≠ some ("transfer_sent", fs) := by
  intro h
  cases e <;> simp only [typedFields, Option.some.injEq, Prod.mk.injEq, reduceCtorEq] at h <;>
    first
    | exact absurd h.1 (by decide)
    | (obtain ⟨h1, _⟩ := h; split at h1 <;> exact absurd h1 (by decide))

/-- What is shown of the fields. -/
theorem shown_typed {c : Cfg} {e : Event} {k : String} {fs : List (String × J)} (h : typedFields c e = some (k, fs)) :
    shown (abci c e) = (k, (goMap (fs.map fun f => (f.1, utf8 f.2.text))).map fun f => (f.1, quote (runes f.2))) := by
  unfold abci shown
  rw [h]

/-- The values of typed attributes are texts. -/
theorem typed_runes {c : Cfg} {e : Event} {k : String} {fs : List (String × J)} (h : typedFields c e = some (k, fs))
    {f : String × Bytes} (hf : f ∈ (abci c e).attrs) : utf8 (runes f.2) = f.2 := by
  have e1 : abci c e = ⟨k, goMap (fs.map fun f => (f.1, utf8 f.2.text))⟩ := by
    unfold abci
    rw [h]
  rw [e1] at hf
  obtain ⟨hok, hn⟩ := typed_ok c h
  have hp := goMap_perm (fs.map fun f => (f.1, utf8 f.2.text)) (by rw [List.map_map]; exact hn)
  obtain ⟨g, _, rfl⟩ := List.mem_map.1 (hp.mem_iff.1 hf)
  show utf8 (runes (utf8 _)) = utf8 _
  rw [runes_utf8]

/-- Nothing of a typed event is lost in what is shown. -/
theorem shown_inj {c : Cfg} {e e' : Event} {x x' : String × List (String × J)} (h : typedFields c e = some x)
    (h' : typedFields c e' = some x') (hs : shown (abci c e) = shown (abci c e')) : abci c e = abci c e' := by
  obtain ⟨h1, h2⟩ := Prod.mk.inj hs
  have h3 : (abci c e).attrs = (abci c e').attrs := by
    have g : ∀ {e : Event} {x}, typedFields c e = some x → (abci c e).attrs =
        ((abci c e).attrs.map fun f => (f.1, runes f.2)).map fun f => (f.1, utf8 f.2) := by
      intro e x h
      rw [List.map_map]
      conv_lhs => rw [← List.map_id (abci c e).attrs]
      exact List.map_congr_left fun f hf => Prod.ext rfl (typed_runes h hf).symm
    rw [g h, g h']
    congr 1
    have hq : Function.Injective fun f : String × List Char => (f.1, quote f.2) := by
      intro a b hab
      obtain ⟨g1, g2⟩ := Prod.mk.inj hab
      exact Prod.ext g1 (quote_inj g2)
    apply List.map_injective_iff.2 hq
    rw [List.map_map, List.map_map]
    exact h2
  cases ha : abci c e
  cases hb : abci c e'
  rw [ha, hb] at h1 h3
  cases h1
  cases h3
  rfl

/-- Typed events with the same attributes say the same. -/
theorem abci_alike {c : Cfg} (hc : ∀ a b, c.encode a = c.encode b → a = b) {e e' : Event} {x x' : String × List (String × J)}
    (h : typedFields c e = some x) (h' : typedFields c e' = some x') (hs : abci c e = abci c e') : Alike e e' := by
  obtain ⟨k, fs⟩ := x
  obtain ⟨k', fs'⟩ := x'
  have hk : k = k' := by rw [← kind_typed c h, hs, kind_typed c h']
  subst hk
  have hkeys := typed_names h h'
  obtain ⟨hok, hn⟩ := typed_ok c h
  obtain ⟨hok', -⟩ := typed_ok c h'
  have e1 : goMap (fs.map fun f => (f.1, utf8 f.2.text)) = goMap (fs'.map fun f => (f.1, utf8 f.2.text)) := by
    have := congrArg Abci.attrs hs
    unfold abci at this
    rw [h, h'] at this
    exact this
  have e2 := goMap_inj (by rw [List.map_map]; exact hn) (by rw [List.map_map, List.map_map]; exact hkeys) e1
  have e3 : fs = fs' := by
    have hlen : fs.length = fs'.length := by simpa using congrArg List.length e2
    refine List.ext_getElem hlen fun i h1 h2 => ?_
    have := congrArg (fun l => l[i]?) e2
    simp only [List.getElem?_map, List.getElem?_eq_getElem h1, List.getElem?_eq_getElem h2, Option.map_some,
      Option.some.injEq, Prod.mk.injEq] at this
    exact Prod.ext this.1 (text_inj (hok _ (List.getElem_mem h1)) (hok' _ (List.getElem_mem h2)) (utf8_inj this.2))
  subst e3
  exact typed_alike hc h h'

end Dollar.Json
