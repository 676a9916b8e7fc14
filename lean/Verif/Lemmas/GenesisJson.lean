import Verif.Lemmas.Base64Time
import Verif.Lemmas.Json
import Verif.Lemmas.Genesis

/-
The genesis file: what is written is read back.
-/
namespace Dollar.Json

/-! ### Scalars -/

theorem toDigits_spec (n : Nat) : Nat.toDigits 10 n ≠ [] ∧ (∀ c ∈ Nat.toDigits 10 n, c.isDigit = true) ∧
    (0 < n → (Nat.toDigits 10 n).head? ≠ some '0') := by
  obtain ⟨h1, h2, h3, -⟩ := GoInt.codes_spec n
  refine ⟨fun h => h1 (by rw [GoInt.codes, h]; rfl), fun c hc => Nat.isDigit_of_mem_toDigits (by decide) (by decide) hc,
    fun hn h => h3 hn ?_⟩
  rw [GoInt.codes, List.head?_map, h]
  rfl

theorem toString_ofNat (n : Nat) : (toString (n : Int)).toList = Nat.toDigits 10 n := Nat.toList_repr

theorem toString_negSucc (n : Nat) : (toString (Int.negSucc n)).toList = '-' :: Nat.toDigits 10 (n + 1) := by
  show ("-" ++ (n + 1).repr).toList = _
  rw [String.toList_append, Nat.toList_repr]; rfl

theorem isLiteral_digits (n : Nat) : isLiteral (Nat.toDigits 10 n) = true := by
  obtain ⟨h1, h2, h3⟩ := toDigits_spec n
  have hm : (Nat.toDigits 10 n).head? ≠ some '-' := by
    intro h
    have := h2 '-' (List.mem_of_mem_head? h)
    revert this; decide
  unfold isLiteral
  rw [if_neg hm]
  simp only [Bool.or_eq_true, Bool.and_eq_true, decide_eq_true_eq, List.all_eq_true]
  rcases Nat.eq_zero_or_pos n with rfl | hn
  · exact .inl rfl
  · exact .inr ⟨⟨by simp, by simpa using h3 hn⟩, h2⟩

theorem isLiteral_neg (n : Nat) : isLiteral ('-' :: Nat.toDigits 10 n) = true := by
  obtain ⟨h1, h2, h3⟩ := toDigits_spec n
  unfold isLiteral
  rw [List.head?_cons, if_pos rfl, List.tail_cons]
  simp only [Bool.or_eq_true, Bool.and_eq_true, decide_eq_true_eq, List.all_eq_true]
  rcases Nat.eq_zero_or_pos n with rfl | hn
  · exact .inl rfl
  · exact .inr ⟨⟨by simp, by simpa using h3 hn⟩, h2⟩

theorem readLit_toString {lo hi x : Int} (h1 : lo ≤ x) (h2 : x < hi) : readLit lo hi (toString x).toList = some x := by
  have hp := GoInt.parse_toString x
  have hl : isLiteral (toString x).toList = true ∧ ¬ (lo = 0 ∧ (toString x).toList.head? = some '-') := by
    cases x with
    | ofNat n =>
      show isLiteral (toString (n : Int)).toList = true ∧ ¬ (lo = 0 ∧ (toString (n : Int)).toList.head? = some '-')
      rw [toString_ofNat]
      refine ⟨isLiteral_digits n, fun h => ?_⟩
      have := (toDigits_spec n).2.1 '-' (List.mem_of_mem_head? h.2)
      revert this; decide
    | negSucc n =>
      rw [toString_negSucc]
      refine ⟨isLiteral_neg _, fun h => ?_⟩
      rw [h.1] at h1
      omega
  unfold readLit
  rw [if_pos hl, hp, Option.bind_some, if_pos ⟨h1, h2⟩]

theorem toNum_ofNum {lo hi x : Int} (h1 : lo ≤ x) (h2 : x < hi) : (J.ofNum x).toNum lo hi = some x :=
  readLit_toString h1 h2

theorem toNum_ofBig {lo hi x : Int} (h1 : lo ≤ x) (h2 : x < hi) : (J.ofBig x).toNum lo hi = some x :=
  readLit_toString h1 h2

theorem toUint16_ofNum {n : Nat} (h : n < 65536) : (J.ofNum n).toUint16 = some n := by
  show (readLit 0 65536 (toString (n : Int)).toList).map Int.toNat = _
  rw [readLit_toString (by omega) (by omega)]
  rfl

theorem toBig_ofBig {x : Int} (h : x.natAbs < 2 ^ 256) : (J.ofBig x).toBig = some x := by
  show (GoInt.parse ((toString x).toList.map Char.toNat)).bind _ = _
  rw [GoInt.parse_toString, Option.bind_some, if_pos h]

theorem toStr_ofString (s : String) : (J.ofString s).toStr = some s := by
  show some (String.ofList s.toList) = _
  rw [String.ofList_toList]

theorem toBytes_ofBytes (b : Bytes) : (J.ofBytes b).toBytes = some b := unb64_b64 b

theorem lookup_find {names : List (Int × String)} (hn : (names.map Prod.snd).Nodup) {x : Int} {n : String}
    (h : names.lookup x = some n) : names.find? (fun e => e.2 = n) = some (x, n) := by
  induction names with
  | nil => cases h
  | cons e t ih =>
    obtain ⟨k, v⟩ := e
    rw [List.lookup_cons] at h
    rw [List.map_cons, List.nodup_cons] at hn
    split at h
    · rename_i hk
      have := of_decide_eq_true (by simpa using hk : decide (x = k) = true)
      subst this
      cases h
      rw [List.find?_cons_of_pos (by simp)]
    · rename_i hk
      rw [List.find?_cons_of_neg, ih hn.2 h]
      simp only [decide_eq_true_eq]
      rintro rfl
      refine hn.1 (List.mem_map.2 ⟨(x, v), ?_, rfl⟩)
      clear ih hn hk
      induction t with
      | nil => cases h
      | cons a b ih =>
        obtain ⟨a1, a2⟩ := a
        rw [List.lookup_cons] at h
        split at h
        · rename_i hk
          have := of_decide_eq_true (by simpa using hk : decide (x = a1) = true)
          subst this
          cases h
          exact List.mem_cons_self
        · exact List.mem_cons_of_mem _ (ih h)

theorem toEnum_ofEnum {names : List (Int × String)} (hn : (names.map Prod.snd).Nodup) {x : Int}
    (h1 : -2 ^ 31 ≤ x) (h2 : x < 2 ^ 31) : (J.ofEnum names x).toEnum names = some x := by
  unfold J.ofEnum
  cases h : names.lookup x with
  | none => exact readLit_toString h1 h2
  | some n =>
    show (names.find? fun e => e.2 = String.ofList n.toList).map Prod.fst = _
    rw [String.ofList_toList, lookup_find hn h]
    rfl

theorem toTime_timeText {sec : Int} (nanos : Nat) (h1 : -62135596800 ≤ sec) (h2 : sec < 253402300800) :
    (J.str (timeText sec nanos)).toTime = some sec := readTime_timeText nanos h1 h2

/-! ### Messages -/

/-- The members with their names as text. -/
def keyed (l : List (String × J)) : List (List Char × J) := l.map fun e => (e.1.toList, e.2)

/-- The last field of a name. -/
def lastNamed (l : List (String × J)) (name : String) : Option J :=
  (l.reverse.find? fun e => e.1 = name).map Prod.snd

theorem lastOf_keyed (l : List (String × J)) (name : String) : lastOf (keyed l) name = lastNamed l name := by
  unfold lastOf lastNamed keyed
  rw [← List.map_reverse, List.find?_map, Option.map_map]
  have : ((fun e : List Char × J => decide (String.ofList e.1 = name)) ∘ fun e : String × J => (e.1.toList, e.2)) =
      fun e => decide (e.1 = name) := by
    funext e
    simp only [Function.comp, String.ofList_toList]
  rw [this]
  rfl

theorem known_keyed (l : List (String × J)) (names : List String) :
    known (keyed l) names = l.all fun e => names.contains e.1 := by
  unfold known keyed
  rw [List.all_map]
  congr 1
  funext e
  simp only [Function.comp, String.ofList_toList]

theorem members_fields (l : List (String × J)) : (J.ofFields l).members = some (keyed l) := rfl

/-- `fieldOr` on named fields. -/
def namedOr (l : List (String × J)) (orig camel : String) (read : J → Option α) (dflt : α) : Option α :=
  ((lastNamed l camel).or (lastNamed l orig)).elim (some dflt) read

theorem fieldOr_keyed {α : Type} (l : List (String × J)) (orig camel : String) (read : J → Option α) (dflt : α) :
    fieldOr (keyed l) orig camel read dflt = namedOr l orig camel read dflt := by
  unfold fieldOr namedOr
  rw [lastOf_keyed, lastOf_keyed]
  cases lastNamed l camel <;> cases lastNamed l orig <;> rfl

theorem toPeer_ofPeer (p : Peer) : (J.ofPeer p).toPeer = some p := by
  unfold J.toPeer J.ofPeer
  simp only [members_fields, Option.bind_eq_bind, Option.bind_some, fieldOr_keyed, known_keyed]
  simp [namedOr, lastNamed, toBytes_ofBytes]

theorem toPath_ofPath {p : Nat × Bytes} (h : p.1 < 65536) : (J.ofPath p).toPath = some p := by
  unfold J.toPath J.ofPath
  simp only [members_fields, Option.bind_eq_bind, Option.bind_some, fieldOr_keyed, known_keyed]
  simp [namedOr, lastNamed, toBytes_ofBytes, toUint16_ofNum h]

/-- A position whose numbers are in the range of their Go types. -/
structure PosOk (p : PosEntry) : Prop where
  vault : -2 ^ 31 ≤ p.vault ∧ p.vault < 2 ^ 31
  principal : p.principal.natAbs < 2 ^ 256
  index : -2 ^ 63 ≤ p.index ∧ p.index < 2 ^ 63
  amount : p.amount.natAbs < 2 ^ 256
  time : -62135596800 ≤ p.time ∧ p.time < 253402300800

theorem toPosition_ofPosition (nanos : PosEntry → Nat) {p : PosEntry} (h : PosOk p) :
    (J.ofPosition nanos p).toPosition = some p := by
  unfold J.toPosition J.ofPosition
  simp only [members_fields, Option.bind_eq_bind, Option.bind_some, fieldOr_keyed, known_keyed, lastOf_keyed]
  have hv : (J.ofEnum vaultNames p.vault).toEnum vaultNames = some p.vault :=
    toEnum_ofEnum (by decide) h.vault.1 h.vault.2
  have hi := toNum_ofBig h.index.1 h.index.2
  have ht := toTime_timeText (nanos p) h.time.1 h.time.2
  simp only [namedOr, lastNamed, List.reverse_cons, List.reverse_nil, List.nil_append, List.cons_append, List.find?_cons,
    String.reduceEq, decide_false, decide_true, Option.map_some, Option.some_or, Option.elim_some, Option.bind_some,
    toBytes_ofBytes, hv, toBig_ofBig h.principal, toBig_ofBig h.amount, hi, ht]
  rfl

theorem toReward_ofReward {r : Reward} (h1 : -2 ^ 63 ≤ r.index ∧ r.index < 2 ^ 63) (h2 : r.total.natAbs < 2 ^ 256)
    (h3 : r.rewards.natAbs < 2 ^ 256) : (J.ofReward r).toReward = some r := by
  unfold J.toReward J.ofReward
  simp only [members_fields, Option.bind_eq_bind, Option.bind_some, fieldOr_keyed, known_keyed]
  simp only [namedOr, lastNamed, List.reverse_cons, List.reverse_nil, List.nil_append, List.cons_append, List.find?_cons,
    String.reduceEq, decide_false, decide_true, Option.map_some, Option.some_or, Option.elim_some, Option.bind_some,
    toBig_ofBig h2, toBig_ofBig h3, toNum_ofBig h1.1 h1.2]
  rfl

theorem toVStats_ofVStats {v : VStats} (h1 : v.flexPrincipal.natAbs < 2 ^ 256) (h2 : v.flexUsers < 2 ^ 64)
    (h3 : v.flexDistributed.natAbs < 2 ^ 256) (h4 : v.stakedPrincipal.natAbs < 2 ^ 256) (h5 : v.stakedUsers < 2 ^ 64) :
    (J.ofVStats v).toVStats = some v := by
  unfold J.toVStats J.ofVStats
  simp only [members_fields, Option.bind_eq_bind, Option.bind_some, fieldOr_keyed, known_keyed]
  have e2 : (J.ofBig (v.flexUsers : Int)).toNum 0 (2 ^ 64) = some (v.flexUsers : Int) :=
    toNum_ofBig (by omega) (by omega)
  have e5 : (J.ofBig (v.stakedUsers : Int)).toNum 0 (2 ^ 64) = some (v.stakedUsers : Int) :=
    toNum_ofBig (by omega) (by omega)
  simp only [namedOr, lastNamed, List.reverse_cons, List.reverse_nil, List.nil_append, List.cons_append, List.find?_cons,
    List.find?_nil, String.reduceEq, decide_false, decide_true, Option.map_some, Option.map_none, Option.some_or,
    Option.none_or, Option.elim_some, Option.bind_some, toBig_ofBig h1, toBig_ofBig h3, toBig_ofBig h4, e2, e5,
    Int.toNat_natCast]
  rfl

theorem toStats_ofStats {s : Nat × Int × Int} (h1 : s.1 < 2 ^ 64) (h2 : s.2.1.natAbs < 2 ^ 256)
    (h3 : s.2.2.natAbs < 2 ^ 256) : (J.ofStats s).toStats = some s := by
  unfold J.toStats J.ofStats
  simp only [members_fields, Option.bind_eq_bind, Option.bind_some, fieldOr_keyed, known_keyed]
  have e1 : (J.ofBig (s.1 : Int)).toNum 0 (2 ^ 64) = some (s.1 : Int) := toNum_ofBig (by omega) (by omega)
  simp only [namedOr, lastNamed, List.reverse_cons, List.reverse_nil, List.nil_append, List.cons_append, List.find?_cons,
    List.find?_nil, String.reduceEq, decide_false, decide_true, Option.map_some, Option.map_none, Option.some_or,
    Option.none_or, Option.elim_some, Option.bind_some, toBig_ofBig h2, toBig_ofBig h3, e1, Int.toNat_natCast]
  rfl

/-! ### Maps and lists -/

theorem mapM_some {α β : Type} {f : α → Option β} {g : α → β} {l : List α} (h : ∀ x ∈ l, f x = some (g x)) :
    l.mapM f = some (l.map g) := by
  induction l with
  | nil => rfl
  | cons a t ih =>
    rw [List.mapM_cons, h a List.mem_cons_self, ih fun x hx => h x (List.mem_cons_of_mem _ hx)]
    rfl

theorem toList_arr {α : Type} {read : J → Option α} {write : α → J} {l : List α} (h : ∀ x ∈ l, read (write x) = some x) :
    (J.arr (l.map write)).toList read = some l := by
  show (l.map write).mapM read = _
  rw [List.mapM_map, mapM_some (f := read ∘ write) (g := id) h, List.map_id]

theorem toStrings_ofStrings (l : List (String × String)) : (J.ofStrings l).toStrings = some (goMap l) := by
  show Option.map goMap ((l.map fun e => (e.1.toList, J.ofString e.2)).mapM _) = _
  rw [List.mapM_map, mapM_some (g := id), List.map_id]
  · rfl
  · intro e _
    simp only [Function.comp, toStr_ofString, Option.bind_eq_bind, Option.bind_some, String.ofList_toList]
    rfl

theorem toMap_peers {l : List (Nat × Peer)} (h : ∀ e ∈ l, e.1 < 65536) :
    J.toMap (fun k => (readLit 0 65536 k).map Int.toNat) J.toPeer
      (.obj (l.map fun e => ((toString e.1).toList, J.ofPeer e.2))) = some l := by
  show (l.map fun e => ((toString e.1).toList, J.ofPeer e.2)).mapM _ = _
  rw [List.mapM_map, mapM_some (g := id), List.map_id]
  intro e he
  have := h e he
  have e1 : readLit 0 65536 (toString e.1).toList = some (e.1 : Int) :=
    readLit_toString (x := (e.1 : Int)) (by omega) (by omega)
  simp only [Function.comp, e1, toPeer_ofPeer, Option.bind_eq_bind, Option.bind_some, Option.map_some, Int.toNat_natCast]
  rfl

/-! ### Genesis -/

/-- A genesis state whose numbers are in the range of their Go types. -/
structure GenOk (g : Genesis) : Prop where
  index : -2 ^ 63 ≤ g.index ∧ g.index < 2 ^ 63
  holders : g.holders < 2 ^ 64
  totalPrincipal : g.totalPrincipal.natAbs < 2 ^ 256
  totalYield : g.totalYield.natAbs < 2 ^ 256
  peers : ∀ e ∈ g.peers, e.1 < 65536
  paths : ∀ e ∈ g.paths, e.1 < 65536
  nonce : g.nonce < 2 ^ 32
  positions : ∀ p ∈ g.positions, PosOk p
  rewards : ∀ r ∈ g.rewards, (-2 ^ 63 ≤ r.index ∧ r.index < 2 ^ 63) ∧ r.total.natAbs < 2 ^ 256 ∧
    r.rewards.natAbs < 2 ^ 256
  vPaused : -2 ^ 31 ≤ g.vPaused ∧ g.vPaused < 2 ^ 31
  vstats : g.vstats.flexPrincipal.natAbs < 2 ^ 256 ∧ g.vstats.flexUsers < 2 ^ 64 ∧
    g.vstats.flexDistributed.natAbs < 2 ^ 256 ∧ g.vstats.stakedPrincipal.natAbs < 2 ^ 256 ∧ g.vstats.stakedUsers < 2 ^ 64
  totalFlexible : g.totalFlexible.natAbs < 2 ^ 256

theorem toPortal_ofPortal {g : PortalGenesis} (h1 : ∀ e ∈ g.peers, e.1 < 65536) (h2 : ∀ e ∈ g.paths, e.1 < 65536)
    (h3 : g.nonce < 2 ^ 32) :
    (J.ofPortal g).toPortal =
      some { g with peers := g.peers.foldl (fun m e => KV.set m e.1 e.2) [] } := by
  unfold J.toPortal J.ofPortal
  simp only [members_fields, Option.bind_eq_bind, Option.bind_some, fieldOr_keyed, known_keyed]
  have e1 : (J.ofNum (g.nonce : Int)).toNum 0 (2 ^ 32) = some (g.nonce : Int) := toNum_ofNum (by omega) (by omega)
  have e2 : (J.arr (g.paths.map .ofPath)).toList J.toPath = some g.paths := toList_arr fun p hp => toPath_ofPath (h2 p hp)
  simp only [namedOr, lastNamed, List.reverse_cons, List.reverse_nil, List.nil_append, List.cons_append, List.find?_cons,
    List.find?_nil, String.reduceEq, decide_false, decide_true, Option.map_some, Option.map_none, Option.some_or,
    Option.none_or, Option.elim_some, Option.bind_some, toStr_ofString, toMap_peers h1, e1, e2, Int.toNat_natCast,
    J.toBool]
  rfl

theorem toVaults_ofVaults (nanos : PosEntry → Nat) {g : VaultsGenesis} (h1 : ∀ p ∈ g.positions, PosOk p)
    (h2 : ∀ r ∈ g.rewards, (-2 ^ 63 ≤ r.index ∧ r.index < 2 ^ 63) ∧ r.total.natAbs < 2 ^ 256 ∧
      r.rewards.natAbs < 2 ^ 256)
    (h3 : g.totalFlexible.natAbs < 2 ^ 256) (h4 : -2 ^ 31 ≤ g.paused ∧ g.paused < 2 ^ 31)
    (h5 : g.stats.flexPrincipal.natAbs < 2 ^ 256 ∧ g.stats.flexUsers < 2 ^ 64 ∧
      g.stats.flexDistributed.natAbs < 2 ^ 256 ∧ g.stats.stakedPrincipal.natAbs < 2 ^ 256 ∧ g.stats.stakedUsers < 2 ^ 64) :
    (J.ofVaults nanos g).toVaults = some g := by
  unfold J.toVaults J.ofVaults
  simp only [members_fields, Option.bind_eq_bind, Option.bind_some, fieldOr_keyed, known_keyed]
  have e1 : (J.arr (g.positions.map (J.ofPosition nanos))).toList J.toPosition = some g.positions :=
    toList_arr fun p hp => toPosition_ofPosition nanos (h1 p hp)
  have e2 : (J.arr (g.rewards.map .ofReward)).toList J.toReward = some g.rewards :=
    toList_arr fun r hr => toReward_ofReward (h2 r hr).1 (h2 r hr).2.1 (h2 r hr).2.2
  have e3 : (J.ofEnum pausedNames g.paused).toEnum pausedNames = some g.paused := toEnum_ofEnum (by decide) h4.1 h4.2
  simp only [namedOr, lastNamed, List.reverse_cons, List.reverse_nil, List.nil_append, List.cons_append, List.find?_cons,
    List.find?_nil, String.reduceEq, decide_false, decide_true, Option.map_some, Option.map_none, Option.some_or,
    Option.none_or, Option.elim_some, Option.bind_some, toStr_ofString, toBig_ofBig h3, e1, e2, e3,
    toVStats_ofVStats h5.1 h5.2.1 h5.2.2.1 h5.2.2.2.1 h5.2.2.2.2, J.toBool]
  rfl

/-- The genesis state that is read from what was written: its maps are Go maps. -/
def remapped (g : Genesis) : Genesis :=
  { g with principal := goMap g.principal, extYield := goMap g.extYield, recipients := goMap g.recipients,
           retry := goMap g.retry, peers := g.peers.foldl (fun m e => KV.set m e.1 e.2) [] }

theorem toGenesis_ofGenesis (nanos : PosEntry → Nat) {g : Genesis} (h : GenOk g) :
    (J.ofGenesis nanos g).toGenesis = some (remapped g) := by
  unfold J.toGenesis J.ofGenesis
  simp only [members_fields, Option.bind_eq_bind, Option.bind_some, fieldOr_keyed, known_keyed]
  have e1 : (J.ofPortal (portalOf g)).toPortal = _ := toPortal_ofPortal h.peers h.paths h.nonce
  have e2 : (J.ofVaults nanos (vaultsOf g)).toVaults = some (vaultsOf g) :=
    toVaults_ofVaults nanos h.positions h.rewards h.totalFlexible h.vPaused h.vstats
  have e3 : (J.ofStats (g.holders, g.totalPrincipal, g.totalYield)).toStats = _ :=
    toStats_ofStats h.holders h.totalPrincipal h.totalYield
  simp only [namedOr, lastNamed, List.reverse_cons, List.reverse_nil, List.nil_append, List.cons_append, List.find?_cons,
    List.find?_nil, String.reduceEq, decide_false, decide_true, Option.map_some, Option.map_none, Option.some_or,
    Option.none_or, Option.elim_some, Option.bind_some, toStrings_ofStrings, e1, e2, e3,
    toNum_ofBig h.index.1 h.index.2, J.toBool]
  rfl

/-! ### The numbers in a genesis file are numbers -/

theorem ok_ofNum (x : Int) : (J.ofNum x).Ok := by
  unfold J.ofNum J.Ok
  cases x with
  | ofNat n =>
    show (toString (n : Int)).toList ≠ [] ∧ ∀ c ∈ (toString (n : Int)).toList, isNumChar c = true
    rw [toString_ofNat]
    refine ⟨(toDigits_spec n).1, fun c hc => ?_⟩
    unfold isNumChar
    rw [(toDigits_spec n).2.1 c hc]
    rfl
  | negSucc n =>
    rw [toString_negSucc]
    refine ⟨List.cons_ne_nil _ _, fun c hc => ?_⟩
    rcases List.mem_cons.1 hc with rfl | hc
    · decide
    · unfold isNumChar
      rw [(toDigits_spec (n + 1)).2.1 c hc]
      rfl

theorem ok_str (s : List Char) : (J.str s).Ok := by unfold J.Ok; trivial
theorem ok_bool (b : Bool) : (J.bool b).Ok := by unfold J.Ok; trivial

theorem ok_arr {α : Type} {write : α → J} (l : List α) (h : ∀ x ∈ l, (write x).Ok) : (J.arr (l.map write)).Ok := by
  unfold J.Ok
  induction l with
  | nil => unfold okAll; trivial
  | cons a t ih =>
    rw [List.map_cons]
    unfold okAll
    exact ⟨h a List.mem_cons_self, ih fun x hx => h x (List.mem_cons_of_mem _ hx)⟩

theorem ok_obj {α : Type} {key : α → List Char} {write : α → J} (l : List α) (h : ∀ x ∈ l, (write x).Ok) :
    (J.obj (l.map fun e => (key e, write e))).Ok := by
  unfold J.Ok
  induction l with
  | nil => unfold okMembers; trivial
  | cons a t ih =>
    rw [List.map_cons]
    unfold okMembers
    exact ⟨h a List.mem_cons_self, ih fun x hx => h x (List.mem_cons_of_mem _ hx)⟩

theorem ok_fields {l : List (String × J)} (h : ∀ e ∈ l, e.2.Ok) : (J.ofFields l).Ok :=
  ok_obj (key := fun e : String × J => e.1.toList) (write := Prod.snd) l h

theorem ok_strings (l : List (String × String)) : (J.ofStrings l).Ok :=
  ok_obj (key := fun e : String × String => e.1.toList) (write := fun e => J.ofString e.2) l fun _ _ => ok_str _

theorem ok_enum (names : List (Int × String)) (x : Int) : (J.ofEnum names x).Ok := by
  unfold J.ofEnum
  split
  · exact ok_str _
  · exact ok_ofNum x

theorem ok_peer (p : Peer) : (J.ofPeer p).Ok := by
  refine ok_fields fun e he => ?_
  simp only [List.mem_cons, List.not_mem_nil, or_false] at he
  rcases he with rfl | rfl <;> exact ok_str _

theorem ok_path (p : Nat × Bytes) : (J.ofPath p).Ok := by
  refine ok_fields fun e he => ?_
  simp only [List.mem_cons, List.not_mem_nil, or_false] at he
  rcases he with rfl | rfl
  · exact ok_ofNum _
  · exact ok_str _

theorem ok_position (nanos : PosEntry → Nat) (p : PosEntry) : (J.ofPosition nanos p).Ok := by
  refine ok_fields fun e he => ?_
  simp only [List.mem_cons, List.not_mem_nil, or_false] at he
  rcases he with rfl | rfl | rfl | rfl | rfl | rfl
  · exact ok_str _
  · exact ok_enum _ _
  all_goals exact ok_str _

theorem ok_reward (r : Reward) : (J.ofReward r).Ok := by
  refine ok_fields fun e he => ?_
  simp only [List.mem_cons, List.not_mem_nil, or_false] at he
  rcases he with rfl | rfl | rfl <;> exact ok_str _

theorem ok_vstats (v : VStats) : (J.ofVStats v).Ok := by
  refine ok_fields fun e he => ?_
  simp only [List.mem_cons, List.not_mem_nil, or_false] at he
  rcases he with rfl | rfl | rfl | rfl | rfl <;> exact ok_str _

theorem ok_stats (s : Nat × Int × Int) : (J.ofStats s).Ok := by
  refine ok_fields fun e he => ?_
  simp only [List.mem_cons, List.not_mem_nil, or_false] at he
  rcases he with rfl | rfl | rfl <;> exact ok_str _

theorem ok_portal (g : PortalGenesis) : (J.ofPortal g).Ok := by
  refine ok_fields fun e he => ?_
  simp only [List.mem_cons, List.not_mem_nil, or_false] at he
  rcases he with rfl | rfl | rfl | rfl | rfl
  · exact ok_str _
  · exact ok_bool _
  · exact ok_obj (key := fun e : Nat × Peer => (toString e.1).toList) (write := fun e => J.ofPeer e.2) _
      fun e _ => ok_peer e.2
  · exact ok_arr _ fun p _ => ok_path p
  · exact ok_ofNum _

theorem ok_vaults (nanos : PosEntry → Nat) (g : VaultsGenesis) : (J.ofVaults nanos g).Ok := by
  refine ok_fields fun e he => ?_
  simp only [List.mem_cons, List.not_mem_nil, or_false] at he
  rcases he with rfl | rfl | rfl | rfl | rfl | rfl | rfl
  · exact ok_arr _ fun p _ => ok_position nanos p
  · exact ok_arr _ fun r _ => ok_reward r
  · exact ok_str _
  · exact ok_enum _ _
  · exact ok_vstats _
  · exact ok_bool _
  · exact ok_str _

theorem ok_genesis (nanos : PosEntry → Nat) (g : Genesis) : (J.ofGenesis nanos g).Ok := by
  refine ok_fields fun e he => ?_
  simp only [List.mem_cons, List.not_mem_nil, or_false] at he
  rcases he with rfl | rfl | rfl | rfl | rfl | rfl | rfl | rfl | rfl
  · exact ok_portal _
  · exact ok_vaults _ _
  · exact ok_bool _
  · exact ok_str _
  · exact ok_strings _
  · exact ok_stats _
  · exact ok_strings _
  · exact ok_strings _
  · exact ok_strings _

end Dollar.Json
