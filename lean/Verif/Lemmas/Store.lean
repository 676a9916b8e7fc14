import Verif.Model.Store
import Verif.Lemmas.Codec

/- The encoding of store keys: injective, prefix free, order preserving. -/
namespace Dollar

/-! ### Byte order -/

theorem bytesLt_append_left (p a b : Bytes) : bytesLt (p ++ a) (p ++ b) = bytesLt a b := by
  induction p with
  | nil => rfl
  | cons x t ih => simp [bytesLt, ih]

theorem bytesLt_append {a b : Bytes} (h : a.length = b.length) (x y : Bytes) :
    bytesLt (a ++ x) (b ++ y) = if a = b then bytesLt x y else bytesLt a b := by
  induction a generalizing b with
  | nil =>
    cases b with
    | nil => simp
    | cons _ _ => simp at h
  | cons c t ih =>
    cases b with
    | nil => simp at h
    | cons d u =>
      have h' : t.length = u.length := by simpa using h
      simp only [List.cons_append, bytesLt, ih h', List.cons.injEq]
      by_cases e : c = d
      · subst e; simp
      · simp [e]

theorem bytesLt_toBE {n x y : Nat} (hx : x < 256 ^ n) (hy : y < 256 ^ n) :
    bytesLt (toBE n x) (toBE n y) = decide (x < y) := by
  induction n generalizing x y with
  | zero =>
    have : x = y := by simp at hx hy; omega
    subst this; simp [toBE, bytesLt]
  | succ n ih =>
    have hx' : x / 256 < 256 ^ n := by rw [Nat.pow_succ] at hx; omega
    have hy' : y / 256 < 256 ^ n := by rw [Nat.pow_succ] at hy; omega
    simp only [toBE]
    rw [bytesLt_append (by simp)]
    by_cases e : x / 256 = y / 256
    · rw [if_pos (by rw [e])]
      simp only [bytesLt]
      have a1 : (UInt8.ofNat (x % 256)).toNat = x % 256 := by simp
      have a2 : (UInt8.ofNat (y % 256)).toNat = y % 256 := by simp
      by_cases f : x % 256 = y % 256
      · rw [f]; simp; omega
      · have : UInt8.ofNat (x % 256) ≠ UInt8.ofNat (y % 256) := by
          intro g; rw [← UInt8.toNat_inj, a1, a2] at g; exact f g
        rw [if_neg this]
        rw [decide_eq_decide, UInt8.lt_iff_toNat_lt, a1, a2]
        omega
    · have : toBE n (x / 256) ≠ toBE n (y / 256) := fun g => e (toBE_inj hx' hy' g)
      rw [if_neg this, ih hx' hy', decide_eq_decide]
      omega

theorem bytesLt_int32 {x y : Int} (hx : -2 ^ 31 ≤ x ∧ x < 2 ^ 31) (hy : -2 ^ 31 ≤ y ∧ y < 2 ^ 31) :
    bytesLt (encInt32 x) (encInt32 y) = decide (x < y) := by
  unfold encInt32
  rw [bytesLt_toBE (by omega) (by omega), decide_eq_decide]; omega

theorem bytesLt_int64 {x y : Int} (hx : -2 ^ 63 ≤ x ∧ x < 2 ^ 63) (hy : -2 ^ 63 ≤ y ∧ y < 2 ^ 63) :
    bytesLt (encInt64 x) (encInt64 y) = decide (x < y) := by
  unfold encInt64
  rw [bytesLt_toBE (by omega) (by omega), decide_eq_decide]; omega

/-! ### Codecs -/

@[simp] theorem encInt32_length (x : Int) : (encInt32 x).length = 4 := toBE_length _ _
@[simp] theorem encInt64_length (x : Int) : (encInt64 x).length = 8 := toBE_length _ _

theorem decInt32_enc {x : Int} (hx : -2 ^ 31 ≤ x ∧ x < 2 ^ 31) (t : Bytes) :
    decInt32 (encInt32 x ++ t) = some (x, t) := by
  unfold decInt32
  rw [if_pos (by simp)]
  have e1 : (encInt32 x ++ t).take 4 = encInt32 x := by
    rw [List.take_append_of_le_length (by simp), List.take_of_length_le (by simp)]
  have e2 : (encInt32 x ++ t).drop 4 = t := by
    rw [List.drop_append_of_le_length (by simp), List.drop_of_length_le (by simp), List.nil_append]
  rw [e1, e2]
  unfold encInt32
  rw [beNat_toBE _ _ (by omega)]
  have : (((x + 2 ^ 31).toNat : Nat) : Int) - 2 ^ 31 = x := by omega
  rw [this]

theorem decInt64_enc {x : Int} (hx : -2 ^ 63 ≤ x ∧ x < 2 ^ 63) (t : Bytes) :
    decInt64 (encInt64 x ++ t) = some (x, t) := by
  unfold decInt64
  rw [if_pos (by simp)]
  have e1 : (encInt64 x ++ t).take 8 = encInt64 x := by
    rw [List.take_append_of_le_length (by simp), List.take_of_length_le (by simp)]
  have e2 : (encInt64 x ++ t).drop 8 = t := by
    rw [List.drop_append_of_le_length (by simp), List.drop_of_length_le (by simp), List.nil_append]
  rw [e1, e2]
  unfold encInt64
  rw [beNat_toBE _ _ (by omega)]
  have : (((x + 2 ^ 63).toNat : Nat) : Int) - 2 ^ 63 = x := by omega
  rw [this]

theorem decBytesNT_enc {a : Bytes} (ha : a.length ≤ 255) (t : Bytes) :
    decBytesNT (encBytesNT a ++ t) = some (a, t) := by
  have e : (UInt8.ofNat a.length).toNat = a.length := by simp; omega
  simp only [encBytesNT, List.cons_append, decBytesNT, e]
  rw [if_pos (by simp)]
  simp

/-- The ranges the key codecs accept: an address of at most 255 bytes, 32- and 64-bit integers. -/
def PosFits (k : PosKey) : Prop :=
  k.1.length ≤ 255 ∧ (-2 ^ 31 ≤ k.2.1 ∧ k.2.1 < 2 ^ 31) ∧ (-2 ^ 63 ≤ k.2.2 ∧ k.2.2 < 2 ^ 63)

theorem decPos_enc {k : PosKey} (h : PosFits k) : decPos (encPos k) = some k := by
  obtain ⟨a, v, t⟩ := k
  obtain ⟨h1, h2, h3⟩ := h
  unfold decPos encPos
  rw [List.append_assoc, decBytesNT_enc h1]
  simp only
  rw [decInt32_enc h2]
  simp only
  have := decInt64_enc h3 []
  rw [List.append_nil] at this
  rw [this]

theorem encPos_inj {k k' : PosKey} (h : PosFits k) (h' : PosFits k') (e : encPos k = encPos k') : k = k' := by
  have := decPos_enc h
  rw [e, decPos_enc h'] at this
  exact (Option.some.inj this).symm

/-! ### Prefixes -/

/-- All collections. -/
def colls : List Coll :=
  [.paused, .index, .principal, .stats, .extYield, .recipient, .retry, .owner, .portalPaused, .peer, .path,
    .nonce, .vPaused, .seasonOneEnded, .collector, .position, .totalFlexible, .reward, .vstats, .byProvider,
    .byPair]

/-- No prefix of a collection is the beginning of another's. -/
theorem pre_free (c d : Coll) (h : c.pre.isPrefixOf d.pre = true) : c = d := by
  have all : ∀ c ∈ colls, ∀ d ∈ colls, c.pre.isPrefixOf d.pre = true → c = d := by decide +kernel
  exact all c (by cases c <;> simp [colls]) d (by cases d <;> simp [colls]) h

theorem prefix_append {p q r : Bytes} (h : p.isPrefixOf (q ++ r) = true) :
    p.isPrefixOf q = true ∨ q.isPrefixOf p = true := by
  rw [List.isPrefixOf_iff_prefix] at h ⊢
  rw [List.isPrefixOf_iff_prefix]
  exact List.prefix_or_prefix_of_prefix h (List.prefix_append q r)

theorem pre_iff (c : Coll) (k : SKey) : c.pre.isPrefixOf k.bytes = true ↔ k.coll = c := by
  constructor
  · intro h
    rcases prefix_append h with h | h
    · exact (pre_free _ _ h).symm
    · exact pre_free _ _ h
  · rintro rfl
    rw [List.isPrefixOf_iff_prefix]; exact List.prefix_append _ _

theorem prefix_of_append {p r q : Bytes} (h : (p ++ r).isPrefixOf q = true) : p.isPrefixOf q = true := by
  rw [List.isPrefixOf_iff_prefix] at h ⊢
  exact (List.prefix_append p r).trans h

theorem append_prefix_append {p r q : Bytes} : (p ++ r).isPrefixOf (p ++ q) = r.isPrefixOf q := by
  rw [Bool.eq_iff_iff, List.isPrefixOf_iff_prefix, List.isPrefixOf_iff_prefix]
  exact List.prefix_append_right_inj p

theorem prefix_same_length {a b x : Bytes} (h : a.length = b.length) (hp : a.isPrefixOf (b ++ x) = true) :
    a = b := by
  rw [List.isPrefixOf_iff_prefix] at hp
  obtain ⟨t, ht⟩ := hp
  exact (List.append_inj ht h).1

namespace Spec

/-- The keys the codecs can encode: 32- and 64-bit integers, 16-bit chain identifiers, owners of at most
255 bytes. -/
def KeyFits : SKey → Prop
  | .extYield p _ | .recipient p _ | .retry p _ => -2 ^ 31 ≤ p ∧ p < 2 ^ 31
  | .peer n | .path n _ => n < 2 ^ 16
  | .position k | .byProvider k | .byPair k => PosFits k
  | .reward i => -2 ^ 63 ≤ i ∧ i < 2 ^ 63
  | _ => True

end Spec
open Spec

theorem toBE2_inj {a b : Nat} (ha : a < 2 ^ 16) (hb : b < 2 ^ 16) (h : toBE 2 a = toBE 2 b) : a = b :=
  toBE_inj (by omega) (by omega) h

theorem pair32_inj {p q : Int} {x y : Bytes} (hp : -2 ^ 31 ≤ p ∧ p < 2 ^ 31) (hq : -2 ^ 31 ≤ q ∧ q < 2 ^ 31)
    (h : encInt32 p ++ x = encInt32 q ++ y) : p = q ∧ x = y := by
  have := decInt32_enc hp x
  rw [h, decInt32_enc hq] at this
  simp at this
  exact ⟨this.1.symm, this.2.symm⟩

theorem bytes_inj {k k' : SKey} (h : KeyFits k) (h' : KeyFits k') (e : k.bytes = k'.bytes) : k = k' := by
  have hc : k'.coll = k.coll := by
    rw [← pre_iff, ← e, pre_iff]
  have hr : k.rest = k'.rest := by
    unfold SKey.bytes at e
    rw [hc] at e
    exact List.append_cancel_left e
  cases k <;> cases k' <;> first | rfl | (simp only [SKey.coll, reduceCtorEq] at hc)
  all_goals simp only [SKey.rest] at hr
  all_goals simp only [KeyFits] at h h'
  · rw [hr]
  · obtain ⟨rfl, rfl⟩ := pair32_inj h h' hr; rfl
  · obtain ⟨rfl, rfl⟩ := pair32_inj h h' hr; rfl
  · obtain ⟨rfl, rfl⟩ := pair32_inj h h' hr; rfl
  · rw [toBE2_inj h h' hr]
  · obtain ⟨a, b⟩ := List.append_inj hr (by simp)
    rw [toBE2_inj h h' a, b]
  · rw [encPos_inj h h' hr]
  · have := decInt64_enc h []
    rw [List.append_nil, hr] at this
    have h2 := decInt64_enc h' []
    rw [List.append_nil, this] at h2
    simp at h2; rw [h2]
  · rename_i k k'
    have h1 := decBytesNT_enc h.1 (encPos k)
    rw [hr, decBytesNT_enc h'.1] at h1
    simp only [Option.some.injEq, Prod.mk.injEq] at h1
    rw [encPos_inj h' h h1.2]
  · rename_i k k'
    have h1 := decBytesNT_enc h.1 (encInt32 k.2.1 ++ encPos k)
    rw [← List.append_assoc, hr, List.append_assoc, decBytesNT_enc h'.1] at h1
    simp only [Option.some.injEq, Prod.mk.injEq] at h1
    have h2 := (List.append_inj h1.2 (by simp)).2
    rw [encPos_inj h' h h2]

namespace Spec

/-- The logical contents of the store: one map of positions, and a map for everything else. -/
structure Logical where
  other : SKey → Option Bytes
  positions : KV PosKey Position

/-- The empty store. -/
def Logical.empty : Logical := ⟨fun _ => none, []⟩

/-- A key that is not part of the indexed map. -/
def Plain : SKey → Prop
  | .position _ | .byProvider _ | .byPair _ => False
  | _ => True

/-- What a write means. -/
def Logical.write (l : Logical) : StoreOp → Logical
  | .setPos k p => { l with positions := l.positions.set k p }
  | .removePos k => { l with positions := l.positions.erase k }
  | .put k v => { l with other := fun k' => if k' = k then some v else l.other k' }
  | .del k => { l with other := fun k' => if k' = k then none else l.other k' }

/-- A write the collections can make. -/
def Legal : StoreOp → Prop
  | .setPos k _ | .removePos k => PosFits k
  | .put k _ | .del k => KeyFits k ∧ Plain k

end Spec

/-- What is stored under a key. -/
def lval (l : Logical) : SKey → Option SVal
  | .position k => (l.positions.get? k).map .position
  | .byProvider k => (l.positions.get? k).map fun _ => .ref
  | .byPair k => (l.positions.get? k).map fun _ => .ref
  | k => (l.other k).map .other

/-- The flat store represents the logical one. -/
structure Reps (st : FStore) (l : Logical) : Prop where
  sorted : KV.Sorted st
  lsorted : KV.Sorted l.positions
  get : ∀ k, KeyFits k → st.get? k.bytes = lval l k
  only : ∀ e ∈ st, ∃ k, KeyFits k ∧ e.1 = k.bytes
  fits : ∀ e ∈ l.positions, PosFits e.1

theorem Reps.empty : Reps [] Logical.empty where
  sorted := KV.sorted_nil
  lsorted := KV.sorted_nil
  get k _ := by cases k <;> rfl
  only e h := by simp at h
  fits e h := by simp [Logical.empty] at h

theorem reps_get_set {st : FStore} {k k' : SKey} (h : KeyFits k) (h' : KeyFits k') (v : SVal) :
    (st.set k.bytes v).get? k'.bytes = if k' = k then some v else st.get? k'.bytes := by
  rw [KV.get?_set]
  by_cases e : k' = k
  · subst e; simp
  · rw [if_neg e, if_neg (fun g => e (bytes_inj h' h g))]

theorem reps_get_erase {st : FStore} {k k' : SKey} (h : KeyFits k) (h' : KeyFits k') :
    (st.erase k.bytes).get? k'.bytes = if k' = k then none else st.get? k'.bytes := by
  rw [KV.get?_erase]
  by_cases e : k' = k
  · subst e; simp
  · rw [if_neg e, if_neg (fun g => e (bytes_inj h' h g))]

theorem only_set {st : FStore} {k : SKey} (h : KeyFits k) (v : SVal)
    (ho : ∀ e ∈ st, ∃ k, KeyFits k ∧ e.1 = k.bytes) :
    ∀ e ∈ st.set k.bytes v, ∃ k, KeyFits k ∧ e.1 = k.bytes := by
  intro e he
  rcases KV.mem_set he with h1 | h1
  · exact ⟨k, h, by rw [h1]⟩
  · exact ho e h1

theorem only_erase {st : FStore} {b : Bytes}
    (ho : ∀ e ∈ st, ∃ k, KeyFits k ∧ e.1 = k.bytes) :
    ∀ e ∈ st.erase b, ∃ k, KeyFits k ∧ e.1 = k.bytes := by
  intro e he
  exact ho e (KV.mem_erase.1 he).1

theorem Reps.write {st : FStore} {l : Logical} (h : Reps st l) {op : StoreOp} (ho : Legal op) :
    Reps (op.apply st) (l.write op) := by
  cases op with
  | setPos k p =>
    have f1 : KeyFits (.byProvider k) := ho
    have f2 : KeyFits (.byPair k) := ho
    have f3 : KeyFits (.position k) := ho
    refine ⟨KV.sorted_set _ _ (KV.sorted_set _ _ (KV.sorted_set _ _ h.sorted)), KV.sorted_set _ _ h.lsorted, ?_,
      only_set f3 _ (only_set f2 _ (only_set f1 _ h.only)), ?_⟩
    rotate_left
    · intro e he
      rcases KV.mem_set he with h1 | h1
      · rw [h1]; exact ho
      · exact h.fits e h1
    intro k' hk'
    show (((st.set _ _).set _ _).set _ _).get? _ = _
    rw [reps_get_set f3 hk', reps_get_set f2 hk', reps_get_set f1 hk', h.get k' hk']
    cases k' <;> simp only [lval, Logical.write, reduceCtorEq, if_false, SKey.position.injEq, SKey.byProvider.injEq,
      SKey.byPair.injEq, KV.get?_set]
    all_goals split <;> rfl
  | removePos k =>
    have f1 : KeyFits (.byProvider k) := ho
    have f2 : KeyFits (.byPair k) := ho
    have f3 : KeyFits (.position k) := ho
    refine ⟨KV.sorted_erase _ (KV.sorted_erase _ (KV.sorted_erase _ h.sorted)), KV.sorted_erase _ h.lsorted, ?_,
      only_erase (only_erase (only_erase h.only)), fun e he => h.fits e (KV.mem_erase.1 he).1⟩
    intro k' hk'
    show (((st.erase _).erase _).erase _).get? _ = _
    rw [reps_get_erase f3 hk', reps_get_erase f2 hk', reps_get_erase f1 hk', h.get k' hk']
    cases k' <;> simp only [lval, Logical.write, reduceCtorEq, if_false, SKey.position.injEq, SKey.byProvider.injEq,
      SKey.byPair.injEq, KV.get?_erase]
    all_goals split <;> rfl
  | put k v =>
    obtain ⟨hk, hp⟩ := ho
    refine ⟨KV.sorted_set _ _ h.sorted, h.lsorted, ?_, only_set hk _ h.only, h.fits⟩
    intro k' hk'
    show (st.set _ _).get? _ = _
    rw [reps_get_set hk hk', h.get k' hk']
    by_cases e : k' = k
    · subst e
      rw [if_pos rfl]
      cases k' <;> first | exact absurd hp id | simp [lval, Logical.write]
    · rw [if_neg e]
      cases k' <;> simp [lval, Logical.write, e]
  | del k =>
    obtain ⟨hk, hp⟩ := ho
    refine ⟨KV.sorted_erase _ h.sorted, h.lsorted, ?_, only_erase h.only, h.fits⟩
    intro k' hk'
    show (st.erase _).get? _ = _
    rw [reps_get_erase hk hk', h.get k' hk']
    by_cases e : k' = k
    · subst e
      rw [if_pos rfl]
      cases k' <;> first | exact absurd hp id | simp [lval, Logical.write]
    · rw [if_neg e]
      cases k' <;> simp [lval, Logical.write, e]

/-! ### Scans -/

/-- The entry behind a stored key. -/
theorem Reps.entry {st : FStore} {l : Logical} (h : Reps st l) {e : Bytes × SVal} (he : e ∈ st) :
    ∃ k, KeyFits k ∧ e.1 = k.bytes ∧ lval l k = some e.2 := by
  obtain ⟨k, hk, e1⟩ := h.only e he
  refine ⟨k, hk, e1, ?_⟩
  rw [← h.get k hk, ← e1]
  exact KV.get?_of_mem h.sorted he

theorem Reps.mem {st : FStore} {l : Logical} (h : Reps st l) {k : SKey} (hk : KeyFits k) {v : SVal}
    (hv : lval l k = some v) : (k.bytes, v) ∈ st := by
  apply KV.mem_of_get?
  rw [h.get k hk, hv]

theorem drop_prefix (p q : Bytes) : (p ++ q).drop p.length = q := by simp

theorem isPrefixOf_append (p q : Bytes) : p.isPrefixOf (p ++ q) = true := by
  rw [List.isPrefixOf_iff_prefix]; exact List.prefix_append p q

theorem scan_split {c : Coll} {ref : Bytes} {k : SKey} (h : (c.pre ++ ref).isPrefixOf k.bytes = true) :
    k.coll = c ∧ ∃ t, k.rest = ref ++ t := by
  have hc := (pre_iff c k).1 (prefix_of_append h)
  refine ⟨hc, ?_⟩
  unfold SKey.bytes at h
  rw [hc, append_prefix_append, List.isPrefixOf_iff_prefix] at h
  obtain ⟨t, ht⟩ := h
  exact ⟨t, ht.symm⟩

/-- What a scan of an index finds behind one entry. -/
theorem lookup_ref {st : FStore} {l : Logical} (h : Reps st l) {pk : PosKey} (hk : PosFits pk)
    (hv : ((l.positions.get? pk).map fun _ => SVal.ref) = some v) :
    ∃ p, l.positions.get? pk = some p ∧ st.get? (SKey.position pk).bytes = some (.position p) := by
  have e : st.get? (SKey.position pk).bytes = (l.positions.get? pk).map .position := h.get (.position pk) hk
  cases hp : l.positions.get? pk with
  | none => rw [hp] at hv; simp at hv
  | some p => exact ⟨p, rfl, by rw [e, hp]; rfl⟩

/-- The step of `matchExact`. -/
def matchStep (st : FStore) (n : Nat) (e : Bytes × SVal) : Option (PosKey × Position) :=
  match decPos (e.1.drop n) with
  | none => none
  | some k =>
    match st.get? (SKey.position k).bytes with
    | some (.position p) => some (k, p)
    | _ => none

theorem matchExact_eq (st : FStore) (c : Coll) (ref : Bytes) :
    st.matchExact c ref = (st.filter fun e => (c.pre ++ ref).isPrefixOf e.1).filterMap
      (matchStep st (c.pre ++ ref).length) := rfl

theorem matchStep_of {st : FStore} {n : Nat} {e : Bytes × SVal} {pk : PosKey} {p : Position}
    (h1 : decPos (e.1.drop n) = some pk) (h2 : st.get? (SKey.position pk).bytes = some (.position p)) :
    matchStep st n e = some (pk, p) := by
  unfold matchStep
  rw [h1]; simp only; rw [h2]

/-- Scans that agree on entries and on order. -/
theorem scan_eq {α : Type} {K : Type} [DecidableEq K] [KeyOrd K] [LawfulKeyOrd K] {st : FStore} (hs : KV.Sorted st)
    (P : Bytes × SVal → Bool) (g : Bytes × SVal → Option (K × α)) (m : KV K α) (hm : KV.Sorted m)
    (kb : K → Bytes)
    (hg : ∀ e ∈ st, P e = true → ∀ r, g e = some r → e.1 = kb r.1 ∧ r ∈ m)
    (hkb : ∀ r ∈ m, ∀ r' ∈ m, bytesLt (kb r.1) (kb r'.1) = true → klt r.1 r'.1 = true)
    (hin : ∀ r ∈ m, ∃ e ∈ st, P e = true ∧ g e = some r) :
    (st.filter P).filterMap g = m := by
  have hsort : KV.Sorted ((st.filter P).filterMap g) := by
    unfold KV.Sorted at hs ⊢
    rw [List.pairwise_filterMap]
    have hs' := List.Pairwise.filter P hs
    refine List.Pairwise.imp_of_mem ?_ hs'
    intro a b ha hb hab r hr r' hr'
    rw [List.mem_filter] at ha hb
    obtain ⟨ea, ma⟩ := hg a ha.1 ha.2 r hr
    obtain ⟨eb, mb⟩ := hg b hb.1 hb.2 r' hr'
    refine hkb r ma r' mb ?_
    rw [← ea, ← eb]; exact hab
  have hmem : ∀ r, r ∈ (st.filter P).filterMap g ↔ r ∈ m := by
    intro r
    rw [List.mem_filterMap]
    constructor
    · rintro ⟨e, he, hr⟩
      rw [List.mem_filter] at he
      exact (hg e he.1 he.2 r hr).2
    · intro hr
      obtain ⟨e, he, hp, h⟩ := hin r hr
      exact ⟨e, List.mem_filter.2 ⟨he, hp⟩, h⟩
  refine KV.ext_of_sorted hsort hm ?_
  intro k
  cases h1 : KV.get? ((st.filter P).filterMap g) k with
  | none =>
    cases h2 : KV.get? m k with
    | none => rfl
    | some v =>
      have := (hmem _).2 (KV.mem_of_get? h2)
      rw [KV.get?_of_mem hsort this] at h1; simp at h1
  | some v =>
    have := (hmem _).1 (KV.mem_of_get? h1)
    rw [KV.get?_of_mem hm this]

theorem sorted_filter {K V : Type} [DecidableEq K] [KeyOrd K] {m : KV K V} (h : KV.Sorted m) (P : K × V → Bool) :
    KV.Sorted (m.filter P) := List.Pairwise.filter P h

theorem klt_pos {a : Addr} {v t v' t' : Int} : klt (a, v, t) (a, v', t') = if v = v' then decide (t < t') else decide (v < v') := by
  show (if a = a then klt (v, t) (v', t') else klt a a) = _
  rw [if_pos rfl]; rfl

/-- Byte order of position keys with the same owner. -/
theorem encPos_lt {k k' : PosKey} (h : PosFits k) (h' : PosFits k') (e : k.1.length = k'.1.length) :
    bytesLt (encPos k) (encPos k') = klt k k' := by
  obtain ⟨a, v, t⟩ := k
  obtain ⟨a', v', t'⟩ := k'
  obtain ⟨_, h2, h3⟩ := h
  obtain ⟨_, h2', h3'⟩ := h'
  have e : a.length = a'.length := e
  unfold encPos encBytesNT
  simp only
  rw [e, List.append_assoc, List.append_assoc, List.cons_append, List.cons_append]
  simp only [bytesLt, if_true]
  rw [bytesLt_append e, bytesLt_append (by simp), bytesLt_int32 h2 h2', bytesLt_int64 h3 h3']
  show _ = if a = a' then klt (v, t) (v', t') else bytesLt a a'
  by_cases ea : a = a'
  · rw [if_pos ea, if_pos ea]
    show _ = if v = v' then decide (t < t') else decide (v < v')
    by_cases ev : v = v'
    · subst ev; simp
    · rw [if_neg ev, if_neg]
      intro g
      exact ev (pair32_inj h2 h2' (by rw [g] : encInt32 v ++ [] = encInt32 v' ++ [])).1
  · rw [if_neg ea, if_neg ea]

/-- The step of `allPositions`. -/
def posStep (e : Bytes × SVal) : Option (PosKey × Position) :=
  match decPos (e.1.drop Coll.position.pre.length), e.2 with
  | some k, .position p => some (k, p)
  | _, _ => none

/-- The step of `rewardsFrom`. -/
def rewardStep (e : Bytes × SVal) : Option (Int × Bytes) :=
  match decInt64 (e.1.drop Coll.reward.pre.length), e.2 with
  | some (i, _), .other v => some (i, v)
  | _, _ => none

/-- The step of the scans that keep the rest of the key. -/
def restStep (n : Nat) (e : Bytes × SVal) : Option (Bytes × Bytes) :=
  match e.2 with
  | .other v => some (e.1.drop n, v)
  | _ => none

/-- Scans over the second half of a pair key. -/
theorem scanRest {st : FStore} {l : Logical} {c : Coll} {ref : Bytes} {f : Bytes → SKey} {R : List (Bytes × Bytes)}
    (r : Reps st l) (hf : ∀ x, KeyFits (f x)) (hpl : ∀ x, Plain (f x)) (hc : ∀ x, (f x).coll = c)
    (hr : ∀ x, (f x).rest = ref ++ x)
    (hinv : ∀ k t, KeyFits k → k.coll = c → k.rest = ref ++ t → k = f t)
    (hR : ∀ _x : Unit, R = (st.filter fun e => (c.pre ++ ref).isPrefixOf e.1).filterMap (restStep (c.pre ++ ref).length)) :
    (R.map Prod.fst).Nodup ∧ ∀ x v, (x, v) ∈ R ↔ l.other (f x) = some v := by
  rw [hR ()]
  have hb : ∀ x, (f x).bytes = (c.pre ++ ref) ++ x := by
    intro x; unfold SKey.bytes; rw [hc, hr, List.append_assoc]
  have hlv : ∀ x, lval l (f x) = (l.other (f x)).map .other := by
    intro x
    have := hpl x
    revert this
    cases f x <;> first | (intro hp; exact absurd hp id) | (intro _; rfl)
  have hg : ∀ e ∈ st, (c.pre ++ ref).isPrefixOf e.1 = true →
      ∃ x v, e.1 = (f x).bytes ∧ l.other (f x) = some v ∧ restStep (c.pre ++ ref).length e = some (x, v) := by
    intro e he hp
    obtain ⟨k, hk, e1, e2⟩ := r.entry he
    rw [e1] at hp
    obtain ⟨hc', t, ht⟩ := scan_split hp
    have := hinv k t hk hc' ht
    subst this
    rw [hlv, Option.map_eq_some_iff] at e2
    obtain ⟨v, hv1, hv2⟩ := e2
    refine ⟨t, v, e1, hv1, ?_⟩
    unfold restStep
    rw [← hv2, e1, hb, drop_prefix]
  constructor
  · unfold List.Nodup
    rw [List.pairwise_map, List.pairwise_filterMap]
    refine List.Pairwise.imp_of_mem ?_ (List.Pairwise.filter _ r.sorted)
    intro x y hx hy hlt u hu w hw e
    rw [List.mem_filter] at hx hy
    obtain ⟨i, _, ei, _, gi⟩ := hg x hx.1 hx.2
    obtain ⟨j, _, ej, _, gj⟩ := hg y hy.1 hy.2
    rw [gi] at hu; rw [gj] at hw
    simp only [Option.some.injEq] at hu hw
    subst hu; subst hw
    simp only at e
    subst e
    have hlt : bytesLt x.1 y.1 = true := hlt
    rw [ei, ej, bytesLt_irrefl] at hlt
    simp at hlt
  · intro x v
    rw [List.mem_filterMap]
    constructor
    · rintro ⟨e, hm, hx⟩
      rw [List.mem_filter] at hm
      obtain ⟨i, v', _, hv, g⟩ := hg e hm.1 hm.2
      rw [g] at hx
      simp only [Option.some.injEq, Prod.mk.injEq] at hx
      obtain ⟨rfl, rfl⟩ := hx
      exact hv
    · intro hv
      refine ⟨((f x).bytes, .other v), List.mem_filter.2 ⟨r.mem (hf x) (by rw [hlv, hv]; rfl), ?_⟩, ?_⟩
      · rw [hb]; exact isPrefixOf_append _ _
      · unfold restStep
        simp only [hb, drop_prefix]

end Dollar
