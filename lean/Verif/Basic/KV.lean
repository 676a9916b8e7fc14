/-
Finite key/value stores.

This file is generic infrastructure, not a model of repository code.  It stands
in for `collections.Map` / `collections.Item` of cosmossdk.io/collections: a
store is an association list kept in ascending key order, so walking the list
is walking the store in iterator order.

`set` overwrites an existing entry and otherwise inserts at the sorted place;
`erase` drops every entry with the key.  The lookup laws hold for every list;
ordering (and hence absence of duplicates) is the separate predicate `Sorted`.
-/
namespace Dollar

/-- Strict order used by a store's key codec. -/
class KeyOrd (K : Type) where
  klt : K → K → Bool

export KeyOrd (klt)

/-- The order is a strict total order. -/
class LawfulKeyOrd (K : Type) [KeyOrd K] : Prop where
  irrefl : ∀ a : K, klt a a = false
  trans : ∀ a b c : K, klt a b = true → klt b c = true → klt a c = true
  tri : ∀ a b : K, klt a b = false → klt b a = false → a = b

/-- A store: an association list. -/
abbrev KV (K V : Type) := List (K × V)

namespace KV

variable {K V : Type} [DecidableEq K]

/-- `Map.Get`; `none` is `collections.ErrNotFound`. -/
def get? : KV K V → K → Option V
  | [], _ => none
  | (k', v) :: t, k => if k' = k then some v else get? t k

/-- `Map.Has`. -/
def has (m : KV K V) (k : K) : Bool := (get? m k).isSome

/-- Overwrite the first entry with key `k`. -/
def replace : KV K V → K → V → KV K V
  | [], _, _ => []
  | (k', v') :: t, k, v => if k' = k then (k, v) :: t else (k', v') :: replace t k v

/-- Insert before the first larger key. -/
def insertS [KeyOrd K] : KV K V → K → V → KV K V
  | [], k, v => [(k, v)]
  | (k', v') :: t, k, v =>
    if klt k k' then (k, v) :: (k', v') :: t else (k', v') :: insertS t k v

/-- `Map.Set`. -/
def set [KeyOrd K] (m : KV K V) (k : K) (v : V) : KV K V :=
  if has m k then replace m k v else insertS m k v

/-- `Map.Remove`. -/
def erase (m : KV K V) (k : K) : KV K V := m.filter (fun p => !decide (p.1 = k))

/-- Sum of an integer-valued function of the entries. -/
def sum (m : KV K V) (f : K → V → Int) : Int := (m.map (fun p => f p.1 p.2)).sum

/-- Strictly ascending keys. -/
def Sorted [KeyOrd K] (m : KV K V) : Prop := m.Pairwise (fun a b => klt a.1 b.1 = true)

/-! ### Lookup laws -/

omit [DecidableEq K] in
@[simp] theorem sum_nil (f : K → V → Int) : sum ([] : KV K V) f = 0 := rfl

omit [DecidableEq K] in
@[simp] theorem sum_cons (p : K × V) (m : KV K V) (f : K → V → Int) :
    sum (p :: m) f = f p.1 p.2 + sum m f := by simp [sum]

@[simp] theorem get?_nil (k : K) : get? ([] : KV K V) k = none := rfl

theorem get?_replace (m : KV K V) (k k' : K) (v : V) :
    get? (replace m k v) k' = if k' = k then (get? m k).map (fun _ => v) else get? m k' := by
  induction m with
  | nil => simp [replace]
  | cons p t ih =>
    obtain ⟨a, b⟩ := p
    simp only [replace, get?]
    by_cases h1 : a = k <;> by_cases h2 : k' = k <;> by_cases h3 : a = k' <;>
      simp_all [get?] <;> (try subst_vars) <;> simp_all

theorem get?_insertS [KeyOrd K] (m : KV K V) (k k' : K) (v : V) (hk : get? m k = none) :
    get? (insertS m k v) k' = if k' = k then some v else get? m k' := by
  induction m with
  | nil =>
    by_cases h : k = k'
    · subst h; simp [insertS, get?]
    · simp [insertS, get?, h, Ne.symm h]
  | cons p t ih =>
    obtain ⟨a, b⟩ := p
    have hne : a ≠ k := by
      intro e; subst e; simp [get?] at hk
    have ht : get? t k = none := by simpa [get?, hne] using hk
    simp only [insertS]
    split
    · by_cases h : k = k'
      · subst h; simp [get?]
      · simp [get?, h, Ne.symm h]
    · by_cases h : a = k'
      · subst h; simp [get?, hne]
      · simp [get?, h, ih ht]

theorem get?_set [KeyOrd K] (m : KV K V) (k k' : K) (v : V) :
    get? (set m k v) k' = if k' = k then some v else get? m k' := by
  unfold set has
  cases h : get? m k with
  | none => simp [get?_insertS m k k' v h]
  | some w => simp [get?_replace, h]

@[simp] theorem get?_set_self [KeyOrd K] (m : KV K V) (k : K) (v : V) :
    get? (set m k v) k = some v := by simp [get?_set]

theorem get?_set_ne [KeyOrd K] (m : KV K V) {k k' : K} (v : V) (h : k' ≠ k) :
    get? (set m k v) k' = get? m k' := by simp [get?_set, h]

theorem get?_erase (m : KV K V) (k k' : K) :
    get? (erase m k) k' = if k' = k then none else get? m k' := by
  induction m with
  | nil => simp [erase]
  | cons p t ih =>
    obtain ⟨a, b⟩ := p
    simp only [erase] at ih ⊢
    by_cases h1 : a = k
    · subst h1
      simp only [List.filter_cons, decide_true, Bool.not_true, Bool.false_eq_true, if_false, ih]
      by_cases h2 : k' = a
      · simp [h2]
      · simp [get?, h2, Ne.symm h2]
    · simp only [List.filter_cons, h1, decide_false, Bool.not_false, if_true, get?, ih]
      by_cases h2 : k' = k
      · subst h2; simp [h1]
      · simp [h2]

/-! ### Sums -/

theorem sum_replace (m : KV K V) (k : K) (v w : V) (f : K → V → Int) (h : get? m k = some w) :
    sum (replace m k v) f = sum m f - f k w + f k v := by
  induction m with
  | nil => simp at h
  | cons p t ih =>
    obtain ⟨a, b⟩ := p
    simp only [replace, get?] at h ⊢
    by_cases h1 : a = k
    · subst h1
      simp at h
      subst h
      simp
      omega
    · simp [h1] at h ⊢
      rw [ih h]
      omega

omit [DecidableEq K] in
theorem sum_insertS [KeyOrd K] (m : KV K V) (k : K) (v : V) (f : K → V → Int) :
    sum (insertS m k v) f = sum m f + f k v := by
  induction m with
  | nil => simp [insertS]
  | cons p t ih =>
    obtain ⟨a, b⟩ := p
    simp only [insertS]
    split
    · simp; omega
    · simp [ih]; omega

/-- Value of `f` at a key, `0` when the key is absent. -/
def at' (m : KV K V) (k : K) (f : K → V → Int) : Int :=
  match get? m k with
  | some v => f k v
  | none => 0

theorem sum_set [KeyOrd K] (m : KV K V) (k : K) (v : V) (f : K → V → Int) :
    sum (set m k v) f = sum m f - at' m k f + f k v := by
  unfold set has at'
  cases h : get? m k with
  | none => simp [sum_insertS]
  | some w => simp [sum_replace m k v w f h]

omit [DecidableEq K] in
theorem sum_congr {m : KV K V} {f g : K → V → Int} (h : ∀ p ∈ m, f p.1 p.2 = g p.1 p.2) :
    sum m f = sum m g := by
  induction m with
  | nil => rfl
  | cons p t ih =>
    simp only [sum_cons]
    rw [h p (by simp), ih (fun q hq => h q (by simp [hq]))]

omit [DecidableEq K] in
theorem sum_nonneg {m : KV K V} {f : K → V → Int} (h : ∀ p ∈ m, 0 ≤ f p.1 p.2) :
    0 ≤ sum m f := by
  induction m with
  | nil => simp
  | cons p t ih =>
    simp only [sum_cons]
    have := h p (by simp)
    have := ih (fun q hq => h q (by simp [hq]))
    omega

omit [DecidableEq K] in
theorem sum_le {m : KV K V} {f g : K → V → Int} (h : ∀ p ∈ m, f p.1 p.2 ≤ g p.1 p.2) :
    sum m f ≤ sum m g := by
  induction m with
  | nil => simp
  | cons p t ih =>
    simp only [sum_cons]
    have := h p (by simp)
    have := ih (fun q hq => h q (by simp [hq]))
    omega

/-! ### Membership -/

theorem mem_of_get? {m : KV K V} {k : K} {v : V} (h : get? m k = some v) : (k, v) ∈ m := by
  induction m with
  | nil => simp at h
  | cons p t ih =>
    obtain ⟨a, b⟩ := p
    simp only [get?] at h
    by_cases h1 : a = k
    · subst h1; simp at h; subst h; simp
    · simp [h1] at h; exact List.mem_cons_of_mem _ (ih h)

theorem mem_replace {m : KV K V} {k : K} {v : V} {p : K × V} (h : p ∈ replace m k v) :
    p = (k, v) ∨ p ∈ m := by
  induction m with
  | nil => simp [replace] at h
  | cons q t ih =>
    obtain ⟨a, b⟩ := q
    simp only [replace] at h
    split at h
    · rcases List.mem_cons.1 h with h | h
      · exact Or.inl h
      · exact Or.inr (List.mem_cons_of_mem _ h)
    · rcases List.mem_cons.1 h with h | h
      · exact Or.inr (by simp [h])
      · rcases ih h with h | h
        · exact Or.inl h
        · exact Or.inr (List.mem_cons_of_mem _ h)

omit [DecidableEq K] in
theorem mem_insertS [KeyOrd K] {m : KV K V} {k : K} {v : V} {p : K × V} :
    p ∈ insertS m k v ↔ p = (k, v) ∨ p ∈ m := by
  induction m with
  | nil => simp [insertS]
  | cons q t ih =>
    obtain ⟨a, b⟩ := q
    simp only [insertS]
    split
    · simp
    · simp only [List.mem_cons, ih]
      constructor
      · rintro (h | h | h) <;> simp [h]
      · rintro (h | h | h) <;> simp [h]

theorem mem_set [KeyOrd K] {m : KV K V} {k : K} {v : V} {p : K × V} (h : p ∈ set m k v) :
    p = (k, v) ∨ p ∈ m := by
  unfold set at h
  split at h
  · exact mem_replace h
  · exact mem_insertS.1 h

theorem mem_erase {m : KV K V} {k : K} {p : K × V} : p ∈ erase m k ↔ p ∈ m ∧ p.1 ≠ k := by
  simp [erase]

/-! ### Sortedness -/

section Sorted
variable [KeyOrd K]

omit [KeyOrd K] in
theorem keys_replace (m : KV K V) (k : K) (v : V) :
    (replace m k v).map Prod.fst = m.map Prod.fst := by
  induction m with
  | nil => rfl
  | cons p t ih =>
    obtain ⟨a, b⟩ := p
    simp only [replace]
    split
    · rename_i h; simp [h]
    · simp [ih]

omit [DecidableEq K] in
theorem sorted_iff_keys (m : KV K V) :
    Sorted m ↔ (m.map Prod.fst).Pairwise (fun a b => klt a b = true) := by
  unfold Sorted
  rw [List.pairwise_map]

omit [DecidableEq K] in
theorem nodup_keys [LawfulKeyOrd K] {m : KV K V} (h : Sorted m) : (m.map Prod.fst).Nodup := by
  rw [sorted_iff_keys] at h
  refine h.imp fun {a b} hab he => ?_
  subst he
  rw [LawfulKeyOrd.irrefl] at hab
  cases hab

omit [DecidableEq K] in
theorem sorted_nil : Sorted ([] : KV K V) := List.Pairwise.nil

theorem sorted_replace {m : KV K V} (k : K) (v : V) (h : Sorted m) : Sorted (replace m k v) := by
  rw [sorted_iff_keys] at h ⊢
  rwa [keys_replace]

theorem sorted_insertS [LawfulKeyOrd K] {m : KV K V} (k : K) (v : V) (h : Sorted m)
    (hk : get? m k = none) : Sorted (insertS m k v) := by
  induction m with
  | nil => simp [insertS, Sorted]
  | cons p t ih =>
    obtain ⟨a, b⟩ := p
    have hne : a ≠ k := by
      intro e; subst e; simp [get?] at hk
    have ht : get? t k = none := by simpa [get?, hne] using hk
    unfold Sorted at h
    rw [List.pairwise_cons] at h
    simp only [insertS]
    split
    · rename_i hlt
      unfold Sorted
      rw [List.pairwise_cons]
      refine ⟨?_, ?_⟩
      · intro q hq
        rcases List.mem_cons.1 hq with rfl | hq
        · exact hlt
        · exact LawfulKeyOrd.trans _ _ _ hlt (h.1 q hq)
      · rw [List.pairwise_cons]; exact h
    · rename_i hlt
      unfold Sorted
      rw [List.pairwise_cons]
      refine ⟨?_, ih h.2 ht⟩
      intro q hq
      rcases mem_insertS.1 hq with rfl | hq
      · show klt a k = true
        cases hc : klt a k with
        | true => rfl
        | false =>
          exact absurd (LawfulKeyOrd.tri a k hc (by simpa using hlt)) hne
      · exact h.1 q hq

theorem sorted_set [LawfulKeyOrd K] {m : KV K V} (k : K) (v : V) (h : Sorted m) :
    Sorted (set m k v) := by
  unfold set has
  cases hg : get? m k with
  | none => simpa using sorted_insertS k v h hg
  | some w => simpa using sorted_replace k v h

theorem sorted_erase {m : KV K V} (k : K) (h : Sorted m) : Sorted (erase m k) :=
  List.Pairwise.filter _ h

theorem get?_of_mem [LawfulKeyOrd K] {m : KV K V} (h : Sorted m) {k : K} {v : V}
    (hm : (k, v) ∈ m) : get? m k = some v := by
  induction m with
  | nil => simp at hm
  | cons p t ih =>
    obtain ⟨a, b⟩ := p
    unfold Sorted at h
    rw [List.pairwise_cons] at h
    rcases List.mem_cons.1 hm with e | hm
    · cases e; simp [get?]
    · have hlt := h.1 _ hm
      have hne : a ≠ k := by
        intro e; subst e
        have := LawfulKeyOrd.irrefl (K := K) a
        simp [this] at hlt
      simp [get?, hne, ih h.2 hm]

theorem mem_iff_get? [LawfulKeyOrd K] {m : KV K V} (h : Sorted m) {k : K} {v : V} :
    (k, v) ∈ m ↔ get? m k = some v :=
  ⟨get?_of_mem h, mem_of_get?⟩

theorem sum_erase [LawfulKeyOrd K] {m : KV K V} (h : Sorted m) (k : K) (f : K → V → Int) :
    sum (erase m k) f = sum m f - at' m k f := by
  induction m with
  | nil => simp [erase, at']
  | cons p t ih =>
    obtain ⟨a, b⟩ := p
    have hs := h
    unfold Sorted at h
    rw [List.pairwise_cons] at h
    by_cases h1 : a = k
    · subst h1
      have : erase ((a, b) :: t) a = t := by
        simp only [erase, List.filter_cons, decide_true, Bool.not_true, Bool.false_eq_true, if_false]
        rw [List.filter_eq_self]
        intro q hq
        have hlt := h.1 q hq
        simp only [Bool.not_eq_true', decide_eq_false_iff_not]
        intro e
        rw [e] at hlt
        simp [LawfulKeyOrd.irrefl] at hlt
      rw [this]
      simp [at', get?]
      omega
    · have : erase ((a, b) :: t) k = (a, b) :: erase t k := by
        simp [erase, h1]
      rw [this]
      simp only [sum_cons, ih h.2, at', get?, h1, if_false]
      omega

/-- Two sorted stores with the same lookups are equal. -/
theorem ext_of_sorted [LawfulKeyOrd K] {m n : KV K V} (hm : Sorted m) (hn : Sorted n)
    (h : ∀ k, get? m k = get? n k) : m = n := by
  induction m generalizing n with
  | nil =>
    cases n with
    | nil => rfl
    | cons p t =>
      have := h p.1
      simp [get?] at this
  | cons p t ih =>
    obtain ⟨a, b⟩ := p
    cases n with
    | nil =>
      have := h a
      simp [get?] at this
    | cons q u =>
      obtain ⟨c, d⟩ := q
      have hm' := hm; have hn' := hn
      unfold Sorted at hm' hn'
      rw [List.pairwise_cons] at hm' hn'
      have hac : a = c := by
        by_cases e : a = c
        · exact e
        · exfalso
          have h1 := h a
          simp only [get?, if_true, if_neg (Ne.symm e)] at h1
          have h2 := h c
          simp only [get?, if_true, if_neg e] at h2
          have m1 := hn'.1 _ (mem_of_get? h1.symm)
          have m2 := hm'.1 _ (mem_of_get? h2)
          have := LawfulKeyOrd.trans _ _ _ m1 m2
          simp [LawfulKeyOrd.irrefl] at this
      subst hac
      have hbd : b = d := by
        have := h a
        simpa [get?] using this
      subst hbd
      congr 1
      apply ih hm'.2 hn'.2
      intro k
      by_cases e : a = k
      · subst e
        have n1 : get? t a = none := by
          cases hg : get? t a with
          | none => rfl
          | some w =>
            have := hm'.1 _ (mem_of_get? hg)
            simp [LawfulKeyOrd.irrefl] at this
        have n2 : get? u a = none := by
          cases hg : get? u a with
          | none => rfl
          | some w =>
            have := hn'.1 _ (mem_of_get? hg)
            simp [LawfulKeyOrd.irrefl] at this
        rw [n1, n2]
      · have := h k
        simpa [get?, e] using this

end Sorted

end KV

/-! ### Key orders of the codecs used by the module -/

instance : KeyOrd Int := ⟨fun a b => decide (a < b)⟩
instance : KeyOrd Nat := ⟨fun a b => decide (a < b)⟩

instance : LawfulKeyOrd Int where
  irrefl a := by simp [klt]
  trans a b c := by simp only [klt, decide_eq_true_eq]; omega
  tri a b := by simp only [klt, decide_eq_false_iff_not]; omega

instance : LawfulKeyOrd Nat where
  irrefl a := by simp [klt]
  trans a b c := by simp only [klt, decide_eq_true_eq]; omega
  tri a b := by simp only [klt, decide_eq_false_iff_not]; omega

/-- Byte-wise lexicographic order (terminal `BytesKey`). -/
def bytesLt : List UInt8 → List UInt8 → Bool
  | [], [] => false
  | [], _ :: _ => true
  | _ :: _, [] => false
  | a :: s, b :: t => if a = b then bytesLt s t else decide (a < b)

instance : KeyOrd (List UInt8) := ⟨bytesLt⟩

theorem bytesLt_irrefl (a : List UInt8) : bytesLt a a = false := by
  induction a with
  | nil => rfl
  | cons x s ih => simp [bytesLt, ih]

theorem bytesLt_trans (a b c : List UInt8) (h1 : bytesLt a b = true) (h2 : bytesLt b c = true) :
    bytesLt a c = true := by
  induction a generalizing b c with
  | nil =>
    cases b with
    | nil => simp [bytesLt] at h1
    | cons y t =>
      cases c with
      | nil => simp [bytesLt] at h2
      | cons z u => rfl
  | cons x s ih =>
    cases b with
    | nil => simp [bytesLt] at h1
    | cons y t =>
      cases c with
      | nil => simp [bytesLt] at h2
      | cons z u =>
        simp only [bytesLt] at h1 h2 ⊢
        by_cases e1 : x = y
        · subst e1
          simp only [if_true] at h1
          by_cases e2 : x = z
          · subst e2
            simp only [if_true] at h2 ⊢
            exact ih _ _ h1 h2
          · simpa [e2] using h2
        · simp only [e1, if_false, decide_eq_true_eq] at h1
          by_cases e2 : y = z
          · subst e2; simp [e1, h1]
          · simp only [e2, if_false, decide_eq_true_eq] at h2
            have h3 : x < z := UInt8.lt_trans h1 h2
            have : x ≠ z := UInt8.ne_of_lt h3
            simp [this, h3]

theorem bytesLt_tri (a b : List UInt8) (h1 : bytesLt a b = false) (h2 : bytesLt b a = false) :
    a = b := by
  induction a generalizing b with
  | nil =>
    cases b with
    | nil => rfl
    | cons y t => simp [bytesLt] at h1
  | cons x s ih =>
    cases b with
    | nil => simp [bytesLt] at h2
    | cons y t =>
      simp only [bytesLt] at h1 h2
      by_cases e : x = y
      · subst e
        simp only [if_true] at h1 h2
        rw [ih t h1 h2]
      · simp only [e, Ne.symm e, if_false, decide_eq_false_iff_not] at h1 h2
        exfalso
        apply e
        exact UInt8.le_antisymm (UInt8.not_lt.1 h2) (UInt8.not_lt.1 h1)

instance : LawfulKeyOrd (List UInt8) where
  irrefl := bytesLt_irrefl
  trans := bytesLt_trans
  tri := bytesLt_tri

instance : KeyOrd String := ⟨fun a b => decide (a < b)⟩

instance : LawfulKeyOrd String where
  irrefl a := by simp [klt, String.lt_irrefl]
  trans a b c := by
    simp only [klt, decide_eq_true_eq]
    exact String.lt_trans
  tri a b := by
    simp only [klt, decide_eq_false_iff_not]
    intro h1 h2
    exact String.le_antisymm (String.not_lt.1 h2) (String.not_lt.1 h1)

/-- Pair keys (`collections.PairKeyCodec`): first component decides first. -/
instance {A B : Type} [DecidableEq A] [KeyOrd A] [KeyOrd B] : KeyOrd (A × B) :=
  ⟨fun x y => if x.1 = y.1 then klt x.2 y.2 else klt x.1 y.1⟩

instance {A B : Type} [DecidableEq A] [KeyOrd A] [KeyOrd B] [LawfulKeyOrd A] [LawfulKeyOrd B] :
    LawfulKeyOrd (A × B) where
  irrefl a := by simp [klt]; exact LawfulKeyOrd.irrefl _
  trans := by
    rintro ⟨a1, a2⟩ ⟨b1, b2⟩ ⟨c1, c2⟩
    simp only [KeyOrd.klt]
    by_cases h1 : a1 = b1
    · subst h1
      by_cases h2 : a1 = c1
      · subst h2; simp only [if_true]; exact LawfulKeyOrd.trans _ _ _
      · simp only [h2, if_true, if_false]; intro _ h; exact h
    · by_cases h2 : b1 = c1
      · subst h2; simp only [h1, if_true, if_false]; intro h _; exact h
      · simp only [h1, h2, if_false]
        intro x y
        have z := LawfulKeyOrd.trans _ _ _ x y
        have : a1 ≠ c1 := by
          intro e; subst e
          simp [LawfulKeyOrd.irrefl] at z
        simp [this, z]
  tri := by
    rintro ⟨a1, a2⟩ ⟨b1, b2⟩
    simp only [KeyOrd.klt]
    by_cases h1 : a1 = b1
    · subst h1
      simp only [if_true]
      intro x y
      rw [LawfulKeyOrd.tri a2 b2 x y]
    · simp only [h1, Ne.symm h1, if_false]
      intro x y
      exact absurd (LawfulKeyOrd.tri a1 b1 x y) h1

end Dollar
