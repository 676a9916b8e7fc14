import Verif.Model.System
import Mathlib.Data.List.Induction

/-
Sorting removes the effect of Go's map iteration order.
-/
namespace Dollar
open MM

theorem str_le_of_lt {a b : String} (h : a < b) : a ≤ b :=
  String.not_lt.1 fun h' => String.lt_irrefl a (String.lt_trans h h')

theorem insertStr_perm (x : String) (l : List String) : (insertStr x l).Perm (x :: l) := by
  induction l with
  | nil => exact List.Perm.refl _
  | cons y t ih =>
    unfold insertStr
    split
    · exact List.Perm.refl _
    · exact (List.Perm.cons y ih).trans (List.Perm.swap x y t)

theorem sortStrings_perm (l : List String) : (sortStrings l).Perm l := by
  induction l with
  | nil => exact List.Perm.refl _
  | cons x t ih => exact (insertStr_perm x _).trans (ih.cons x)

theorem insertStr_sorted (x : String) (l : List String) (h : l.Pairwise (· ≤ ·)) :
    (insertStr x l).Pairwise (· ≤ ·) := by
  induction l with
  | nil => simp [insertStr]
  | cons y t ih =>
    rw [List.pairwise_cons] at h
    unfold insertStr
    split
    · next hlt =>
      rw [List.pairwise_cons, List.pairwise_cons]
      refine ⟨?_, h⟩
      intro z hz
      have hxy : x ≤ y := str_le_of_lt hlt
      rcases List.mem_cons.1 hz with rfl | hz
      · exact hxy
      · exact String.le_trans hxy (h.1 z hz)
    · next hlt =>
      rw [List.pairwise_cons]
      refine ⟨?_, ih h.2⟩
      intro z hz
      rcases List.mem_cons.1 ((insertStr_perm x t).mem_iff.1 hz) with rfl | hz
      · exact String.not_lt.1 hlt
      · exact h.1 z hz

theorem sortStrings_sorted (l : List String) : (sortStrings l).Pairwise (· ≤ ·) := by
  induction l with
  | nil => exact List.Pairwise.nil
  | cons x t ih => exact insertStr_sorted x _ ih

theorem sorted_perm_eq {l l' : List String} (h : l.Perm l') (hl : l.Pairwise (· ≤ ·))
    (hl' : l'.Pairwise (· ≤ ·)) : l = l' := by
  induction l generalizing l' with
  | nil => rw [List.nil_perm.1 h]
  | cons x t ih =>
    cases l' with
    | nil => exact absurd h (by simp)
    | cons y u =>
      rw [List.pairwise_cons] at hl hl'
      have hxy : x = y := by
        have h1 : x ∈ y :: u := h.mem_iff.1 List.mem_cons_self
        have h2 : y ∈ x :: t := h.mem_iff.2 List.mem_cons_self
        rcases List.mem_cons.1 h1 with e | h1
        · exact e
        rcases List.mem_cons.1 h2 with e | h2
        · exact e.symm
        exact String.le_antisymm (hl.1 _ h2) (hl'.1 _ h1)
      subst hxy
      rw [ih ((List.perm_cons x).1 h) hl.2 hl'.2]

/-- Sorting gives the same list for every order of the input. -/
theorem sortStrings_of_perm {l l' : List String} (h : l.Perm l') : sortStrings l = sortStrings l' :=
  sorted_perm_eq ((sortStrings_perm l).trans (h.trans (sortStrings_perm l').symm))
    (sortStrings_sorted l) (sortStrings_sorted l')

theorem sortStrings_of_sorted {l : List String} (h : l.Pairwise (· ≤ ·)) : sortStrings l = l :=
  sorted_perm_eq (sortStrings_perm l) (sortStrings_sorted l) h

theorem recipientsBy_sorted {s : State} (h : s.recipients.Sorted) (p : Int) :
    (recipientsBy s p).Sorted := by
  unfold recipientsBy
  generalize s.recipients = m at h
  induction m with
  | nil => exact KV.sorted_nil
  | cons e t ih =>
    unfold KV.Sorted at h
    rw [List.pairwise_cons] at h
    rw [List.filterMap_cons]
    split
    · exact ih h.2
    · next b hb =>
      unfold KV.Sorted
      rw [List.pairwise_cons]
      refine ⟨?_, ih h.2⟩
      rintro q hq
      obtain ⟨e', he', hq⟩ := List.mem_filterMap.1 hq
      have hlt := h.1 e' he'
      split at hb
      · next e1 =>
        split at hq
        · next e2 =>
          cases hb; cases hq
          simp only [KeyOrd.klt] at hlt ⊢
          rw [if_pos (e1.trans e2.symm)] at hlt
          exact hlt
        · cases hq
      · cases hb

/-- The identifiers are visited in store order, whatever the iteration order of the Go map. -/
theorem sortedIds_eq (env : Env) {s : State} (h : s.recipients.Sorted) (p : Int) :
    sortedIds env s p = (recipientsBy s p).map Prod.fst := by
  unfold sortedIds
  rw [sortStrings_of_perm (env.mapOrder_perm _)]
  refine sortStrings_of_sorted ?_
  have := (KV.sorted_iff_keys _).1 (recipientsBy_sorted h p)
  refine this.imp ?_
  intro a b hab
  have : a < b := by simpa [KeyOrd.klt] using hab
  exact str_le_of_lt this

theorem mem_recipientsBy {s : State} {p : Int} {id r : String} :
    (id, r) ∈ recipientsBy s p ↔ ((p, id), r) ∈ s.recipients := by
  unfold recipientsBy
  rw [List.mem_filterMap]
  constructor
  · rintro ⟨⟨⟨a, b⟩, d⟩, he, h⟩
    split at h
    · next e => cases h; cases e; exact he
    · cases h
  · intro h
    exact ⟨_, h, by simp⟩

theorem recipientsBy_get? {s : State} (h : s.recipients.Sorted) (p : Int) (id : String) :
    (recipientsBy s p).get? id = s.recipients.get? (p, id) := by
  cases hx : s.recipients.get? (p, id) with
  | some r =>
    exact KV.get?_of_mem (recipientsBy_sorted h p) (mem_recipientsBy.2 (KV.mem_of_get? hx))
  | none =>
    cases hy : (recipientsBy s p).get? id with
    | none => rfl
    | some r =>
      have := KV.get?_of_mem h (mem_recipientsBy.1 (KV.mem_of_get? hy))
      rw [hx] at this; cases this

end Dollar
