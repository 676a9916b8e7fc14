import Verif.Lemmas.Order
import Verif.Lemmas.Handlers2

/-
Rebuilding a store from its exported entries.
-/
namespace Dollar
open MM

section
variable {K V : Type} [DecidableEq K] [KeyOrd K] [LawfulKeyOrd K]

theorem get?_none_of_lt {m : KV K V} {k : K} (h : ∀ e ∈ m, klt e.1 k = true) : m.get? k = none := by
  cases hx : m.get? k with
  | none => rfl
  | some v =>
    have := h _ (KV.mem_of_get? hx)
    rw [LawfulKeyOrd.irrefl] at this
    cases this

theorem insertS_last {m : KV K V} {k : K} (v : V) (h : ∀ e ∈ m, klt e.1 k = true) :
    m.insertS k v = m ++ [(k, v)] := by
  induction m with
  | nil => rfl
  | cons e t ih =>
    obtain ⟨a, b⟩ := e
    have h1 : klt a k = true := h (a, b) List.mem_cons_self
    have h2 : klt k a = false := by
      cases hx : klt k a with
      | false => rfl
      | true =>
        have := LawfulKeyOrd.trans _ _ _ h1 hx
        rw [LawfulKeyOrd.irrefl] at this
        cases this
    show (if klt k a = true then _ else _) = _
    rw [if_neg (by rw [h2]; exact Bool.false_ne_true), ih fun e he => h e (List.mem_cons_of_mem _ he)]
    rfl

theorem set_last {m : KV K V} {k : K} (v : V) (h : ∀ e ∈ m, klt e.1 k = true) :
    m.set k v = m ++ [(k, v)] := by
  unfold KV.set KV.has
  rw [get?_none_of_lt h]
  exact insertS_last v h

/-- Writing the entries of a store one after the other gives the store. -/
theorem foldl_set_sorted {acc m : KV K V} (h : (acc ++ m).Sorted) :
    m.foldl (fun acc e => acc.set e.1 e.2) acc = acc ++ m := by
  induction m generalizing acc with
  | nil => exact (List.append_nil _).symm
  | cons e t ih =>
    rw [List.foldl_cons]
    have h1 : ∀ x ∈ acc, klt x.1 e.1 = true := by
      intro x hx
      exact (List.pairwise_append.1 h).2.2 x hx e List.mem_cons_self
    rw [set_last e.2 h1, ih (by rwa [List.append_assoc]), List.append_assoc]
    rfl

theorem rebuild {m : KV K V} (h : m.Sorted) : m.foldl (fun (acc : KV K V) e => acc.set e.1 e.2) [] = m :=
  foldl_set_sorted (acc := []) h

omit [DecidableEq K] [LawfulKeyOrd K] in
theorem insertS_perm (m : KV K V) (k : K) (v : V) : (m.insertS k v).Perm ((k, v) :: m) := by
  induction m with
  | nil => exact List.Perm.refl _
  | cons e t ih =>
    obtain ⟨a, b⟩ := e
    show (if klt k a = true then _ else _ : KV K V).Perm _
    split
    · exact List.Perm.refl _
    · exact (ih.cons _).trans (List.Perm.swap _ _ _)

end

theorem foldl_set_perm {V : Type} (l : List (String × V)) (acc : KV String V)
    (hn : ((acc ++ l).map Prod.fst).Nodup) :
    (l.foldl (fun m e => m.set e.1 e.2) acc).Perm (acc ++ l) := by
  induction l generalizing acc with
  | nil => rw [List.append_nil]; exact List.Perm.refl _
  | cons e t ih =>
    rw [List.foldl_cons]
    have h1 : acc.get? e.1 = none := by
      cases hx : acc.get? e.1 with
      | none => rfl
      | some v =>
        have hm := List.mem_map_of_mem (f := Prod.fst) (KV.mem_of_get? hx)
        rw [List.map_append, List.nodup_append] at hn
        exact absurd rfl (hn.2.2 _ hm e.1 (List.mem_map_of_mem (a := e) List.mem_cons_self))
    have h2 : (acc.set e.1 e.2).Perm (acc ++ [e]) := by
      unfold KV.set KV.has
      rw [h1]
      exact (insertS_perm _ _ _).trans (List.perm_append_comm (l₁ := [e]))
    have h3 : (acc.set e.1 e.2 ++ t).Perm (acc ++ e :: t) := by
      have := h2.append_right t
      rwa [List.append_assoc] at this
    refine (ih _ ?_).trans h3
    exact (h3.map Prod.fst).nodup_iff.2 hn

/-- The entries of a Go map filled with distinct keys. -/
theorem goMap_perm {V : Type} (l : List (String × V)) (hn : (l.map Prod.fst).Nodup) :
    (goMap l).Perm l := foldl_set_perm l [] hn

theorem foldPanic_map {α β γ : Type} {f : β → γ → Option β} {φ : α → γ} {u : β → α → β}
    {l : List α} (h : ∀ b, ∀ a ∈ l, f b (φ a) = some (u b a)) (b : β) :
    foldPanic f b (l.map φ) = some (l.foldl u b) := by
  induction l generalizing b with
  | nil => rfl
  | cons a t ih =>
    simp only [List.map_cons, foldPanic, List.foldl_cons]
    rw [h b a List.mem_cons_self]
    exact ih (fun b a ha => h b a (List.mem_cons_of_mem _ ha)) _

/-! ### Route keys -/

theorem splitSlash_none {l : List Char} (h : '/' ∉ l) : splitSlash l = [l] := by
  induction l with
  | nil => rfl
  | cons ch t ih =>
    rw [List.mem_cons, not_or] at h
    unfold splitSlash
    rw [if_neg (Ne.symm h.1), ih h.2]

theorem splitSlash_append {l r : List Char} (h : '/' ∉ l) :
    splitSlash (l ++ '/' :: r) = l :: splitSlash r := by
  induction l with
  | nil => rfl
  | cons ch t ih =>
    rw [List.mem_cons, not_or] at h
    rw [List.cons_append]
    show (if ch = '/' then _ else _) = _
    rw [if_neg (Ne.symm h.1), ih h.2]

theorem parse_recipientKey {k : Int × String} (h : k.1 = 0 ∨ k.1 = 1) (hs : '/' ∉ k.2.toList) :
    parseRecipientKey (recipientKey k) = .ok k := by
  obtain ⟨p, i⟩ := k
  have key : ∀ n : String, '/' ∉ n.toList → providerName p = n → providerValue n = p →
      parseRecipientKey (recipientKey (p, i)) = .ok (p, i) := by
    intro n hn h1 h2
    unfold parseRecipientKey recipientKey
    have e : (providerName p ++ "/" ++ i).toList = n.toList ++ '/' :: i.toList := by
      rw [h1, String.toList_append, String.toList_append, List.append_assoc]; rfl
    simp only [e]
    rw [splitSlash_append hn, splitSlash_none hs]
    simp only [String.ofList_toList]
    rw [h2]
  rcases h with h | h
  · cases h; exact key "IBC" (by decide) rfl rfl
  · cases h; exact key "HYPERLANE" (by decide) rfl rfl

end Dollar
