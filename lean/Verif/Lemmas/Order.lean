import Verif.Model.System
import Verif.Model.Genesis
import Verif.Lemmas.Sort
import Verif.Lemmas.Shape

/-
Iteration order of Go maps: transactions, and folds that write map entries into a store.
-/
namespace Dollar
open MM

/-- The environment with another iteration order for Go maps. -/
def Env.reorder (env : Env) (order : List String → List String) (h : ∀ l, (order l).Perm l) : Env :=
  { env with mapOrder := order, mapOrder_perm := h }

section
variable (c : Cfg) (env : Env) (o : List String → List String) (ho : ∀ l, (o l).Perm l)

theorem sortedIds_reorder (s : State) (p : Int) :
    sortedIds (env.reorder o ho) s p = sortedIds env s p := by
  unfold sortedIds
  exact sortStrings_of_perm ((ho _).trans (env.mapOrder_perm _).symm)

theorem ibcLoop_reorder (recips : KV String String) (l : List String) :
    ibcLoop c (env.reorder o ho) recips l = ibcLoop c env recips l := by
  induction l with
  | nil => rfl
  | cons id t ih =>
    unfold ibcLoop
    rw [ih]
    rfl

theorem hypLoop_reorder (recips : KV String String) (total y : Int) (l : List Route) :
    hypLoop c (env.reorder o ho) recips total y l = hypLoop c env recips total y l := by
  induction l with
  | nil => rfl
  | cons id t ih =>
    unfold hypLoop
    rw [ih]
    rfl

theorem claimExternalIBC_reorder :
    claimExternalIBC c (env.reorder o ho) = claimExternalIBC c env := by
  unfold claimExternalIBC
  simp only [ibcLoop_reorder, sortedIds_reorder]

theorem claimExternalHyperlane_reorder :
    claimExternalHyperlane c (env.reorder o ho) = claimExternalHyperlane c env := by
  unfold claimExternalHyperlane
  simp only [hypLoop_reorder, sortedIds_reorder]

theorem updateIndex_reorder (i : Int) : updateIndex c (env.reorder o ho) i = updateIndex c env i := by
  unfold updateIndex
  rw [claimExternalIBC_reorder, claimExternalHyperlane_reorder]

theorem deliver_reorder (bz : Bytes) : deliver c (env.reorder o ho) bz = deliver c env bz := by
  have h1 : handleToken c (env.reorder o ho) = handleToken c env := by
    unfold handleToken mint
    simp only [updateIndex_reorder]
  have h2 : handleIndex c (env.reorder o ho) = handleIndex c env := by
    unfold handleIndex
    simp only [updateIndex_reorder]
  have h3 : deliverPayload c (env.reorder o ho) = deliverPayload c env := by
    unfold deliverPayload handlePayload
    simp only [h1, h2]
  unfold deliver deliverInner
  rw [h3]
  rfl

theorem exec_reorder (m : Msg) : exec c (env.reorder o ho) m = exec c env m := by
  cases m
  case deliver vaa => exact deliver_reorder c env o ho vaa
  all_goals rfl

end

/-! ### Folds over map entries -/

theorem foldPanic_append {α β : Type} (f : β → α → Option β) (b : β) (l l' : List α) :
    foldPanic f b (l ++ l') = (foldPanic f b l).bind fun b' => foldPanic f b' l' := by
  induction l generalizing b with
  | nil => rfl
  | cons a t ih =>
    simp only [List.cons_append, foldPanic]
    cases f b a with
    | none => rfl
    | some b' => exact ih b'

theorem foldl_eq_foldPanic {α β : Type} (f : β → α → β) (b : β) (l : List α) :
    foldPanic (fun b a => some (f b a)) b l = some (l.foldl f b) := by
  induction l generalizing b with
  | nil => rfl
  | cons a t ih => exact ih _

/-- A fold does not depend on the order of the entries if any two entries commute. -/
theorem foldPanic_perm {α β : Type} {f : β → α → Option β} {P : β → Prop} {R : α → α → Prop}
    (symm : ∀ {x y}, R x y → R y x) (hP : ∀ b a b', P b → f b a = some b' → P b')
    (comm : ∀ b x y, P b → R x y → (f b x).bind (f · y) = (f b y).bind (f · x))
    {l l' : List α} (h : l.Perm l') (hl : l.Pairwise R) (b : β) (hb : P b) :
    foldPanic f b l = foldPanic f b l' := by
  induction h generalizing b with
  | nil => rfl
  | cons x _ ih =>
    simp only [foldPanic]
    rw [List.pairwise_cons] at hl
    cases hf : f b x with
    | none => rfl
    | some b' => exact ih hl.2 _ (hP _ _ _ hb hf)
  | swap x y t =>
    rw [List.pairwise_cons] at hl
    have := comm b x y hb (symm (hl.1 x List.mem_cons_self))
    have e : ∀ (u v : α), foldPanic f b (u :: v :: t) =
        ((f b u).bind (f · v)).bind fun b' => foldPanic f b' t := by
      intro u v
      simp only [foldPanic]
      cases f b u with
      | none => rfl
      | some b1 =>
        simp only [Option.bind_some]
        cases f b1 v <;> rfl
    rw [e, e, this]
  | trans h1 _ ih1 ih2 =>
    exact (ih1 hl b hb).trans (ih2 ((h1.pairwise_iff symm).1 hl) b hb)

theorem set_comm {K V : Type} [DecidableEq K] [KeyOrd K] [LawfulKeyOrd K] {m : KV K V} (h : m.Sorted)
    {k k' : K} (hk : k ≠ k') (v v' : V) : (m.set k v).set k' v' = (m.set k' v').set k v := by
  refine KV.ext_of_sorted (KV.sorted_set _ _ (KV.sorted_set _ _ h))
    (KV.sorted_set _ _ (KV.sorted_set _ _ h)) fun x => ?_
  simp only [KV.get?_set]
  by_cases h1 : x = k'
  · rw [if_pos h1]
    by_cases h2 : x = k
    · exact absurd (h2.symm.trans h1) hk
    · rw [if_neg h2, if_pos h1]
  · simp only [if_neg h1]

end Dollar
