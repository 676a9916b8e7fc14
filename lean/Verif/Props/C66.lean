import Verif.Lemmas.Store
import Verif.Model.Vaults

/-
C66: all of the module's collections and both indexes of vault positions live in one byte-keyed store
without getting in each other's way.
-/
namespace Dollar
open Spec

namespace Spec

/-- The store after a sequence of writes, and what it is supposed to hold. -/
def storeAfter (ops : List StoreOp) : FStore := ops.foldl (fun st op => op.apply st) []
/-- The logical contents after a sequence of writes. -/
def meant (ops : List StoreOp) : Logical := ops.foldl Logical.write Logical.empty

end Spec

theorem reps_after (ops : List StoreOp) (h : ∀ op ∈ ops, Legal op) : Reps (storeAfter ops) (meant ops) := by
  induction ops using List.reverseRecOn with
  | nil => exact Reps.empty
  | append_singleton l x ih =>
    unfold storeAfter meant
    rw [List.foldl_append, List.foldl_append]
    exact Reps.write (ih fun op ho => h op (by simp [ho])) (h x (by simp))

/-- C66: different entries have different keys. -/
theorem C66_keys_distinct (k k' : SKey) (h : KeyFits k) (h' : KeyFits k') (e : k.bytes = k'.bytes) : k = k' :=
  bytes_inj h h' e

/-- C66: a scan over the prefix of a collection meets the keys of that collection and no others. -/
theorem C66_collections_apart (c : Coll) (k : SKey) : c.pre <+: k.bytes ↔ k.coll = c := by
  rw [← List.isPrefixOf_iff_prefix]; exact pre_iff c k

/-- C66: whatever is written, reading an entry gives what was last written there. -/
theorem C66_reads (ops : List StoreOp) (h : ∀ op ∈ ops, Legal op) :
    (∀ k, KeyFits k → Plain k → (storeAfter ops).get? k.bytes = ((meant ops).other k).map .other) ∧
    ∀ k, PosFits k → (storeAfter ops).get? (SKey.position k).bytes = ((meant ops).positions.get? k).map .position := by
  have r := reps_after ops h
  constructor
  · intro k hk hp
    rw [r.get k hk]
    cases k <;> first | exact absurd hp id | rfl
  · intro k hk
    exact r.get (.position k) hk

/-- C66: the index by owner and vault gives exactly the positions of that owner in that vault, in the order
of their times. -/
theorem C66_by_owner_and_vault (ops : List StoreOp) (h : ∀ op ∈ ops, Legal op) (a : Addr) (v : Int)
    (ha : a.length ≤ 255) (hv : -2 ^ 31 ≤ v ∧ v < 2 ^ 31) :
    (storeAfter ops).byProviderAndVault a v =
      (meant ops).positions.filter fun e => decide (e.1.1 = a ∧ e.1.2.1 = v) := by
  have r := reps_after ops h
  unfold FStore.byProviderAndVault
  rw [matchExact_eq]
  refine scan_eq r.sorted _ _ _ (sorted_filter r.lsorted _) (fun k => (SKey.byPair k).bytes) ?_ ?_ ?_
  · intro e he hp res hres
    obtain ⟨k, hk, e1, e2⟩ := r.entry he
    rw [e1] at hp
    obtain ⟨hc, t, ht⟩ := scan_split hp
    cases k <;> simp only [SKey.coll, reduceCtorEq] at hc
    rename_i pk
    have hk : PosFits pk := hk
    simp only [SKey.rest] at ht
    have d := decBytesNT_enc hk.1 (encInt32 pk.2.1 ++ encPos pk)
    rw [← List.append_assoc, ht, List.append_assoc, decBytesNT_enc ha] at d
    simp only [Option.some.injEq, Prod.mk.injEq] at d
    obtain ⟨d1, d2⟩ := d
    obtain ⟨d3, d4⟩ := pair32_inj hv hk.2.1 d2
    obtain ⟨p, hp1, hp2⟩ := lookup_ref r hk e2
    have : matchStep (storeAfter ops) (Coll.byPair.pre ++ (encBytesNT a ++ encInt32 v)).length e = some (pk, p) := by
      refine matchStep_of ?_ hp2
      rw [e1]
      have : (SKey.byPair pk).bytes = (Coll.byPair.pre ++ (encBytesNT a ++ encInt32 v)) ++ encPos pk := by
        simp only [SKey.bytes, SKey.coll, SKey.rest, d1, d3, List.append_assoc]
      rw [this, drop_prefix, decPos_enc hk]
    rw [this] at hres
    simp only [Option.some.injEq] at hres
    subst hres
    refine ⟨e1, List.mem_filter.2 ⟨KV.mem_of_get? hp1, ?_⟩⟩
    simp [d1, d3]
  · intro x hx y hy hlt
    rw [List.mem_filter] at hx hy
    have fx := r.fits x hx.1
    have fy := r.fits y hy.1
    have gx := of_decide_eq_true hx.2
    have gy := of_decide_eq_true hy.2
    simp only [SKey.bytes, SKey.coll, SKey.rest] at hlt
    rw [gx.1, gy.1, gx.2, gy.2, bytesLt_append_left, bytesLt_append_left, encPos_lt fx fy (by rw [gx.1, gy.1])] at hlt
    exact hlt
  · intro x hx
    rw [List.mem_filter] at hx
    have fx := r.fits x hx.1
    have gx := of_decide_eq_true hx.2
    have hg := KV.get?_of_mem (k := x.1) (v := x.2) r.lsorted hx.1
    refine ⟨((SKey.byPair x.1).bytes, .ref), r.mem (k := .byPair x.1) fx (by simp [lval, hg]), ?_, ?_⟩
    · simp only [SKey.bytes, SKey.coll, SKey.rest, gx.1, gx.2]
      rw [append_prefix_append]
      exact isPrefixOf_append _ _
    · refine matchStep_of (pk := x.1) (p := x.2) ?_ ?_
      · have : (SKey.byPair x.1).bytes = (Coll.byPair.pre ++ (encBytesNT a ++ encInt32 v)) ++ encPos x.1 := by
          simp only [SKey.bytes, SKey.coll, SKey.rest, gx.1, gx.2, List.append_assoc]
        rw [this, drop_prefix, decPos_enc fx]
      · have : (storeAfter ops).get? (SKey.position x.1).bytes = lval (meant ops) (.position x.1) := r.get _ fx
        rw [this]; simp [lval, hg]

/-- C66: the index by owner gives exactly the positions of that owner, by vault and then by time. -/
theorem C66_by_owner (ops : List StoreOp) (h : ∀ op ∈ ops, Legal op) (a : Addr) (ha : a.length ≤ 255) :
    (storeAfter ops).byProvider a = (meant ops).positions.filter fun e => decide (e.1.1 = a) := by
  have r := reps_after ops h
  unfold FStore.byProvider
  rw [matchExact_eq]
  refine scan_eq r.sorted _ _ _ (sorted_filter r.lsorted _) (fun k => (SKey.byProvider k).bytes) ?_ ?_ ?_
  · intro e he hp res hres
    obtain ⟨k, hk, e1, e2⟩ := r.entry he
    rw [e1] at hp
    obtain ⟨hc, t, ht⟩ := scan_split hp
    cases k <;> simp only [SKey.coll, reduceCtorEq] at hc
    rename_i pk
    have hk : PosFits pk := hk
    simp only [SKey.rest] at ht
    have d := decBytesNT_enc hk.1 (encPos pk)
    rw [ht, decBytesNT_enc ha] at d
    simp only [Option.some.injEq, Prod.mk.injEq] at d
    obtain ⟨d1, d2⟩ := d
    obtain ⟨p, hp1, hp2⟩ := lookup_ref r hk e2
    have : matchStep (storeAfter ops) (Coll.byProvider.pre ++ encBytesNT a).length e = some (pk, p) := by
      refine matchStep_of ?_ hp2
      rw [e1]
      have : (SKey.byProvider pk).bytes = (Coll.byProvider.pre ++ encBytesNT a) ++ encPos pk := by
        simp only [SKey.bytes, SKey.coll, SKey.rest, d1, List.append_assoc]
      rw [this, drop_prefix, decPos_enc hk]
    rw [this] at hres
    simp only [Option.some.injEq] at hres
    subst hres
    refine ⟨e1, List.mem_filter.2 ⟨KV.mem_of_get? hp1, ?_⟩⟩
    simp [d1]
  · intro x hx y hy hlt
    rw [List.mem_filter] at hx hy
    have fx := r.fits x hx.1
    have fy := r.fits y hy.1
    have gx := of_decide_eq_true hx.2
    have gy := of_decide_eq_true hy.2
    simp only [SKey.bytes, SKey.coll, SKey.rest] at hlt
    rw [gx, gy, bytesLt_append_left, bytesLt_append_left, encPos_lt fx fy (by rw [gx, gy])] at hlt
    exact hlt
  · intro x hx
    rw [List.mem_filter] at hx
    have fx := r.fits x hx.1
    have gx := of_decide_eq_true hx.2
    have hg := KV.get?_of_mem (k := x.1) (v := x.2) r.lsorted hx.1
    refine ⟨((SKey.byProvider x.1).bytes, .ref), r.mem (k := .byProvider x.1) fx (by simp [lval, hg]), ?_, ?_⟩
    · simp only [SKey.bytes, SKey.coll, SKey.rest, gx]
      rw [append_prefix_append]
      exact isPrefixOf_append _ _
    · refine matchStep_of (pk := x.1) (p := x.2) ?_ ?_
      · have : (SKey.byProvider x.1).bytes = (Coll.byProvider.pre ++ encBytesNT a) ++ encPos x.1 := by
          simp only [SKey.bytes, SKey.coll, SKey.rest, gx, List.append_assoc]
        rw [this, drop_prefix, decPos_enc fx]
      · have : (storeAfter ops).get? (SKey.position x.1).bytes = lval (meant ops) (.position x.1) := r.get _ fx
        rw [this]; simp [lval, hg]

/-- C66: the full list of positions holds every position once, and when all owners have addresses of the same
length it is in the order of owner, vault and time. -/
theorem C66_all_positions (ops : List StoreOp) (h : ∀ op ∈ ops, Legal op) :
    (storeAfter ops).allPositions.Perm (meant ops).positions ∧
    ((∃ n, ∀ e ∈ (meant ops).positions, e.1.1.length = n) →
      (storeAfter ops).allPositions = (meant ops).positions) := by
  have r := reps_after ops h
  have hg : ∀ e ∈ storeAfter ops, Coll.position.pre.isPrefixOf e.1 = true → ∀ x, posStep e = some x →
      e.1 = (SKey.position x.1).bytes ∧ x ∈ (meant ops).positions := by
    intro e he hp x hx
    obtain ⟨k, hk, e1, e2⟩ := r.entry he
    rw [e1, pre_iff] at hp
    cases k <;> simp only [SKey.coll, reduceCtorEq] at hp
    rename_i pk
    have hk : PosFits pk := hk
    have d : e.1.drop Coll.position.pre.length = encPos pk := by rw [e1]; exact drop_prefix _ _
    simp only [lval, Option.map_eq_some_iff] at e2
    obtain ⟨p, hp1, hp2⟩ := e2
    have : posStep e = some (pk, p) := by
      unfold posStep; rw [d, decPos_enc hk, ← hp2]
    rw [this] at hx
    simp only [Option.some.injEq] at hx
    subst hx
    exact ⟨e1, KV.mem_of_get? hp1⟩
  have hin : ∀ x ∈ (meant ops).positions, ∃ e ∈ storeAfter ops, Coll.position.pre.isPrefixOf e.1 = true ∧
      posStep e = some x := by
    intro x hx
    have fx := r.fits x hx
    have hgx := KV.get?_of_mem (k := x.1) (v := x.2) r.lsorted hx
    refine ⟨((SKey.position x.1).bytes, .position x.2), r.mem (k := .position x.1) fx (by simp [lval, hgx]), ?_, ?_⟩
    · exact (pre_iff _ _).2 rfl
    · have d : (SKey.position x.1).bytes.drop Coll.position.pre.length = encPos x.1 := drop_prefix _ _
      unfold posStep
      simp only [d, decPos_enc fx]
  have he : (storeAfter ops).allPositions =
      ((storeAfter ops).filter fun e => Coll.position.pre.isPrefixOf e.1).filterMap posStep := rfl
  constructor
  · rw [he, List.perm_ext_iff_of_nodup]
    · intro x
      rw [List.mem_filterMap]
      constructor
      · rintro ⟨e, hm, hx⟩
        rw [List.mem_filter] at hm
        exact (hg e hm.1 hm.2 x hx).2
      · intro hx
        obtain ⟨e, hm, hp, hx⟩ := hin x hx
        exact ⟨e, List.mem_filter.2 ⟨hm, hp⟩, hx⟩
    · unfold List.Nodup
      rw [List.pairwise_filterMap]
      refine List.Pairwise.imp_of_mem ?_ (List.Pairwise.filter _ r.sorted)
      intro x y hx hy hlt u hu w hw e
      rw [List.mem_filter] at hx hy
      have e1 := (hg x hx.1 hx.2 u hu).1
      have e2 := (hg y hy.1 hy.2 w hw).1
      subst e
      rw [e1, e2] at hlt
      have := bytesLt_irrefl (SKey.position u.1).bytes
      rw [show bytesLt (SKey.position u.1).bytes (SKey.position u.1).bytes = true from hlt] at this
      simp at this
    · exact List.Pairwise.of_map Prod.fst (fun a b hne e => hne (by rw [e])) (KV.nodup_keys r.lsorted)
  · rintro ⟨n, hn⟩
    rw [he]
    refine scan_eq r.sorted _ _ _ r.lsorted (fun k => (SKey.position k).bytes) hg ?_ hin
    intro x hx y hy hlt
    simp only [SKey.bytes, SKey.coll, SKey.rest] at hlt
    rw [bytesLt_append_left, encPos_lt (r.fits x hx) (r.fits y hy) (by rw [hn x hx, hn y hy])] at hlt
    exact hlt

/-- C66: walking the reward records after an index visits exactly the records with a larger index, in
ascending order. -/
theorem C66_rewards_from (ops : List StoreOp) (h : ∀ op ∈ ops, Legal op) (start : Int)
    (hs : -2 ^ 63 ≤ start ∧ start < 2 ^ 63) :
    ((storeAfter ops).rewardsFrom start).Pairwise (fun x y => x.1 < y.1) ∧
    ∀ i v, (i, v) ∈ (storeAfter ops).rewardsFrom start ↔
      start < i ∧ (-2 ^ 63 ≤ i ∧ i < 2 ^ 63) ∧ (meant ops).other (.reward i) = some v := by
  have r := reps_after ops h
  have hg : ∀ e ∈ storeAfter ops,
      (Coll.reward.pre.isPrefixOf e.1 && bytesLt (Coll.reward.pre ++ encInt64 start) e.1) = true →
      ∃ i v, (-2 ^ 63 ≤ i ∧ i < 2 ^ 63) ∧ start < i ∧ e.1 = (SKey.reward i).bytes ∧
        (meant ops).other (.reward i) = some v ∧ rewardStep e = some (i, v) := by
    intro e he hp
    rw [Bool.and_eq_true] at hp
    obtain ⟨hp, hlt⟩ := hp
    obtain ⟨k, hk, e1, e2⟩ := r.entry he
    rw [e1, pre_iff] at hp
    cases k <;> simp only [SKey.coll, reduceCtorEq] at hp
    rename_i i
    have hk : -2 ^ 63 ≤ i ∧ i < 2 ^ 63 := hk
    simp only [lval, Option.map_eq_some_iff] at e2
    obtain ⟨v, hv1, hv2⟩ := e2
    have hb : (SKey.reward i).bytes = Coll.reward.pre ++ encInt64 i := rfl
    rw [e1, hb, bytesLt_append_left, bytesLt_int64 hs hk] at hlt
    refine ⟨i, v, hk, of_decide_eq_true hlt, e1, hv1, ?_⟩
    have d := decInt64_enc hk []
    rw [List.append_nil] at d
    unfold rewardStep
    rw [e1, hb, drop_prefix, d, ← hv2]
  have he : (storeAfter ops).rewardsFrom start = ((storeAfter ops).filter fun e =>
      Coll.reward.pre.isPrefixOf e.1 && bytesLt (Coll.reward.pre ++ encInt64 start) e.1).filterMap rewardStep := rfl
  rw [he]
  constructor
  · rw [List.pairwise_filterMap]
    refine List.Pairwise.imp_of_mem ?_ (List.Pairwise.filter _ r.sorted)
    intro x y hx hy hlt u hu w hw
    rw [List.mem_filter] at hx hy
    obtain ⟨i, _, bi, _, ei, _, gi⟩ := hg x hx.1 hx.2
    obtain ⟨j, _, bj, _, ej, _, gj⟩ := hg y hy.1 hy.2
    rw [gi] at hu; rw [gj] at hw
    simp only [Option.some.injEq] at hu hw
    subst hu; subst hw
    have hlt : bytesLt x.1 y.1 = true := hlt
    rw [ei, ej] at hlt
    simp only [SKey.bytes, SKey.coll, SKey.rest] at hlt
    rw [bytesLt_append_left, bytesLt_int64 bi bj] at hlt
    exact of_decide_eq_true hlt
  · intro i v
    rw [List.mem_filterMap]
    constructor
    · rintro ⟨e, hm, hx⟩
      rw [List.mem_filter] at hm
      obtain ⟨i', v', b, lt, _, hv, g⟩ := hg e hm.1 hm.2
      rw [g] at hx
      simp only [Option.some.injEq, Prod.mk.injEq] at hx
      obtain ⟨rfl, rfl⟩ := hx
      exact ⟨lt, b, hv⟩
    · rintro ⟨lt, b, hv⟩
      have hb : (SKey.reward i).bytes = Coll.reward.pre ++ encInt64 i := rfl
      refine ⟨((SKey.reward i).bytes, .other v), List.mem_filter.2 ⟨r.mem (k := .reward i) b (by simp [lval, hv]), ?_⟩, ?_⟩
      · rw [Bool.and_eq_true]
        refine ⟨(pre_iff _ _).2 rfl, ?_⟩
        show bytesLt _ (SKey.reward i).bytes = true
        rw [hb, bytesLt_append_left, bytesLt_int64 hs b]
        exact decide_eq_true lt
      · have d := decInt64_enc b []
        rw [List.append_nil] at d
        unfold rewardStep
        simp only [hb, drop_prefix, d]

/-- C66: the yield recipients listed for a provider are exactly those stored for it, each once. -/
theorem C66_recipients_of (ops : List StoreOp) (h : ∀ op ∈ ops, Legal op) (p : Int)
    (hp : -2 ^ 31 ≤ p ∧ p < 2 ^ 31) :
    (((storeAfter ops).recipientsOf p).map Prod.fst).Nodup ∧
    ∀ id v, (id, v) ∈ (storeAfter ops).recipientsOf p ↔ (meant ops).other (.recipient p id) = some v := by
  have r := reps_after ops h
  refine scanRest (c := .recipient) (ref := encInt32 p) (f := fun id => .recipient p id) r (fun _ => hp)
    (fun _ => trivial) (fun _ => rfl) (fun _ => rfl) ?_ (fun x => rfl)
  intro k t hk hc ht
  cases k <;> simp only [SKey.coll, reduceCtorEq] at hc
  simp only [SKey.rest] at ht
  obtain ⟨rfl, rfl⟩ := pair32_inj hk hp ht
  rfl

/-- C66: the destination tokens listed for a chain are exactly the bridging paths stored for it, each once. -/
theorem C66_paths_of (ops : List StoreOp) (h : ∀ op ∈ ops, Legal op) (chain : Nat) (hn : chain < 2 ^ 16) :
    (((storeAfter ops).pathsOf chain).map Prod.fst).Nodup ∧
    ∀ token v, (token, v) ∈ (storeAfter ops).pathsOf chain ↔ (meant ops).other (.path chain token) = some v := by
  have r := reps_after ops h
  refine scanRest (c := .path) (ref := toBE 2 chain) (f := fun id => .path chain id) r (fun _ => hn)
    (fun _ => trivial) (fun _ => rfl) (fun _ => rfl) ?_ (fun x => rfl)
  intro k t hk hc ht
  cases k <;> simp only [SKey.coll, reduceCtorEq] at hc
  simp only [SKey.rest] at ht
  obtain ⟨a, rfl⟩ := List.append_inj ht (by simp)
  rw [toBE2_inj hk hn a]

/-- C66: so the positions the vault handlers see (`positionsOf`, on which the other properties rest) are the ones
the index in the byte store yields, in the same order. -/
theorem C66_positions_of (ops : List StoreOp) (h : ∀ op ∈ ops, Legal op) (s : State)
    (hs : s.positions = (meant ops).positions) (a : Addr) (v : Int)
    (ha : a.length ≤ 255) (hv : -2 ^ 31 ≤ v ∧ v < 2 ^ 31) :
    positionsOf s a v = ((storeAfter ops).byProviderAndVault a v).map fun e =>
      ⟨e.1.1, e.1.2.1, e.2.principal, e.2.index, e.2.amount, e.2.time⟩ := by
  rw [C66_by_owner_and_vault ops h a v ha hv, ← hs]
  unfold positionsOf
  induction s.positions with
  | nil => rfl
  | cons e t ih =>
    rw [List.filterMap_cons, List.filter_cons]
    by_cases c : e.1.1 = a ∧ e.1.2.1 = v
    · rw [if_pos c, if_pos (decide_eq_true c), List.map_cons, ih]
    · rw [if_neg c, if_neg (by simpa using c), ih]

/-! ### Examples -/

namespace Demo

/-- Two owners, one address the beginning of the other; positions in both vaults, one removed; a negative reward
index; a provider and a chain. -/
def storeOps : List StoreOp :=
  [.setPos ([1, 2], 1, 5) ⟨10, 1, 10, 5⟩, .setPos ([1], 2, 9) ⟨20, 1, 20, 9⟩, .setPos ([1, 2], 1, 3) ⟨30, 1, 30, 3⟩,
    .setPos ([1, 2], 2, 4) ⟨40, 1, 40, 4⟩, .put .paused [1], .put (.reward (-3)) [7], .put (.reward 300) [8],
    .put (.reward 2) [9], .removePos ([1], 2, 9), .put (.recipient 1 [65]) [1], .put (.recipient 2 [65]) [2],
    .put (.path 1 [65]) [3], .del .paused]

theorem storeOps_legal : ∀ op ∈ storeOps, Legal op := by
  intro op h
  simp only [storeOps, List.mem_cons, List.not_mem_nil, or_false] at h
  rcases h with h | h | h | h | h | h | h | h | h | h | h | h | h <;> subst h <;>
    simp [Legal, PosFits, KeyFits, Plain]

end Demo
open Demo

/-- The hypotheses hold and the answers are not trivial. -/
example : (storeAfter storeOps).byProviderAndVault [1, 2] 1 =
    [(([1, 2], 1, 3), ⟨30, 1, 30, 3⟩), (([1, 2], 1, 5), ⟨10, 1, 10, 5⟩)] := by
  rw [C66_by_owner_and_vault storeOps storeOps_legal _ _ (by decide) (by decide)]
  decide +kernel
example : (storeAfter storeOps).byProvider [1] = [] ∧ ((storeAfter storeOps).byProvider [1, 2]).length = 3 := by
  rw [C66_by_owner storeOps storeOps_legal _ (by decide), C66_by_owner storeOps storeOps_legal _ (by decide)]
  decide +kernel
example : (storeAfter storeOps).rewardsFrom (-3) = [(2, [9]), (300, [8])] := by decide +kernel
example : ([65], [2]) ∈ (storeAfter storeOps).recipientsOf 2 :=
  ((C66_recipients_of storeOps storeOps_legal 2 (by decide)).2 _ _).2 (by decide +kernel)
example : ([65], [3]) ∈ (storeAfter storeOps).pathsOf 1 :=
  ((C66_paths_of storeOps storeOps_legal 1 (by decide)).2 _ _).2 (by decide +kernel)
example : (storeAfter storeOps).allPositions.length = 3 := by
  rw [(C66_all_positions storeOps storeOps_legal).1.length_eq]; decide +kernel
example : (storeAfter storeOps).get? (SKey.bytes .paused) = none := by
  rw [(C66_reads storeOps storeOps_legal).1 .paused trivial trivial]; decide +kernel
example : KeyFits (.retry 2 [65]) ∧ KeyFits (.recipient 2 [65]) ∧
    (SKey.retry 2 [65]).rest = (SKey.recipient 2 [65]).rest := by simp [KeyFits, SKey.rest]

end Dollar
