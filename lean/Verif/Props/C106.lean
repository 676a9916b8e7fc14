import Verif.Props.C105
import Verif.Model.Stats2
import Verif.Props.C59

/-
C106: queries marked `module_query_safe` can be asked inside a transaction, so their answers must be the same bytes on
every node.  The answers that hold a Go map are not: the generated code writes the entries in the order in which a loop
over the map meets them, which the Go runtime chooses anew each time.  The answer is determined exactly when the map has
at most one entry.
-/
namespace Dollar
open Proto

/-- Whatever order the runtime chooses for the entries of the map, the answer is the same bytes. -/
def Spec.SameBytes {α : Type} (enc : List α → Bytes) (entries : List α) : Prop :=
  ∀ l l', l.Perm entries → l'.Perm entries → enc l = enc l'

/-- An encoding that can be read back is the same for all orders exactly when there is at most one entry. -/
theorem sameBytes_iff {α : Type} (enc : List α → Bytes) (dec : Bytes → PRes (List α)) (entries : List α)
    (hnd : entries.Nodup) (h : ∀ l, l.Perm entries → (enc l).length < 2 ^ 63 → dec (enc l) = .ok l)
    (hlen : (enc entries).length < 2 ^ 63) : Spec.SameBytes enc entries ↔ entries.length ≤ 1 := by
  constructor
  · intro hs
    match entries, hnd, h, hlen, hs with
    | [], _, _, _, _ => exact Nat.zero_le _
    | [_], _, _, _, _ => exact Nat.le_refl _
    | a :: b :: t, hnd, h, hlen, hs =>
      exfalso
      have hp : (b :: a :: t).Perm (a :: b :: t) := List.Perm.swap a b t
      have he := hs (a :: b :: t) (b :: a :: t) (List.Perm.refl _) hp
      have h1 := h _ (List.Perm.refl _) hlen
      have h2 := h _ hp (he ▸ hlen)
      rw [he, h2] at h1
      injection h1 with h1
      injection h1 with h1
      subst h1
      exact (List.nodup_cons.1 hnd).1 List.mem_cons_self
  · intro hl l l' h1 h2
    match entries, hl, h1, h2 with
    | [], _, h1, h2 => rw [h1.eq_nil, h2.eq_nil]
    | [x], _, h1, h2 => rw [List.perm_singleton.1 h1, List.perm_singleton.1 h2]

/-- C106: the answer of `Peers` is the same on every node exactly when there is at most one peer. -/
theorem C106_peers {c : Cfg} {s : State} (hr : Reachable c s) (hk : ∀ p ∈ queryPeers s, p.1 < 2 ^ 16)
    (hlen : (encPeers (queryPeers s)).length < 2 ^ 63) :
    Spec.SameBytes encPeers (queryPeers s) ↔ (queryPeers s).length ≤ 1 := by
  have hnd : ((queryPeers s).map Prod.fst).Nodup := KV.nodup_keys hr.shape.peers
  refine sameBytes_iff encPeers (decPeers decimal) _ (List.Nodup.of_map _ hnd) (fun l hl hb => ?_) hlen
  exact C105_peers decimal l (fun p hp => hk p (hl.mem_iff.1 hp)) ((hl.map Prod.fst).nodup_iff.2 hnd) hb

theorem goMap_sorted {V : Type} (l : List (String × V)) : KV.Sorted (goMap l) := by
  unfold goMap
  suffices ∀ m : KV String V, KV.Sorted m → KV.Sorted (l.foldl (fun m e => m.set e.1 e.2) m) from this _ KV.sorted_nil
  induction l with
  | nil => exact fun m h => h
  | cons e t ih => exact fun m h => ih _ (KV.sorted_set _ _ h)

/-- Strings as bytes. -/
def Spec.strings (l : List (String × String)) : List (Bytes × Bytes) := l.map fun e => (ascii e.1, ascii e.2)

theorem ascii_inj {a b : String} (ha : Latin a) (hb : Latin b) (h : ascii a = ascii b) : a = b := by
  rw [← str_ascii ha, ← str_ascii hb, h]

theorem ascii_keys_nodup {V : Type} {l : List (String × V)} (hn : (l.map Prod.fst).Nodup) (hl : ∀ e ∈ l, Latin e.1) :
    (l.map fun e => ascii e.1).Nodup := by
  induction l with
  | nil => exact List.nodup_nil
  | cons e t ih =>
    rw [List.map_cons, List.nodup_cons] at hn ⊢
    refine ⟨fun h => ?_, ih hn.2 fun x hx => hl x (List.mem_cons_of_mem _ hx)⟩
    obtain ⟨x, hx, he⟩ := List.mem_map.1 h
    refine hn.1 ?_
    rw [ascii_inj (hl e List.mem_cons_self) (hl x (List.mem_cons_of_mem _ hx)) he.symm]
    exact List.mem_map_of_mem hx

theorem string_map_same (l : List (String × String)) (hn : (l.map Prod.fst).Nodup) (hl : ∀ e ∈ l, Latin e.1)
    (hlen : (encStringMap (Spec.strings l)).length < 2 ^ 63) :
    Spec.SameBytes encStringMap (Spec.strings l) ↔ l.length ≤ 1 := by
  have hnd : ((Spec.strings l).map Prod.fst).Nodup := by
    unfold Spec.strings
    rw [List.map_map]
    exact ascii_keys_nodup hn hl
  have := sameBytes_iff encStringMap (decStringMap decimal) (Spec.strings l) (List.Nodup.of_map _ hnd)
    (fun l' hl' hb => C105_string_map decimal l' ((hl'.map Prod.fst).nodup_iff.2 hnd) hb) hlen
  rwa [show (Spec.strings l).length = l.length from List.length_map _] at this

/-- C106: the answer of `YieldRecipients` is the same on every node exactly when there is at most one recipient. -/
theorem C106_recipients (s : State) (hl : ∀ e ∈ queryYieldRecipients s, Latin e.1)
    (hlen : (encStringMap (Spec.strings (queryYieldRecipients s))).length < 2 ^ 63) :
    Spec.SameBytes encStringMap (Spec.strings (queryYieldRecipients s)) ↔ (queryYieldRecipients s).length ≤ 1 :=
  string_map_same _ (KV.nodup_keys (goMap_sorted _)) hl hlen

/-- C106: the answer of `RetryAmounts` is the same on every node exactly when there is at most one amount. -/
theorem C106_retry (s : State) (hl : ∀ e ∈ queryRetryAmounts s, Latin e.1)
    (hlen : (encStringMap (Spec.strings (queryRetryAmounts s))).length < 2 ^ 63) :
    Spec.SameBytes encStringMap (Spec.strings (queryRetryAmounts s)) ↔ (queryRetryAmounts s).length ≤ 1 :=
  string_map_same _ (KV.nodup_keys (goMap_sorted _)) hl hlen

/-- The external yield as bytes. -/
def Spec.yieldStrings (l : List (String × String × Int)) : List (Bytes × Bytes × Int) :=
  l.map fun e => (ascii e.1, ascii e.2.1, e.2.2)

theorem statsEntry_keys {c : Cfg} {env : Env} {client : String → Client} {l : List (String × String)}
    {r : List (String × String × Int)} (h : l.mapM (statsEntry c env client) = some r) :
    r.map Prod.fst = l.map Prod.fst := by
  induction l generalizing r with
  | nil =>
    rw [List.mapM_nil] at h
    cases h; rfl
  | cons e t ih =>
    rw [List.mapM_cons] at h
    cases he : statsEntry c env client e with
    | none => rw [he] at h; cases h
    | some x =>
      rw [he] at h
      cases ht : t.mapM (statsEntry c env client) with
      | none => rw [ht] at h; cases h
      | some y =>
        rw [ht] at h
        cases h
        rw [List.map_cons, List.map_cons, ih ht]
        congr 1
        unfold statsEntry at he
        split at he
        · cases he; rfl
        · cases he

/-- C106: the answer of `Stats` (version 2) is the same on every node exactly when at most one route has had external
yield. -/
theorem C106_stats {c : Cfg} {env : Env} {client : String → Client} {s : State} {holders : Nat} {principal yield : Int}
    {l : List (String × String × Int)} (hq : queryStatsV2 c env client s = some (holders, principal, yield, l))
    (h1 : holders < 2 ^ 64) (h2 : principal.natAbs < 2 ^ 256) (h3 : yield.natAbs < 2 ^ 256)
    (h4 : ∀ e ∈ l, e.2.2.natAbs < 2 ^ 256) (hl : ∀ e ∈ l, Latin e.1)
    (hlen : (encStatsV2 holders principal yield (Spec.yieldStrings l)).length < 2 ^ 63) :
    Spec.SameBytes (encStatsV2 holders principal yield) (Spec.yieldStrings l) ↔ l.length ≤ 1 := by
  have hn : (l.map Prod.fst).Nodup := by
    unfold queryStatsV2 at hq
    cases e : (goMap (s.extYield.map fun e => (recipientKey e.1, toString e.2))).mapM (statsEntry c env client) with
    | none => rw [e] at hq; cases hq
    | some r =>
      rw [e] at hq
      cases hq
      rw [statsEntry_keys e]
      exact KV.nodup_keys (goMap_sorted _)
  have hnd : ((Spec.yieldStrings l).map Prod.fst).Nodup := by
    unfold Spec.yieldStrings
    rw [List.map_map]
    exact ascii_keys_nodup hn hl
  have := sameBytes_iff (encStatsV2 holders principal yield)
    (fun b => decStatsV2 decimal b >>= fun r => .ok r.2.2.2) (Spec.yieldStrings l) (List.Nodup.of_map _ hnd)
    (fun l' hl' hb => by
      rw [C105_stats decimal holders principal yield l' h1 h2 h3 (fun p hp => by
        obtain ⟨e, he, rfl⟩ := List.mem_map.1 (hl'.mem_iff.1 hp)
        exact h4 e he) ((hl'.map Prod.fst).nodup_iff.2 hnd) hb]
      rfl) hlen
  rwa [show (Spec.yieldStrings l).length = l.length from List.length_map _] at this

/-! Examples: a reachable state with two peers has two encodings of its `Peers` answer, read as the same peers. -/

set_option maxRecDepth 100000 in
example : ¬ Spec.SameBytes encPeers
    (queryPeers (step Demo.cfg (Demo.env 1) (.setPeer "owner" 3 (List.replicate 32 1) (List.replicate 32 2)) Demo.start)) := by
  intro h
  exact absurd (h _ _ (List.Perm.refl _) (List.reverse_perm _)) (by decide +kernel)

set_option maxRecDepth 100000 in
example :
    (queryPeers (step Demo.cfg (Demo.env 1) (.setPeer "owner" 3 (List.replicate 32 1) (List.replicate 32 2))
      Demo.start)).length = 2 := by decide +kernel

example : encStringMap [([48, 47, 97], [120]), ([48, 47, 98], [121])] ≠
    encStringMap [([48, 47, 98], [121]), ([48, 47, 97], [120])] := by decide +kernel

end Dollar
