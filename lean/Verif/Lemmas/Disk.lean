import Verif.Model.Disk
import Verif.Lemmas.Wire
import Verif.Lemmas.Store
import Verif.Lemmas.Shape
import Verif.Props.C73

/-
Lemmas for C79: reading back the store of the module.
-/
namespace Dollar
open Proto Spec

/-- Writing entries with distinct keys, one after the other. -/
theorem foldl_set_get? [DecidableEq K] [KeyOrd K] {l : List (K × V)} {m : KV K V} {k : K} {v : V}
    (hf : ∀ k v v', (k, v) ∈ l → (k, v') ∈ l → v = v') :
    (l.foldl (fun (d : KV K V) e => d.set e.1 e.2) m).get? k = some v ↔
      (k, v) ∈ l ∨ ((∀ w, (k, w) ∉ l) ∧ m.get? k = some v) := by
  induction l generalizing m with
  | nil => simp
  | cons e t ih =>
    obtain ⟨k', v'⟩ := e
    rw [List.foldl_cons, ih (fun k v v' h h' => hf k v v' (by simp [h]) (by simp [h'])), KV.get?_set]
    by_cases hk : k = k'
    · subst hk
      simp only [if_true, Option.some.injEq, List.mem_cons, Prod.mk.injEq, true_and]
      constructor
      · rintro (h | ⟨_, h⟩)
        · exact .inl (.inr h)
        · exact .inl (.inl h.symm)
      · rintro ((h | h) | ⟨h, _⟩)
        · by_cases hw : ∃ w, (k, w) ∈ t
          · obtain ⟨w, hw⟩ := hw
            left
            rw [h, hf k v' w (by simp) (by simp [hw])]
            exact hw
          · exact .inr ⟨fun w hw' => hw ⟨w, hw'⟩, h.symm⟩
        · exact .inl h
        · exact absurd (Or.inl rfl) (h v')
    · simp [hk]

theorem foldl_set_sorted' [DecidableEq K] [KeyOrd K] [LawfulKeyOrd K] {l : List (K × V)} {m : KV K V} (h : m.Sorted) :
    (l.foldl (fun (d : KV K V) e => d.set e.1 e.2) m).Sorted := by
  induction l generalizing m with
  | nil => exact h
  | cons e t ih => exact ih (KV.sorted_set _ _ h)

namespace Spec

/-- A `math.Int`: at most 256 bits. -/
abbrev IntFits (x : Int) : Prop := x.natAbs < 2 ^ 256
/-- An `int64`. -/
abbrev I64 (x : Int) : Prop := -2 ^ 63 ≤ x ∧ x < 2 ^ 63
/-- An `int32`. -/
abbrev I32 (x : Int) : Prop := -2 ^ 31 ≤ x ∧ x < 2 ^ 31

/-- Every number of the state is in the range of its Go type and every string a string of bytes. -/
structure Fits (s : State) : Prop where
  index : I64 s.index
  holders : s.holders < 2 ^ 64
  totalPrincipal : IntFits s.totalPrincipal
  totalYield : IntFits s.totalYield
  owner : Latin s.owner
  nonce : s.nonce < 2 ^ 32
  vPaused : I32 s.vPaused
  totalFlexible : IntFits s.totalFlexible
  vstats : IntFits s.vstats.flexPrincipal ∧ s.vstats.flexUsers < 2 ^ 64 ∧ IntFits s.vstats.flexDistributed ∧
    IntFits s.vstats.stakedPrincipal ∧ s.vstats.stakedUsers < 2 ^ 64
  principal : ∀ e ∈ s.principal, IntFits e.2
  extYield : ∀ e ∈ s.extYield, (I32 e.1.1 ∧ Latin e.1.2) ∧ IntFits e.2
  recipients : ∀ e ∈ s.recipients, (I32 e.1.1 ∧ Latin e.1.2) ∧ Latin e.2
  retry : ∀ e ∈ s.retry, (I32 e.1.1 ∧ Latin e.1.2) ∧ IntFits e.2
  peers : ∀ e ∈ s.peers, e.1 < 2 ^ 16 ∧ (encPeer e.2).length < 2 ^ 63
  paths : ∀ e ∈ s.paths, e.1.1 < 2 ^ 16
  positions : ∀ e ∈ s.positions, PosFits e.1 ∧ IntFits e.2.principal ∧ I64 e.2.index ∧ IntFits e.2.amount ∧
    (-62135596800 ≤ e.2.time ∧ e.2.time < 253402300800)
  rewards : ∀ e ∈ s.rewards, I64 e.1 ∧ I64 e.2.index ∧ IntFits e.2.total ∧ IntFits e.2.rewards

end Spec

theorem ascii_inj {a b : String} (ha : Latin a) (hb : Latin b) (h : ascii a = ascii b) : a = b := by
  rw [← str_ascii ha, ← str_ascii hb, h]

theorem stored_fits {s : State} (h : Fits s) (nanos : PosKey → Int) : ∀ e ∈ stored nanos s, KeyFits e.1 := by
  intro e he
  simp only [stored, List.mem_append, List.mem_cons, List.not_mem_nil, or_false, List.mem_map] at he
  rcases he with ((((((((((he | ⟨x, hx, rfl⟩) | ⟨x, hx, rfl⟩) | ⟨x, hx, rfl⟩) | ⟨x, hx, rfl⟩) | ⟨x, hx, rfl⟩) | ⟨x, hx, rfl⟩) |
    ⟨x, hx, rfl⟩) | ⟨x, hx, rfl⟩) | ⟨x, hx, rfl⟩) | ⟨x, hx, rfl⟩)
  · rcases he with rfl | rfl | rfl | rfl | rfl | rfl | rfl | rfl | rfl | rfl | rfl <;> trivial
  · trivial
  · exact (h.extYield x hx).1.1
  · exact (h.recipients x hx).1.1
  · exact (h.retry x hx).1.1
  · exact (h.peers x hx).1
  · exact h.paths x hx
  · exact (h.positions x hx).1
  · exact (h.positions x hx).1
  · exact (h.positions x hx).1
  · exact (h.rewards x hx).1

theorem sorted_fun [DecidableEq K] [KeyOrd K] [LawfulKeyOrd K] {m : KV K V} (h : m.Sorted) {x y : K × V}
    (a : x ∈ m) (b : y ∈ m) (e : x.1 = y.1) : x = y := by
  obtain ⟨k, v⟩ := x
  obtain ⟨k', v'⟩ := y
  cases e
  have := (KV.mem_iff_get? h).1 a
  rw [(KV.mem_iff_get? h).1 b] at this
  rw [Option.some.inj this]

theorem stored_fun {s : State} (h : Fits s) (hs : Shape s) (nanos : PosKey → Int) (k : SKey) (v v' : Bytes)
    (a : (k, v) ∈ stored nanos s) (b : (k, v') ∈ stored nanos s) : v = v' := by
  simp only [stored, List.mem_append, List.mem_cons, List.not_mem_nil, or_false, List.mem_map, Prod.mk.injEq] at a b
  cases k <;> simp only [reduceCtorEq, false_and, and_false, exists_false, false_or, or_false, true_and,
    SKey.principal.injEq, SKey.extYield.injEq, SKey.recipient.injEq, SKey.retry.injEq, SKey.peer.injEq, SKey.path.injEq,
    SKey.position.injEq, SKey.byProvider.injEq, SKey.byPair.injEq, SKey.reward.injEq] at a b
  all_goals first
    | rw [a, b]
    | (obtain ⟨x, hx, e1, rfl⟩ := a
       obtain ⟨y, hy, e3, rfl⟩ := b
       rfl)
    | (obtain ⟨x, hx, e1, e2⟩ := a
       obtain ⟨y, hy, e3, e4⟩ := b)
  · have : x.1 = y.1 := e1.trans e3.symm
    rw [← e2, ← e4, sorted_fun hs.principal hx hy this]
  · have : x.1 = y.1 := Prod.ext (e1.1.trans e3.1.symm)
      (ascii_inj (h.extYield x hx).1.2 (h.extYield y hy).1.2 (e1.2.trans e3.2.symm))
    rw [← e2, ← e4, sorted_fun hs.extYield hx hy this]
  · have : x.1 = y.1 := Prod.ext (e1.1.trans e3.1.symm)
      (ascii_inj (h.recipients x hx).1.2 (h.recipients y hy).1.2 (e1.2.trans e3.2.symm))
    rw [← e2, ← e4, sorted_fun hs.recipients hx hy this]
  · have : x.1 = y.1 := Prod.ext (e1.1.trans e3.1.symm)
      (ascii_inj (h.retry x hx).1.2 (h.retry y hy).1.2 (e1.2.trans e3.2.symm))
    rw [← e2, ← e4, sorted_fun hs.retry hx hy this]
  · have : x.1 = y.1 := e1.trans e3.symm
    rw [← e2, ← e4, sorted_fun hs.peers hx hy this]
  · have : x.1 = y.1 := Prod.ext (e1.1.trans e3.1.symm) (e1.2.trans e3.2.symm)
    rw [← e2, ← e4, sorted_fun hs.paths hx hy this]
  · have : x.1 = y.1 := e1.trans e3.symm
    rw [← e2, ← e4, sorted_fun hs.positions hx hy this]
  · have : x.1 = y.1 := e1.trans e3.symm
    rw [← e2, ← e4, sorted_fun hs.rewards hx hy this]

theorem disk_sorted (nanos : PosKey → Int) (s : State) : (disk nanos s).Sorted := by
  unfold disk
  have := foldl_set_sorted' (l := (stored nanos s).map fun e => (e.1.bytes, e.2)) (m := ([] : Disk)) KV.sorted_nil
  rwa [List.foldl_map] at this

/-- The store holds exactly the entries of the state. -/
theorem mem_disk {s : State} (h : Fits s) (hs : Shape s) (nanos : PosKey → Int) {b v : Bytes} :
    (b, v) ∈ disk nanos s ↔ ∃ k, (k, v) ∈ stored nanos s ∧ b = k.bytes := by
  rw [KV.mem_iff_get? (disk_sorted nanos s)]
  have key := foldl_set_get? (l := (stored nanos s).map fun e => (e.1.bytes, e.2)) (m := ([] : Disk)) (k := b) (v := v)
    (by
      intro k v v' a b
      simp only [List.mem_map, Prod.mk.injEq] at a b
      obtain ⟨x, hx, rfl, rfl⟩ := a
      obtain ⟨y, hy, e, rfl⟩ := b
      have : y.1 = x.1 := bytes_inj (stored_fits h nanos y hy) (stored_fits h nanos x hx) e
      exact stored_fun h hs nanos x.1 _ _ hx (this ▸ hy))
  rw [List.foldl_map] at key
  unfold disk
  rw [key]
  simp only [List.mem_map, Prod.mk.injEq, KV.get?_nil, reduceCtorEq, and_false, or_false]
  constructor
  · rintro ⟨x, hx, rfl, rfl⟩; exact ⟨x.1, hx, rfl⟩
  · rintro ⟨k, hk, rfl⟩; exact ⟨(k, v), hk, rfl, rfl⟩

theorem item_disk {s : State} (h : Fits s) (hs : Shape s) (nanos : PosKey → Int) {k : SKey} {v : Bytes}
    (hk : (k, v) ∈ stored nanos s) (dec : Bytes → PRes α) : (disk nanos s).item k dec = dec v := by
  unfold Disk.item
  rw [(KV.mem_iff_get? (disk_sorted nanos s)).1 ((mem_disk h hs nanos).2 ⟨k, hk, rfl⟩)]

theorem readEntries_ok [DecidableEq K] [KeyOrd K] [LawfulKeyOrd K] {dec : Bytes → Bytes → PRes (K × V)} {n : Nat}
    {m : KV K V} (hm : m.Sorted) (l : List (Bytes × Bytes)) (acc : KV K V) (ha : acc.Sorted)
    (hacc : ∀ e ∈ acc, e ∈ m)
    (hl : ∀ e ∈ l, ∃ kv ∈ m, dec (e.1.drop n) e.2 = .ok kv) :
    ∃ r, readEntries dec n l acc = .ok r ∧ r.Sorted ∧ (∀ e ∈ r, e ∈ m) ∧
      (∀ e ∈ acc, e ∈ r) ∧ ∀ e ∈ l, ∀ kv, dec (e.1.drop n) e.2 = .ok kv → kv ∈ r := by
  induction l generalizing acc with
  | nil => exact ⟨acc, rfl, ha, hacc, fun _ h => h, by simp⟩
  | cons e t ih =>
    obtain ⟨kv, hkv, hd⟩ := hl e (by simp)
    have hs := KV.sorted_set kv.1 kv.2 ha
    have hsub : ∀ x ∈ acc.set kv.1 kv.2, x ∈ m := by
      intro x hx
      rcases KV.mem_set hx with h1 | h1
      · rw [h1]; exact hkv
      · exact hacc x h1
    obtain ⟨r, hr, h1, h2, h3, h4⟩ := ih (acc.set kv.1 kv.2) hs hsub (fun x hx => hl x (by simp [hx]))
    refine ⟨r, ?_, h1, h2, ?_, ?_⟩
    · show (dec (e.1.drop n) e.2 >>= _) = _
      rw [hd]; exact hr
    · intro x hx
      apply h3
      rw [show x = (x.1, x.2) from rfl, KV.mem_iff_get? hs, KV.get?_set]
      by_cases hk : x.1 = kv.1
      · rw [if_pos hk]
        rw [sorted_fun hm (hacc x hx) hkv hk]
      · rw [if_neg hk]; exact (KV.mem_iff_get? ha).1 hx
    · intro x hx kv' hd'
      rcases List.mem_cons.1 hx with rfl | hx
      · rw [hd] at hd'
        cases hd'
        apply h3
        rw [show kv = (kv.1, kv.2) from rfl, KV.mem_iff_get? hs, KV.get?_set_self]
      · exact h4 x hx kv' hd'

/-- Walking a collection gives back the map it was written from. -/
theorem walk_disk [DecidableEq K] [KeyOrd K] [LawfulKeyOrd K] {s : State} (h : Fits s) (hs : Shape s)
    (nanos : PosKey → Int) {c : Coll} {dec : Bytes → Bytes → PRes (K × V)} {m : KV K V} (hm : m.Sorted)
    (f : K × V → SKey × Bytes)
    (hstored : ∀ k v, k.coll = c → ((k, v) ∈ stored nanos s ↔ ∃ e ∈ m, f e = (k, v)))
    (hcoll : ∀ e ∈ m, (f e).1.coll = c)
    (hdec : ∀ e ∈ m, dec (f e).1.rest (f e).2 = .ok e) : (disk nanos s).walk c dec = .ok m := by
  have hl : ∀ e ∈ (disk nanos s).filter (fun e => c.pre.isPrefixOf e.1), ∃ kv ∈ m,
      dec (e.1.drop c.pre.length) e.2 = .ok kv := by
    intro e he
    obtain ⟨h1, h2⟩ := List.mem_filter.1 he
    obtain ⟨k, hk, e1⟩ := (mem_disk h hs nanos (b := e.1) (v := e.2)).1 h1
    rw [e1, pre_iff] at h2
    obtain ⟨x, hx, hfx⟩ := (hstored k e.2 h2).1 hk
    refine ⟨x, hx, ?_⟩
    have hd := hdec x hx
    rw [hfx] at hd
    rw [e1, SKey.bytes, h2, List.drop_left]
    exact hd
  obtain ⟨r, hr, h1, h2, _, h4⟩ := readEntries_ok hm _ [] KV.sorted_nil (by simp) hl
  unfold Disk.walk
  rw [hr]
  congr 1
  refine KV.ext_of_sorted h1 hm fun k => Option.ext fun v => ?_
  rw [← KV.mem_iff_get? h1, ← KV.mem_iff_get? hm]
  refine ⟨h2 _, fun hv => ?_⟩
  have hc := hcoll _ hv
  have hk := (hstored (f (k, v)).1 (f (k, v)).2 hc).2 ⟨_, hv, rfl⟩
  refine h4 ((f (k, v)).1.bytes, (f (k, v)).2) ?_ _ ?_
  · rw [List.mem_filter, pre_iff]
    exact ⟨(mem_disk h hs nanos).2 ⟨_, hk, rfl⟩, hc⟩
  · rw [SKey.bytes, hc, List.drop_left]
    exact hdec _ hv

theorem readInt_encInt (T : IntText) {x : Int} (h : IntFits x) : readInt T (encInt x) = .ok x := by
  unfold readInt
  rw [(C73_scalars T).2.2.1 x h]
  rfl

theorem readRoute_enc {p : Int} {id : String} (hp : I32 p) (hi : Latin id) :
    readRoute (encInt32 p ++ ascii id) = .ok (p, id) := by
  unfold readRoute
  rw [decInt32_enc hp]
  simp only [str_ascii hi]

theorem readChain_enc {n : Nat} (hn : n < 2 ^ 16) (t : Bytes) : readChain (toBE 2 n ++ t) = .ok (n, t) := by
  unfold readChain
  have hl : (toBE 2 n).length = 2 := by simp
  rw [if_pos (by rw [List.length_append, hl]; omega), List.take_append_of_le_length (by omega),
    List.take_of_length_le (by omega), List.drop_append_of_le_length (by omega), List.drop_of_length_le (by omega)]
  rw [beNat_toBE 2 n (by omega)]
  rfl

end Dollar
