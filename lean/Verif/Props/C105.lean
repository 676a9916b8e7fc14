import Verif.Lemmas.Proto2
import Verif.Props.C73
import Mathlib.Data.List.Nodup

/-
C105: the answer of a query arrives as it was given: what the node writes, a client reads back, entry by entry and in
the same order; the size announced is the size written; and no bytes a node may send crash the client.
-/
namespace Dollar
open Proto

theorem posEntrySchema_wf : posEntrySchema.WF := by unfold Schema.WF posEntrySchema; decide
theorem posRewardsSchema_wf : posRewardsSchema.WF := by unfold Schema.WF posRewardsSchema; decide
theorem extYieldSchema_wf : extYieldSchema.WF := by unfold Schema.WF extYieldSchema; decide
theorem positionsSchema_wf : positionsSchema.WF := by unfold Schema2.WF positionsSchema; decide
theorem pendingSchema_wf : pendingSchema.WF := by unfold Schema2.WF pendingSchema; decide
theorem tokensSchema_wf : tokensSchema.WF := by unfold Schema2.WF tokensSchema; decide
theorem peersSchema_wf : peersSchema.WF := by unfold Schema2.WF peersSchema; decide
theorem stringMapSchema_wf : stringMapSchema.WF := by unfold Schema2.WF stringMapSchema; decide
theorem statsV2Schema_wf : statsV2Schema.WF := by unfold Schema2.WF statsV2Schema; decide

/-- C105: the positions of an account. -/
theorem C105_positions (T : IntText) (l : List (PosEntry × Int))
    (h : ∀ p ∈ l, (-2 ^ 31 ≤ p.1.vault ∧ p.1.vault < 2 ^ 31) ∧ p.1.principal.natAbs < 2 ^ 256 ∧
      (-2 ^ 63 ≤ p.1.index ∧ p.1.index < 2 ^ 63) ∧ p.1.amount.natAbs < 2 ^ 256 ∧
      (-62135596800 ≤ p.1.time ∧ p.1.time < 253402300800) ∧ 0 ≤ p.2 ∧ p.2 < 1000000000)
    (hlen : (encPositions l).length < 2 ^ 63) :
    decPositions T (encPositions l) = .ok (l.map Prod.fst) := by
  obtain ⟨m, e, hm⟩ := unmarshal2_marshal2 T positionsSchema_wf
    (v := positionsFields l)
    (by
      intro x hx
      simp only [positionsSchema, List.mem_cons, List.not_mem_nil, or_false] at hx
      subst hx
      refine ⟨_, rfl, fun y hy => ?_⟩
      obtain ⟨p, hp, rfl⟩ := List.mem_map.1 hy
      obtain ⟨h1, h2, h3, h4, h5, h6⟩ := h p hp
      refine ⟨posEntrySchema_wf, _, rfl, fun z hz => ?_⟩
      simp only [posEntrySchema, List.mem_cons, List.not_mem_nil, or_false] at hz
      rcases hz with rfl | rfl | rfl | rfl | rfl | rfl
      · trivial
      · exact h1
      · exact h2
      · exact h3
      · exact h4
      · exact decide_eq_true ⟨h5.1, h5.2, h6.1, h6.2⟩)
    hlen
  obtain ⟨l', e1, hl'⟩ := hm (1, .rep (.msg posEntrySchema)) (by simp [positionsSchema])
  simp only at e1
  unfold decPositions encPositions
  rw [e]
  simp only [PRes.ok_bind]
  rw [e1]
  congr 1
  show l'.map _ = _
  have hl2 : List.Forall₂ (Elem.msg posEntrySchema).Same _ l' := hl'
  rw [show l.map Prod.fst = (l.map fun p => EVal.msg (Fields.ofList
      [.bs p.1.address, .num p.1.vault, .int (some p.1.principal), .num p.1.index, .int (some p.1.amount),
        .time p.1.time p.2])).map (fun v => (⟨(v.getMsg 1).getBytes, (v.getMsg 2).getNum, (v.getMsg 3).getInt,
    (v.getMsg 4).getNum, (v.getMsg 5).getInt, (v.getMsg 6).getSec⟩ : PosEntry)) by
      rw [List.map_map]; rfl]
  refine map_of_forall₂ hl2 _ _ fun x _ y hxy => ?_
  rw [hxy (1, .bytes) (by simp [posEntrySchema]), hxy (2, .i32) (by simp [posEntrySchema]),
    hxy (3, .int) (by simp [posEntrySchema]), hxy (4, .i64) (by simp [posEntrySchema]),
    hxy (5, .int) (by simp [posEntrySchema]), hxy (6, .time) (by simp [posEntrySchema])]

/-- C105: the pending rewards of an account, in total and by position. -/
theorem C105_pending (T : IntText) (total : Int) (l : List (Int × Int)) (h0 : total.natAbs < 2 ^ 256)
    (h : ∀ p ∈ l, p.1.natAbs < 2 ^ 256 ∧ p.2.natAbs < 2 ^ 256) (hlen : (encPending total l).length < 2 ^ 63) :
    decPending T (encPending total l) = .ok (total, l) := by
  obtain ⟨m, e, hm⟩ := unmarshal2_marshal2 T pendingSchema_wf
    (v := pendingFields total l)
    (by
      intro x hx
      simp only [pendingSchema, List.mem_cons, List.not_mem_nil, or_false] at hx
      rcases hx with rfl | rfl
      · exact ⟨_, rfl, h0⟩
      refine ⟨_, rfl, fun y hy => ?_⟩
      obtain ⟨p, hp, rfl⟩ := List.mem_map.1 hy
      refine ⟨posRewardsSchema_wf, _, rfl, fun z hz => ?_⟩
      simp only [posRewardsSchema, List.mem_cons, List.not_mem_nil, or_false] at hz
      rcases hz with rfl | rfl
      · exact (h p hp).1
      · exact (h p hp).2)
    hlen
  have e0 : m 1 = .one (.int (some total)) := hm (1, .one .int) (by simp [pendingSchema])
  obtain ⟨l', e1, hl'⟩ := hm (2, .rep (.msg posRewardsSchema)) (by simp [pendingSchema])
  simp only at e1
  unfold decPending encPending
  rw [e]
  simp only [PRes.ok_bind]
  rw [e0, e1]
  congr 2
  show l'.map _ = _
  have hl2 : List.Forall₂ (Elem.msg posRewardsSchema).Same _ l' := hl'
  have := map_of_forall₂ hl2 (fun v => ((v.getMsg 1).getInt, (v.getMsg 2).getInt))
    (fun v => ((v.getMsg 1).getInt, (v.getMsg 2).getInt)) fun x _ y hxy => by
      rw [hxy (1, .int) (by simp [posRewardsSchema]), hxy (2, .int) (by simp [posRewardsSchema])]
  rw [this]
  show (l.map _).map _ = l
  rw [List.map_map]
  exact List.map_id _

/-- C105: the destination tokens of a chain. -/
theorem C105_tokens (T : IntText) (l : List Bytes) (hlen : (encTokens l).length < 2 ^ 63) :
    decTokens T (encTokens l) = .ok l := by
  obtain ⟨m, e, hm⟩ := unmarshal2_marshal2 T tokensSchema_wf
    (v := tokensFields l)
    (by
      intro x hx
      simp only [tokensSchema, List.mem_cons, List.not_mem_nil, or_false] at hx
      subst hx
      refine ⟨_, rfl, fun y hy => ?_⟩
      obtain ⟨p, _, rfl⟩ := List.mem_map.1 hy
      exact ⟨p, rfl⟩)
    hlen
  obtain ⟨l', e1, hl'⟩ := hm (2, .rep .bytes) (by simp [tokensSchema])
  simp only at e1
  unfold decTokens encTokens
  rw [e]
  simp only [PRes.ok_bind]
  rw [e1]
  congr 1
  show l'.map _ = _
  have hl2 : List.Forall₂ Elem.bytes.Same (l.map EVal.bs) l' := hl'
  rw [map_of_forall₂ hl2 EVal.getBytes EVal.getBytes fun x _ y hxy => by rw [show y = x from hxy], List.map_map]
  exact List.map_id _

/-- C105: the peers, in whatever order the node's loop over the map met them. -/
theorem C105_peers (T : IntText) (l : List (Nat × Peer)) (hk : ∀ p ∈ l, p.1 < 2 ^ 16) (hnd : (l.map Prod.fst).Nodup)
    (hlen : (encPeers l).length < 2 ^ 63) : decPeers T (encPeers l) = .ok l := by
  obtain ⟨m, e, hm⟩ := unmarshal2_marshal2 T peersSchema_wf
    (v := peersFields l)
    (by
      intro x hx
      simp only [peersSchema, List.mem_cons, List.not_mem_nil, or_false] at hx
      subst hx
      refine ⟨_, rfl, fun y hy => ?_, ?_⟩
      · obtain ⟨p, hp, rfl⟩ := List.mem_map.1 hy
        refine ⟨⟨p.1, rfl, by omega, by exact_mod_cast hk p hp⟩, peerSchema_wf, _, rfl, fun z hz => ?_⟩
        simp only [peerSchema, List.mem_cons, List.not_mem_nil, or_false] at hz
        rcases hz with rfl | rfl <;> trivial
      · rw [List.map_map]
        rw [show (Prod.fst ∘ fun p : Nat × Peer => ((FVal.num p.1, EVal.msg (Fields.ofList
          [.bs p.2.transceiver, .bs p.2.manager])) : FVal × EVal)) = (fun n : Nat => FVal.num n) ∘ Prod.fst from rfl,
          ← List.map_map]
        exact List.Nodup.map (fun a b hab => by
          injection hab with h; omega) hnd)
    hlen
  obtain ⟨l', e1, hl'⟩ := hm (1, .map .u16 (.msg peerSchema)) (by simp [peersSchema])
  simp only at e1
  unfold decPeers encPeers
  rw [e]
  simp only [PRes.ok_bind]
  rw [e1]
  congr 1
  show l'.map _ = _
  have hl2 : List.Forall₂ (fun x y : FVal × EVal => y.1 = x.1 ∧ (Elem.msg peerSchema).Same x.2 y.2) (l.map fun p =>
      (.num p.1, .msg (Fields.ofList [.bs p.2.transceiver, .bs p.2.manager]))) l' := hl'
  rw [map_of_forall₂ hl2 _ (fun p => (p.1.getNum.toNat, (⟨(p.2.getMsg 1).getBytes, (p.2.getMsg 2).getBytes⟩ : Peer)))
    fun x _ y hxy => by
      rw [hxy.1, hxy.2 (1, .bytes) (by simp [peerSchema]), hxy.2 (2, .bytes) (by simp [peerSchema])], List.map_map]
  exact List.map_id _

/-- C105: the yield recipients and the amounts to retry, in whatever order the node's loop over the map met them. -/
theorem C105_string_map (T : IntText) (l : List (Bytes × Bytes)) (hnd : (l.map Prod.fst).Nodup)
    (hlen : (encStringMap l).length < 2 ^ 63) : decStringMap T (encStringMap l) = .ok l := by
  obtain ⟨m, e, hm⟩ := unmarshal2_marshal2 T stringMapSchema_wf
    (v := stringMapFields l)
    (by
      intro x hx
      simp only [stringMapSchema, List.mem_cons, List.not_mem_nil, or_false] at hx
      subst hx
      refine ⟨_, rfl, fun y hy => ?_, ?_⟩
      · obtain ⟨p, _, rfl⟩ := List.mem_map.1 hy
        exact ⟨⟨_, rfl⟩, ⟨_, rfl⟩⟩
      · rw [List.map_map]
        rw [show (Prod.fst ∘ fun p : Bytes × Bytes => ((FVal.bs p.1, EVal.bs p.2) : FVal × EVal)) =
          FVal.bs ∘ Prod.fst from rfl, ← List.map_map]
        exact List.Nodup.map (fun a b hab => by injection hab) hnd)
    hlen
  obtain ⟨l', e1, hl'⟩ := hm (1, .map .str .bytes) (by simp [stringMapSchema])
  simp only at e1
  unfold decStringMap encStringMap
  rw [e]
  simp only [PRes.ok_bind]
  rw [e1]
  congr 1
  show l'.map _ = _
  have hl2 : List.Forall₂ (fun x y : FVal × EVal => y.1 = x.1 ∧ Elem.bytes.Same x.2 y.2)
      (l.map fun p => (.bs p.1, .bs p.2)) l' := hl'
  rw [map_of_forall₂ hl2 _ (fun p => (p.1.getBytes, p.2.getBytes)) fun x _ y hxy => by
    rw [hxy.1, show y.2 = x.2 from hxy.2], List.map_map]
  exact List.map_id _

/-- C105: the statistics with the external yield, in whatever order the node's loop over the map met it. -/
theorem C105_stats (T : IntText) (holders : Nat) (principal yield : Int) (l : List (Bytes × Bytes × Int))
    (h1 : holders < 2 ^ 64) (h2 : principal.natAbs < 2 ^ 256) (h3 : yield.natAbs < 2 ^ 256)
    (h4 : ∀ p ∈ l, p.2.2.natAbs < 2 ^ 256) (hnd : (l.map Prod.fst).Nodup)
    (hlen : (encStatsV2 holders principal yield l).length < 2 ^ 63) :
    decStatsV2 T (encStatsV2 holders principal yield l) = .ok (holders, principal, yield, l) := by
  obtain ⟨m, e, hm⟩ := unmarshal2_marshal2 T statsV2Schema_wf
    (v := statsV2Fields holders principal yield l)
    (by
      intro x hx
      simp only [statsV2Schema, List.mem_cons, List.not_mem_nil, or_false] at hx
      rcases hx with rfl | rfl | rfl | rfl
      · exact ⟨_, rfl, by omega, by exact_mod_cast h1⟩
      · exact ⟨_, rfl, h2⟩
      · exact ⟨_, rfl, h3⟩
      refine ⟨_, rfl, fun y hy => ?_, ?_⟩
      · obtain ⟨p, hp, rfl⟩ := List.mem_map.1 hy
        refine ⟨⟨_, rfl⟩, extYieldSchema_wf, _, rfl, fun z hz => ?_⟩
        simp only [extYieldSchema, List.mem_cons, List.not_mem_nil, or_false] at hz
        rcases hz with rfl | rfl
        · trivial
        · exact h4 p hp
      · rw [List.map_map]
        rw [show (Prod.fst ∘ fun p : Bytes × Bytes × Int => ((FVal.bs p.1, EVal.msg (Fields.ofList
          [.bs p.2.1, .int (some p.2.2)])) : FVal × EVal)) = FVal.bs ∘ Prod.fst from rfl, ← List.map_map]
        exact List.Nodup.map (fun a b hab => by injection hab) hnd)
    hlen
  have e1 : m 1 = .one (.num holders) := hm (1, .one .u64) (by simp [statsV2Schema])
  have e2 : m 2 = .one (.int (some principal)) := hm (2, .one .int) (by simp [statsV2Schema])
  have e3 : m 3 = .one (.int (some yield)) := hm (3, .one .int) (by simp [statsV2Schema])
  obtain ⟨l', e4, hl'⟩ := hm (4, .map .str (.msg extYieldSchema)) (by simp [statsV2Schema])
  simp only at e4
  unfold decStatsV2 encStatsV2
  rw [e]
  simp only [PRes.ok_bind]
  rw [e1, e2, e3, e4]
  have hl2 : List.Forall₂ (fun x y : FVal × EVal => y.1 = x.1 ∧ (Elem.msg extYieldSchema).Same x.2 y.2)
      (l.map fun p => (.bs p.1, .msg (Fields.ofList [.bs p.2.1, .int (some p.2.2)]))) l' := hl'
  have : (FVal2.map l').getMap.map (fun p => (p.1.getBytes, (p.2.getMsg 1).getBytes, (p.2.getMsg 2).getInt)) = l := by
    show l'.map _ = _
    rw [map_of_forall₂ hl2 _ (fun p => (p.1.getBytes, (p.2.getMsg 1).getBytes, (p.2.getMsg 2).getInt)) fun x _ y hxy => by
      rw [hxy.1, hxy.2 (1, .bytes) (by simp [extYieldSchema]), hxy.2 (2, .int) (by simp [extYieldSchema])], List.map_map]
    exact List.map_id _
  rw [this]
  rfl

/-- C105: the buffer the node allocates for an answer is exactly filled (a buffer that is too small is a panic, one
that is too large sends bytes that were never written). -/
theorem C105_size (m : Fields2) (sch : Schema2)
    (hs : sch = positionsSchema ∨ sch = pendingSchema ∨ sch = tokensSchema ∨ sch = peersSchema ∨ sch = stringMapSchema ∨
      sch = statsV2Schema) (hlen : (marshal2 sch m).length < 2 ^ 63) : (marshal2 sch m).length = size2 sch m := by
  refine marshal2_length ?_ m hlen
  rcases hs with rfl | rfl | rfl | rfl | rfl | rfl <;>
  · intro e he
    simp only [positionsSchema, pendingSchema, tokensSchema, peersSchema, stringMapSchema, statsV2Schema, List.mem_cons,
      List.not_mem_nil, or_false] at he
    rcases he with rfl | rfl | rfl | rfl <;> refine ⟨by decide, ?_⟩ <;> first
      | trivial
      | (intro sch h; cases h; decide)
      | (intro sch h; cases h)

/-- C105: whatever bytes come as the answer, reading them gives an answer or an error, never a panic. -/
theorem C105_no_panic (T : IntText) (b : Bytes) (hb : b.length < 2 ^ 63) :
    decPositions T b ≠ .panic ∧ decPending T b ≠ .panic ∧ decTokens T b ≠ .panic ∧ decPeers T b ≠ .panic ∧
      decStringMap T b ≠ .panic ∧ decStatsV2 T b ≠ .panic := by
  have key : ∀ (sch : Schema2) {α : Type} (f : Fields2 → α),
      (unmarshal2 T sch b >>= fun m => PRes.ok (f m)) ≠ .panic := by
    intro sch α f
    have h := unmarshal2_noPanic T sch b hb
    cases e : unmarshal2 T sch b with
    | ok m => exact fun h => nomatch h
    | err => exact fun h => nomatch h
    | panic => exact absurd e h
  exact ⟨key _ _, key _ _, key _ _, key _ _, key _ _, key _ _⟩

/-! Examples: concrete answers, byte by byte; bytes a hostile node may send. -/

example : encTokens [[1, 2], [], [3]] = [0x12, 2, 1, 2, 0x12, 0, 0x12, 1, 3] := by decide +kernel
example : decTokens decimal [0x12, 2, 1, 2, 0x12, 0, 0x12, 1, 3] = .ok [[1, 2], [], [3]] := by decide +kernel
example : encPeers [(4009, ⟨[7], [8, 9]⟩), (0, ⟨[], [5]⟩)] =
    [0x0a, 12, 0x08, 0xa9, 0x1f, 0x12, 7, 0x0a, 1, 7, 0x12, 2, 8, 9, 0x0a, 7, 0x08, 0, 0x12, 3, 0x12, 1, 5] := by
  decide +kernel
example : decPeers decimal (encPeers [(4009, ⟨[7], [8, 9]⟩), (0, ⟨[], [5]⟩)]) = .ok [(4009, ⟨[7], [8, 9]⟩), (0, ⟨[], [5]⟩)] :=
  C105_peers decimal _ (by decide) (by decide) (by decide +kernel)
example : decPositions decimal (encPositions [(⟨[1, 2], 1, 5, 1000000000000, 7, 1700000000⟩, 3), (⟨[], 0, -5, 0, 0, 0⟩, 0)]) =
    .ok [⟨[1, 2], 1, 5, 1000000000000, 7, 1700000000⟩, ⟨[], 0, -5, 0, 0, 0⟩] :=
  C105_positions decimal _ (by decide) (by decide +kernel)
example : decPending decimal (encPending 9 [(10, 4), (20, 5)]) = .ok (9, [(10, 4), (20, 5)]) :=
  C105_pending decimal _ _ (by decide) (by decide) (by decide +kernel)
example : decStatsV2 decimal (encStatsV2 2 100 5 [([48, 47, 97], [99], 3)]) = .ok (2, 100, 5, [([48, 47, 97], [99], 3)]) :=
  C105_stats decimal _ _ _ _ (by decide) (by decide) (by decide) (by decide) (by decide) (by decide +kernel)
/-- Two entries with the same key: the later one wins. -/
example : decStringMap decimal [0x0a, 6, 0x0a, 1, 97, 0x12, 1, 98, 0x0a, 6, 0x0a, 1, 97, 0x12, 1, 99] = .ok [([97], [99])] := by
  decide +kernel
/-- A key that reaches beyond its entry is read beyond it. -/
example : decStringMap decimal [0x0a, 2, 0x0a, 3, 0x0a, 1, 97] = .err := by decide +kernel
example : decStringMap decimal [0x0a, 2, 0x0a, 4, 0x0a, 0, 0x0a, 0] = .ok [([0x0a, 0, 0x0a, 0], []), ([], [])] := by
  decide +kernel
/-- A length that does not fit, an unfinished entry. -/
example : decPeers decimal [0x0a, 0xff, 0xff, 0xff, 0xff, 0xff, 0xff, 0xff, 0xff, 0x7f] = .err := by decide +kernel
example : decPeers decimal [0x0a, 1, 0x08] = .err := by decide +kernel

end Dollar
