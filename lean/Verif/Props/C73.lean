import Verif.Lemmas.Wire
import Verif.Lemmas.Store

/-
C73: what the module writes into its store it reads back, bit for bit, and the size it announces is the
size it writes.
-/
namespace Dollar
open Proto

theorem rewardSchema_wf : rewardSchema.WF := by unfold Schema.WF rewardSchema; decide
theorem positionSchema_wf : positionSchema.WF := by unfold Schema.WF positionSchema; decide
theorem vstatsSchema_wf : vstatsSchema.WF := by unfold Schema.WF vstatsSchema; decide
theorem statsSchema_wf : statsSchema.WF := by unfold Schema.WF statsSchema; decide
theorem peerSchema_wf : peerSchema.WF := by unfold Schema.WF peerSchema; decide

/-- C73: a record of vault rewards is read back as written. -/
theorem C73_reward (T : IntText) (r : Reward) (h1 : -2 ^ 63 ≤ r.index ∧ r.index < 2 ^ 63)
    (h2 : r.total.natAbs < 2 ^ 256) (h3 : r.rewards.natAbs < 2 ^ 256) :
    decReward T (encReward r) = .ok r := by
  obtain ⟨m, e, hm⟩ := unmarshal_marshal T rewardSchema_wf
    (v := Fields.ofList [.num r.index, .int (some r.total), .int (some r.rewards)])
    (by
      intro e he
      simp only [rewardSchema, List.mem_cons, List.not_mem_nil, or_false] at he
      rcases he with rfl | rfl | rfl
      · exact h1
      · exact h2
      · exact h3)
    (by
      show (marshalNum 1 r.index ++ (marshalField 2 (.int (some r.total)) ++
        (marshalField 3 (.int (some r.rewards)) ++ []))).length < _
      simp only [List.length_append, List.length_nil]
      have := marshalNum_length_le 1 r.index
      have := marshalInt_length_le 2 h2
      have := marshalInt_length_le 3 h3
      omega)
  unfold decReward encReward
  rw [e]
  simp only [PRes.ok_bind]
  rw [show m 1 = .num r.index from hm (1, .i64) (by simp [rewardSchema]),
    show m 2 = .int (some r.total) from hm (2, .int) (by simp [rewardSchema]),
    show m 3 = .int (some r.rewards) from hm (3, .int) (by simp [rewardSchema])]
  rfl

/-- C73: a vault position is read back as written, whatever the nanoseconds of the block time. -/
theorem C73_position (T : IntText) (p : Position) (nanos : Int) (h1 : p.principal.natAbs < 2 ^ 256)
    (h2 : -2 ^ 63 ≤ p.index ∧ p.index < 2 ^ 63) (h3 : p.amount.natAbs < 2 ^ 256)
    (h4 : -62135596800 ≤ p.time ∧ p.time < 253402300800) (h5 : 0 ≤ nanos ∧ nanos < 1000000000) :
    decPosition T (encPosition p nanos) = .ok p := by
  have ht : timeOk p.time nanos = true := decide_eq_true ⟨h4.1, h4.2, h5.1, h5.2⟩
  obtain ⟨m, e, hm⟩ := unmarshal_marshal T positionSchema_wf
    (v := Fields.ofList [.int (some p.principal), .num p.index, .int (some p.amount), .time p.time nanos])
    (by
      intro e he
      simp only [positionSchema, List.mem_cons, List.not_mem_nil, or_false] at he
      rcases he with rfl | rfl | rfl | rfl
      · exact h1
      · exact h2
      · exact h3
      · exact ht)
    (by
      show (marshalField 1 (.int (some p.principal)) ++ (marshalNum 2 p.index ++
        (marshalField 3 (.int (some p.amount)) ++ (marshalField 4 (.time p.time nanos) ++ [])))).length < _
      simp only [List.length_append, List.length_nil]
      have := marshalNum_length_le 2 p.index
      have := marshalInt_length_le 1 h1
      have := marshalInt_length_le 3 h3
      have := marshalTimeField_length_le 4 p.time nanos
      omega)
  unfold decPosition encPosition
  rw [e]
  simp only [PRes.ok_bind]
  rw [show m 1 = .int (some p.principal) from hm (1, .int) (by simp [positionSchema]),
    show m 2 = .num p.index from hm (2, .i64) (by simp [positionSchema]),
    show m 3 = .int (some p.amount) from hm (3, .int) (by simp [positionSchema]),
    show m 4 = .time p.time nanos from hm (4, .time) (by simp [positionSchema])]
  rfl

/-- C73: the statistics of the vaults are read back as written. -/
theorem C73_vault_stats (T : IntText) (v : VStats) (h1 : v.flexPrincipal.natAbs < 2 ^ 256) (h2 : v.flexUsers < 2 ^ 64)
    (h3 : v.flexDistributed.natAbs < 2 ^ 256) (h4 : v.stakedPrincipal.natAbs < 2 ^ 256) (h5 : v.stakedUsers < 2 ^ 64) :
    decVStats T (encVStats v) = .ok v := by
  obtain ⟨m, e, hm⟩ := unmarshal_marshal T vstatsSchema_wf
    (v := Fields.ofList [.int (some v.flexPrincipal), .num v.flexUsers, .int (some v.flexDistributed),
      .int (some v.stakedPrincipal), .num v.stakedUsers])
    (by
      intro e he
      simp only [vstatsSchema, List.mem_cons, List.not_mem_nil, or_false] at he
      rcases he with rfl | rfl | rfl | rfl | rfl
      · exact h1
      · exact ⟨by omega, by exact_mod_cast h2⟩
      · exact h3
      · exact h4
      · exact ⟨by omega, by exact_mod_cast h5⟩)
    (by
      show (marshalField 1 (.int (some v.flexPrincipal)) ++ (marshalNum 2 v.flexUsers ++
        (marshalField 3 (.int (some v.flexDistributed)) ++ (marshalField 4 (.int (some v.stakedPrincipal)) ++
        (marshalNum 5 v.stakedUsers ++ []))))).length < _
      simp only [List.length_append, List.length_nil]
      have := marshalNum_length_le 2 v.flexUsers
      have := marshalNum_length_le 5 v.stakedUsers
      have := marshalInt_length_le 1 h1
      have := marshalInt_length_le 3 h3
      have := marshalInt_length_le 4 h4
      omega)
  unfold decVStats encVStats
  rw [e]
  simp only [PRes.ok_bind]
  rw [show m 1 = .int (some v.flexPrincipal) from hm (1, .int) (by simp [vstatsSchema]),
    show m 2 = .num v.flexUsers from hm (2, .u64) (by simp [vstatsSchema]),
    show m 3 = .int (some v.flexDistributed) from hm (3, .int) (by simp [vstatsSchema]),
    show m 4 = .int (some v.stakedPrincipal) from hm (4, .int) (by simp [vstatsSchema]),
    show m 5 = .num v.stakedUsers from hm (5, .u64) (by simp [vstatsSchema])]
  rfl

/-- C73: the statistics of the token are read back as written. -/
theorem C73_stats (T : IntText) (holders : Nat) (principal yield : Int) (h1 : holders < 2 ^ 64)
    (h2 : principal.natAbs < 2 ^ 256) (h3 : yield.natAbs < 2 ^ 256) :
    decStats T (encStats holders principal yield) = .ok (holders, principal, yield) := by
  obtain ⟨m, e, hm⟩ := unmarshal_marshal T statsSchema_wf
    (v := Fields.ofList [.num holders, .int (some principal), .int (some yield)])
    (by
      intro e he
      simp only [statsSchema, List.mem_cons, List.not_mem_nil, or_false] at he
      rcases he with rfl | rfl | rfl
      · exact ⟨by omega, by exact_mod_cast h1⟩
      · exact h2
      · exact h3)
    (by
      show (marshalNum 1 holders ++ (marshalField 2 (.int (some principal)) ++
        (marshalField 3 (.int (some yield)) ++ []))).length < _
      simp only [List.length_append, List.length_nil]
      have := marshalNum_length_le 1 holders
      have := marshalInt_length_le 2 h2
      have := marshalInt_length_le 3 h3
      omega)
  unfold decStats encStats
  rw [e]
  simp only [PRes.ok_bind]
  rw [show m 1 = .num holders from hm (1, .u64) (by simp [statsSchema]),
    show m 2 = .int (some principal) from hm (2, .int) (by simp [statsSchema]),
    show m 3 = .int (some yield) from hm (3, .int) (by simp [statsSchema])]
  rfl

/-- C73: a peer is read back as written. -/
theorem C73_peer (T : IntText) (p : Peer) (h : (encPeer p).length < 2 ^ 63) : decPeer T (encPeer p) = .ok p := by
  obtain ⟨m, e, hm⟩ := unmarshal_marshal T peerSchema_wf (v := Fields.ofList [.bs p.transceiver, .bs p.manager])
    (by
      intro e he
      simp only [peerSchema, List.mem_cons, List.not_mem_nil, or_false] at he
      rcases he with rfl | rfl <;> trivial) h
  unfold decPeer encPeer
  rw [e]
  simp only [PRes.ok_bind]
  rw [show m 1 = .bs p.transceiver from hm (1, .bytes) (by simp [peerSchema]),
    show m 2 = .bs p.manager from hm (2, .bytes) (by simp [peerSchema])]
  rfl

/-- C73: single values (flags, counters, amounts, the index, enumerations) are read back as written. -/
theorem C73_scalars (T : IntText) :
    (∀ v, decBool (encBool v) = some v) ∧
    (∀ n, n < 2 ^ 32 → decUint32 (encUint32 n) = some n) ∧
    (∀ x : Int, x.natAbs < 2 ^ 256 → decInt T (encInt x) = .ok (.int (some x))) ∧
    (∀ x : Int, -2 ^ 63 ≤ x ∧ x < 2 ^ 63 → decInt64 (encInt64 x) = some (x, [])) ∧
    (∀ x : Int, -2 ^ 31 ≤ x ∧ x < 2 ^ 31 → decInt32 (encInt32 x) = some (x, [])) := by
  refine ⟨?_, ?_, ?_, ?_, ?_⟩
  · intro v; cases v <;> rfl
  · intro n h
    unfold decUint32 encUint32
    rw [if_pos (toBE_length 4 n), beNat_toBE 4 n (by omega)]
  · intro x h
    exact parsePayload_payload T (k := .int) (v := .int (some x)) rfl h _
  · intro x h
    have := decInt64_enc h []
    rwa [List.append_nil] at this
  · intro x h
    have := decInt32_enc h []
    rwa [List.append_nil] at this

/-- C73: the buffer that is allocated for a value is filled exactly: the announced size is the number of bytes
written. -/
theorem C73_size (sch : Schema) (h : sch = rewardSchema ∨ sch = positionSchema ∨ sch = vstatsSchema ∨
      sch = statsSchema ∨ sch = peerSchema ∨ ∃ t : MsgType, sch = t.schema) (v : Fields)
    (hlen : (marshal sch v).length < 2 ^ 63) : (marshal sch v).length = size sch v := by
  refine marshal_length ?_ v hlen
  rcases h with rfl | rfl | rfl | rfl | rfl | ⟨t, rfl⟩
  · decide
  · decide
  · decide
  · decide
  · decide
  · cases t <;> decide

/-! Examples: non-trivial values, with the decimal parser for integers. -/

example : decReward decimal (encReward ⟨1050000000000, -7, 123456789012345678901234567890⟩) =
    .ok ⟨1050000000000, -7, 123456789012345678901234567890⟩ :=
  C73_reward decimal _ (by decide) (by decide) (by decide)

example : encReward ⟨300, -7, 0⟩ = [0x08, 0xac, 0x02, 0x12, 2, 45, 55, 0x1a, 1, 48] := by decide +kernel

example : decPosition decimal (encPosition ⟨5, 1000000000000, 5, 1700000000⟩ 999999999) =
    .ok ⟨5, 1000000000000, 5, 1700000000⟩ :=
  C73_position decimal _ _ (by decide) (by decide) (by decide) (by decide) (by decide)

example : (encPosition ⟨5, 1, 5, 1700000000⟩ 999999999).length = 22 := by decide +kernel

end Dollar
