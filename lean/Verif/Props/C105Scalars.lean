import Verif.Model.Answers
import Verif.Props.C73
import Verif.Props.C59

/-
C105, continued: requests and answers that hold single values.
-/
namespace Dollar.Proto

theorem one_wf (k : Kind) : Schema.WF [(1, k)] := by
  refine ⟨fun e he => ?_, by simp⟩
  cases List.mem_singleton.1 he
  exact ⟨Nat.one_pos, (by decide : (1 : Nat) < 2 ^ 28)⟩

theorem decOne_encOne (T : IntText) (k : Kind) (v : FVal) (hw : k.Writable v) (hlen : (encOne k v).length < 2 ^ 63) :
    decOne T k (encOne k v) = .ok (k.readAs v) := by
  obtain ⟨m, e, hm⟩ := unmarshal_marshal_readAs T (one_wf k) (v := Fields.ofList [v])
    (by intro e he; cases List.mem_singleton.1 he; exact hw) hlen
  unfold decOne
  unfold encOne
  rw [e]
  simp only [PRes.ok_bind]
  rw [show m 1 = k.readAs v from hm (1, k) List.mem_cons_self]

theorem encOne_length (k : Kind) (v : FVal) : (encOne k v).length = (marshalField 1 v).length := by
  show (marshalField 1 v ++ []).length = _
  rw [List.append_nil]

theorem marshalBs_length_le (n : Nat) (x : Bytes) : (marshalField n (.bs x)).length ≤ x.length + 20 := by
  show (if x = [] then [] else marshalLen n x).length ≤ _
  split
  · exact Nat.zero_le _
  · unfold marshalLen
    rw [List.length_append, List.length_append]
    have := tag_length_le n 2
    have := varint_length_le x.length
    omega

theorem routeSchema_wf : routeSchema.WF := by unfold Schema.WF routeSchema; decide

end Dollar.Proto

namespace Dollar
open Proto

/-- An amount arrives as it was given; an amount that was not set arrives as zero. -/
theorem C105_amount (T : IntText) (x : Option Int) (h : (x.getD 0).natAbs < 2 ^ 256) :
    decAmount T (encAmount x) = .ok (x.getD 0) := by
  unfold decAmount encAmount
  rw [decOne_encOne T .int (.int x) h (by
    rw [encOne_length]
    have := marshalInt_length_le 1 h
    have e : marshalField 1 (.int x) = marshalField 1 (.int (some (x.getD 0))) := by cases x <;> rfl
    rw [e]
    omega)]
  rfl

/-- The decimal a client reads as the index is the index over 10^12, with nothing rounded away. -/
theorem C105_index (T : IntText) (s : State) (h : 0 < s.index ∧ s.index < 2 ^ 63) :
    ∃ d, decAmount T (encAmount (some (queryIndex s))) = .ok d ∧ d * 10 ^ 12 = s.index * 10 ^ 18 := by
  have e := C59_index s
  exact ⟨_, C105_amount T (some (queryIndex s)) (by show (queryIndex s).natAbs < _; omega), e⟩

/-- Switches and enumerations arrive as they were given. -/
theorem C105_flag (T : IntText) (x : Bool) (n : Int) (hn : -2 ^ 31 ≤ n ∧ n < 2 ^ 31) :
    decFlag T (encFlag x) = .ok x ∧ decEnum T (encEnum n) = .ok n := by
  have hl : ∀ y, (marshalField 1 (.num y)).length < 2 ^ 63 := fun y => by
    have := marshalNum_length_le 1 y
    show (marshalNum 1 y).length < _
    omega
  constructor
  · unfold decFlag encFlag
    rw [decOne_encOne T .bool _ (by cases x <;> trivial) (by rw [encOne_length]; exact hl _)]
    cases x <;> rfl
  · unfold decEnum encEnum
    rw [decOne_encOne T .i32 (.num n) trivial (by rw [encOne_length]; exact hl _)]
    have hf : Kind.Fits .i32 (.num n) := hn
    rw [hf.readAs]
    rfl

/-- 64-bit numbers in place of 32-bit ones are cut to their lower half. -/
theorem C105_word_cut (T : IntText) (n : Nat) (hn : n < 2 ^ 64) : decWord T (encWord n) = .ok (n % 2 ^ 32) := by
  unfold decWord encWord
  have hl : (marshalField 1 (.num (n : Int))).length < 2 ^ 63 := by
    have := marshalNum_length_le 1 n
    show (marshalNum 1 n).length < _
    omega
  rw [decOne_encOne T .u64 (.num n) trivial (by rw [encOne_length]; exact hl)]
  have hf : Kind.Fits .u64 (.num n) := ⟨by omega, by omega⟩
  rw [hf.readAs]
  rfl

/-- The sequence number arrives as it was given. -/
theorem C105_nonce (T : IntText) (n : Nat) (hn : n < 2 ^ 32) : decWord T (encWord n) = .ok n := by
  rw [C105_word_cut T n (by omega), Nat.mod_eq_of_lt hn]

/-- The chain that is asked for is the one that the client wrote, if it is one of 16 bits; of larger numbers only the lowest 16 bits
count. -/
theorem C105_chain (T : IntText) (n : Nat) (hn : n < 2 ^ 64) : decChain T (encWord n) = .ok (n % 2 ^ 16) := by
  unfold decChain
  rw [C105_word_cut T n hn]
  simp only [PRes.ok_bind]
  rw [Nat.mod_mod_of_dvd n (by decide)]

/-- Texts arrive as they were given. -/
theorem C105_text (T : IntText) (x : Bytes) (h : x.length < 2 ^ 62) : decText1 T (encText x) = .ok x := by
  unfold decText1 encText
  rw [decOne_encOne T .bytes (.bs x) trivial ?_]
  · rfl
  · rw [encOne_length]
    have := marshalBs_length_le 1 x
    omega

/-- The route a client asks for is the route the server looks up. -/
theorem C105_route (T : IntText) (p : Int) (i : Bytes) (hp : -2 ^ 31 ≤ p ∧ p < 2 ^ 31) (hi : i.length < 2 ^ 62) :
    decRoute T (encRoute p i) = .ok (p, i) := by
  obtain ⟨m, e, hm⟩ := unmarshal_marshal T routeSchema_wf (v := Fields.ofList [.num p, .bs i])
    (by
      intro e he
      simp only [routeSchema, List.mem_cons, List.not_mem_nil, or_false] at he
      rcases he with rfl | rfl
      · exact hp
      · trivial)
    (by
      show (marshalNum 1 p ++ (marshalField 2 (.bs i) ++ [])).length < _
      simp only [List.length_append, List.length_nil]
      have := marshalNum_length_le 1 p
      have := marshalBs_length_le 2 i
      omega)
  unfold decRoute encRoute
  rw [e]
  simp only [PRes.ok_bind]
  rw [show m 1 = .num p from hm (1, .i32) (by simp [routeSchema]),
    show m 2 = .bs i from hm (2, .bytes) (by simp [routeSchema])]
  rfl

/-- Non-vacuity: an account without a principal, the index of the demo chain and a route. -/
example : (Demo.start.index = 1000000000000 ∧ queryIndex Demo.start = 10 ^ 18) ∧ encAmount none = [10, 1, 48] ∧
    encWord 300 = [8, 172, 2] ∧ decWord decimal [8, 172, 2] = .ok 300 ∧ decChain decimal (encWord 65538) = .ok 2 ∧
    encFlag false = [] ∧ encFlag true = [8, 1] ∧ encEnum 3 = [8, 3] ∧ encText [] = [] ∧
    encRoute 1 [65, 66] = [8, 1, 18, 2, 65, 66] := by
  decide +kernel


end Dollar
