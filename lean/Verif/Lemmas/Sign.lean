import Verif.Model.Sign
import Verif.Lemmas.Events

/-
Sign documents: the fields of a message are determined by its JSON.
-/
namespace Dollar.Json

/-! ### One field -/

theorem lookup_one (n m : String) (j : J) : [(n, j)].lookup m = if m = n then some j else none := by
  rw [List.lookup_cons]
  by_cases hm : m = n
  · simp [hm]
  · rw [beq_eq_false_iff_ne.2 hm, if_neg hm]
    rfl

theorem lookup_sText (n m s : String) :
    (sText n s).lookup m = if m = n then (if s = "" then none else some (J.ofString s)) else none := by
  unfold sText
  by_cases hs : s = "" <;> by_cases hm : m = n <;> simp [hs, hm, lookup_one]

theorem lookup_sBytes (n m : String) (b : Bytes) :
    (sBytes n b).lookup m = if m = n then (if b = [] then none else some (J.ofBytes b)) else none := by
  unfold sBytes
  by_cases hs : b = [] <;> by_cases hm : m = n <;> simp [hs, hm, lookup_one]

theorem lookup_sNum (n m : String) (x : Int) :
    (sNum n x).lookup m = if m = n then (if x = 0 then none else some (J.ofNum x)) else none := by
  unfold sNum
  by_cases hs : x = 0 <;> by_cases hm : m = n <;> simp [hs, hm, lookup_one]

theorem lookup_sBool (n m : String) (b : Bool) :
    (sBool n b).lookup m = if m = n then (if b then some (J.bool true) else none) else none := by
  unfold sBool
  by_cases hs : b <;> by_cases hm : m = n <;> simp [hs, hm, lookup_one]

theorem lookup_sAmount (n m : String) (a : Option Int) :
    (sAmount n a).lookup m = if m = n then some (J.ofBig (a.getD 0)) else none := by
  unfold sAmount
  by_cases hm : m = n <;> simp [hm, lookup_one]

theorem optText_inj {s s' : String} :
    ((if s = "" then none else some (J.ofString s)) = if s' = "" then none else some (J.ofString s')) ↔ s = s' := by
  refine ⟨fun h => ?_, fun h => h ▸ rfl⟩
  by_cases h1 : s = "" <;> by_cases h2 : s' = "" <;> simp_all [ofString_inj]

theorem optBytes_inj {s s' : Bytes} :
    ((if s = [] then none else some (J.ofBytes s)) = if s' = [] then none else some (J.ofBytes s')) ↔ s = s' := by
  refine ⟨fun h => ?_, fun h => h ▸ rfl⟩
  by_cases h1 : s = [] <;> by_cases h2 : s' = [] <;> simp_all [ofBytes_inj]

theorem optNum_inj {s s' : Int} :
    ((if s = 0 then none else some (J.ofNum s)) = if s' = 0 then none else some (J.ofNum s')) ↔ s = s' := by
  refine ⟨fun h => ?_, fun h => h ▸ rfl⟩
  by_cases h1 : s = 0 <;> by_cases h2 : s' = 0 <;> simp_all [ofNum_inj]

theorem optBool_inj {s s' : Bool} :
    ((if s then some (J.bool true) else none) = if s' then some (J.bool true) else none) ↔ s = s' := by
  cases s <;> cases s' <;> simp

/-! ### A message -/

theorem sign_ok {relayer : String} {m : Msg} {x : String × List (String × J)} (h : signFields relayer m = some x) :
    (∀ f ∈ x.2, f.2.Ok) ∧ (x.2.map Prod.fst).Nodup := by
  have t1 : ∀ n s, ∀ f ∈ sText n s, f.2.Ok := by
    intro n s f hf
    unfold sText at hf
    split at hf
    · cases hf
    · cases List.mem_singleton.1 hf
      exact ok_str _
  have t2 : ∀ n s, ∀ f ∈ sBytes n s, f.2.Ok := by
    intro n s f hf
    unfold sBytes at hf
    split at hf
    · cases hf
    · cases List.mem_singleton.1 hf
      exact ok_str _
  have t3 : ∀ n s, ∀ f ∈ sNum n s, f.2.Ok := by
    intro n s f hf
    unfold sNum at hf
    split at hf
    · cases hf
    · cases List.mem_singleton.1 hf
      exact ok_ofNum _
  have t4 : ∀ n s, ∀ f ∈ sBool n s, f.2.Ok := by
    intro n s f hf
    unfold sBool at hf
    split at hf
    · cases List.mem_singleton.1 hf
      exact ok_bool _
    · cases hf
  have t5 : ∀ n s, ∀ f ∈ sAmount n s, f.2.Ok := by
    intro n s f hf
    unfold sAmount at hf
    cases List.mem_singleton.1 hf
    exact ok_str _
  constructor
  · cases m <;> cases h <;> intro f hf <;> simp only [List.mem_append] at hf
    all_goals
      first
      | exact t1 _ _ f hf
      | (rcases hf with hf | hf <;> first | exact t1 _ _ f hf | exact t2 _ _ f hf | exact t3 _ _ f hf | exact t4 _ _ f hf)
      | (rcases hf with (hf | hf) | hf <;>
          first | exact t1 _ _ f hf | exact t2 _ _ f hf | exact t3 _ _ f hf | exact t4 _ _ f hf | exact t5 _ _ f hf)
      | (rcases hf with ((hf | hf) | hf) | hf <;>
          first | exact t1 _ _ f hf | exact t2 _ _ f hf | exact t3 _ _ f hf | exact t4 _ _ f hf | exact t5 _ _ f hf)
      | (rcases hf with (((hf | hf) | hf) | hf) | hf <;>
          first | exact t1 _ _ f hf | exact t2 _ _ f hf | exact t3 _ _ f hf | exact t4 _ _ f hf | exact t5 _ _ f hf)
  · cases m <;> cases h <;> simp only [sText, sBytes, sNum, sBool, sAmount] <;> (repeat' split) <;> simp

/-- Read equations between fields off equations between objects. -/
macro "field_eqs" loc:Lean.Parser.Tactic.location : tactic =>
  `(tactic| simp only [List.lookup_append, lookup_sText, lookup_sBytes, lookup_sNum, lookup_sBool, lookup_sAmount,
    String.reduceEq, if_true, if_false, Option.none_or, Option.or_none, Option.some_or, optText_inj, optBytes_inj, optNum_inj,
    optBool_inj, Option.some.injEq, ofBig_inj] $loc)

/-- Two messages with the same name and the same fields. -/
theorem sign_same {relayer relayer' : String} {m m' : Msg} {k : String} {l l' : List (String × J)}
    (h : signFields relayer m = some (k, l)) (h' : signFields relayer' m' = some (k, l'))
    (hl : ∀ n, l.lookup n = l'.lookup n) :
    m = m' ∨ (∃ s v a a', (m = .lock s v a ∧ m' = .lock s v a' ∨ m = .unlock s v a ∧ m' = .unlock s v a') ∧ a.getD 0 = a'.getD 0) ∨
      ∃ s a a' ch t r, m = .transfer s a ch t r ∧ m' = .transfer s a' ch t r ∧ a.getD 0 = a'.getD 0 := by
  cases m <;> simp only [signFields, Option.some.injEq, Prod.mk.injEq, reduceCtorEq] at h <;> obtain ⟨rfl, rfl⟩ := h <;>
    cases m' <;> simp only [signFields, Option.some.injEq, Prod.mk.injEq, reduceCtorEq] at h' <;>
    obtain ⟨hk, rfl⟩ := h' <;> first | exact absurd hk (by decide) | skip
  case claimYield.claimYield s s' =>
    have h1 := hl "signer"
    field_eqs at h1
    subst h1
    exact .inl rfl
  case setPaused.setPaused s p s' p' =>
    have h1 := hl "signer"
    have h2 := hl "paused"
    field_eqs at h1 h2
    subst h1 h2
    exact .inl rfl
  case setYieldRecipient.setYieldRecipient s p i r s' p' i' r' =>
    have h1 := hl "signer"
    have h2 := hl "provider"
    have h3 := hl "identifier"
    have h4 := hl "recipient"
    field_eqs at h1 h2 h3 h4
    subst h1 h2 h3 h4
    exact .inl rfl
  case deliver.deliver v v' =>
    have h1 := hl "vaa"
    field_eqs at h1
    subst h1
    exact .inl rfl
  case transfer.transfer s a ch t r s' a' ch' t' r' =>
    have h1 := hl "signer"
    have h2 := hl "amount"
    have h3 := hl "destination_chain_id"
    have h4 := hl "destination_token"
    have h5 := hl "recipient"
    field_eqs at h1 h2 h3 h4 h5
    have h3 := Int.ofNat.inj h3
    subst h1 h3 h4 h5
    exact .inr (.inr ⟨_, _, _, _, _, _, rfl, rfl, h2⟩)
  case portalSetPaused.portalSetPaused s p s' p' =>
    have h1 := hl "signer"
    have h2 := hl "paused"
    field_eqs at h1 h2
    subst h1 h2
    exact .inl rfl
  case setPeer.setPeer s ch t m s' ch' t' m' =>
    have h1 := hl "signer"
    have h2 := hl "chain"
    have h3 := hl "transceiver"
    have h4 := hl "manager"
    field_eqs at h1 h2 h3 h4
    have h2 := Int.ofNat.inj h2
    subst h1 h2 h3 h4
    exact .inl rfl
  case setBridgingPath.setBridgingPath s ch t b s' ch' t' b' =>
    have h1 := hl "signer"
    have h2 := hl "destination_chain_id"
    have h3 := hl "destination_token"
    have h4 := hl "supported"
    field_eqs at h1 h2 h3 h4
    have h2 := Int.ofNat.inj h2
    subst h1 h2 h3 h4
    exact .inl rfl
  case transferOwnership.transferOwnership s o s' o' =>
    have h1 := hl "signer"
    have h2 := hl "new_owner"
    field_eqs at h1 h2
    subst h1 h2
    exact .inl rfl
  case lock.lock s v a s' v' a' =>
    have h1 := hl "signer"
    have h2 := hl "vault"
    have h3 := hl "amount"
    field_eqs at h1 h2 h3
    subst h1 h2
    exact .inr (.inl ⟨_, _, _, _, .inl ⟨rfl, rfl⟩, h3⟩)
  case unlock.unlock s v a s' v' a' =>
    have h1 := hl "signer"
    have h2 := hl "vault"
    have h3 := hl "amount"
    field_eqs at h1 h2 h3
    subst h1 h2
    exact .inr (.inl ⟨_, _, _, _, .inr ⟨rfl, rfl⟩, h3⟩)
  case vaultsSetPaused.vaultsSetPaused s p s' p' =>
    have h1 := hl "signer"
    have h2 := hl "paused"
    field_eqs at h1 h2
    subst h1 h2
    exact .inl rfl

end Dollar.Json
