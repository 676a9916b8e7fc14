import Verif.Lemmas.Vault

/-
Components of the vault statistics after an update.
-/
namespace Dollar

theorem vAddP_flexPrincipal (v d : Int) (st : VStats) :
    (vAddP v d st).flexPrincipal = st.flexPrincipal + (if v = FLEXIBLE then d else 0) := by
  unfold vAddP STAKED FLEXIBLE
  split
  · next h => simp [h]
  · split <;> simp

theorem vAddP_stakedPrincipal (v d : Int) (st : VStats) :
    (vAddP v d st).stakedPrincipal = st.stakedPrincipal + (if v = STAKED then d else 0) := by
  unfold vAddP STAKED FLEXIBLE
  split
  · next h => simp
  · split <;> simp

theorem vAddP_flexUsers (v d : Int) (st : VStats) : (vAddP v d st).flexUsers = st.flexUsers := by
  unfold vAddP
  split
  · rfl
  · split <;> rfl

theorem vAddP_stakedUsers (v d : Int) (st : VStats) : (vAddP v d st).stakedUsers = st.stakedUsers := by
  unfold vAddP
  split
  · rfl
  · split <;> rfl

theorem vAddP_flexDistributed (v d : Int) (st : VStats) :
    (vAddP v d st).flexDistributed = st.flexDistributed := by
  unfold vAddP
  split
  · rfl
  · split <;> rfl

theorem vUsers_flexPrincipal (v : Int) (f : Nat → Nat) (st : VStats) :
    (vUsers v f st).flexPrincipal = st.flexPrincipal := by
  unfold vUsers
  split
  · rfl
  · split <;> rfl

theorem vUsers_stakedPrincipal (v : Int) (f : Nat → Nat) (st : VStats) :
    (vUsers v f st).stakedPrincipal = st.stakedPrincipal := by
  unfold vUsers
  split
  · rfl
  · split <;> rfl

theorem vUsers_flexDistributed (v : Int) (f : Nat → Nat) (st : VStats) :
    (vUsers v f st).flexDistributed = st.flexDistributed := by
  unfold vUsers
  split
  · rfl
  · split <;> rfl

theorem vUsers_flexUsers (v : Int) (f : Nat → Nat) (st : VStats) :
    (vUsers v f st).flexUsers = if v = FLEXIBLE then f st.flexUsers else st.flexUsers := by
  unfold vUsers STAKED FLEXIBLE
  split
  · next h => simp [h]
  · split <;> rfl

theorem vUsers_stakedUsers (v : Int) (f : Nat → Nat) (st : VStats) :
    (vUsers v f st).stakedUsers = if v = STAKED then f st.stakedUsers else st.stakedUsers := by
  unfold vUsers STAKED FLEXIBLE
  split
  · rfl
  · split <;> rfl

/-- The principal statistics do not depend on the user count. -/
theorem vPrincipals (p : Prop) [Decidable p] (v d : Int) (f : Nat → Nat) (st : VStats) :
    (vAddP v d (if p then vUsers v f st else st)).flexPrincipal =
        st.flexPrincipal + (if v = FLEXIBLE then d else 0) ∧
      (vAddP v d (if p then vUsers v f st else st)).stakedPrincipal =
        st.stakedPrincipal + (if v = STAKED then d else 0) ∧
      (vAddP v d (if p then vUsers v f st else st)).flexDistributed = st.flexDistributed := by
  rw [vAddP_flexPrincipal, vAddP_stakedPrincipal, vAddP_flexDistributed]
  split
  · exact ⟨by rw [vUsers_flexPrincipal], by rw [vUsers_stakedPrincipal], vUsers_flexDistributed _ _ _⟩
  · exact ⟨rfl, rfl, rfl⟩

end Dollar
