import Verif.Lemmas.Handlers2

/-
Names of vault accounts: collision freeness.
-/
namespace Dollar

/-- The account of the flexible position that user `a` opened at second `t`. -/
def flexAcct (c : Cfg) (a : Addr) (t : Int) : Addr :=
  c.modAddr ("dollar/vaults/flexible/" ++ c.encode a ++ "/" ++ toString t)

/-- The account that holds a position, by owner address. -/
def acctOf (c : Cfg) (a : Addr) (vault t : Int) : Addr :=
  if vault = FLEXIBLE then flexAcct c a t else c.stakedAddr

theorem slash_not_mem_toString (t : Int) : '/' ∉ (toString t).toList := by
  rw [Int.toString_eq_repr, Int.repr_eq_if]
  have hn : ∀ n : Nat, '/' ∉ n.repr.toList := by
    intro n h
    rw [Nat.toList_repr] at h
    have := Nat.isDigit_of_mem_toDigits (by decide) (by decide) h
    revert this
    decide
  split
  · exact hn _
  · rw [String.toList_append]
    intro h
    rcases List.mem_append.1 h with h | h
    · revert h; decide
    · exact hn _ h

theorem split_last {x y u v : List Char} (h : x ++ '/' :: u = y ++ '/' :: v) (hu : '/' ∉ u) (hv : '/' ∉ v) :
    x = y ∧ u = v := by
  induction x generalizing y with
  | nil =>
    cases y with
    | nil => exact ⟨rfl, (List.cons.inj h).2⟩
    | cons b y =>
      exfalso
      have := (List.cons.inj h).2
      exact hu (this ▸ List.mem_append_right _ List.mem_cons_self)
  | cons a x ih =>
    cases y with
    | nil =>
      exfalso
      have := (List.cons.inj h).2
      exact hv (this ▸ List.mem_append_right _ List.mem_cons_self)
    | cons b y =>
      obtain ⟨h1, h2⟩ := List.cons.inj h
      obtain ⟨h3, h4⟩ := ih h2
      exact ⟨by rw [h1, h3], h4⟩

theorem flexAcct_inj {c : Cfg} (hc : c.WF) {a b : Addr} {t u : Int}
    (h : flexAcct c a t = flexAcct c b u) : a = b ∧ t = u := by
  have h := congrArg String.toList (hc.mod_inj _ _ h)
  simp only [String.toList_append, List.append_assoc] at h
  have h := List.append_cancel_left h
  have e : ("/" : String).toList = ['/'] := by decide
  rw [e] at h
  obtain ⟨h1, h2⟩ := split_last h (slash_not_mem_toString t) (slash_not_mem_toString u)
  refine ⟨hc.encode_inj _ _ (String.toList_inj.1 h1), ?_⟩
  have h2 := String.toList_inj.1 h2
  rw [Int.toString_eq_repr, Int.toString_eq_repr] at h2
  exact Int.repr_injective h2

theorem flexAcct_ne {c : Cfg} (hc : c.WF) (a : Addr) (t : Int) {n : String}
    (hn : n.toList.take 23 ≠ "dollar/vaults/flexible/".toList) : flexAcct c a t ≠ c.modAddr n := by
  intro h
  have h := hc.mod_inj _ _ h
  apply hn
  rw [← h]
  simp only [String.toList_append, List.append_assoc]
  have : ("dollar/vaults/flexible/" : String).toList.length = 23 := by decide
  exact List.take_left' this

theorem flexAcct_ne_yield {c : Cfg} (hc : c.WF) (a : Addr) (t : Int) : flexAcct c a t ≠ c.yieldAddr :=
  flexAcct_ne hc a t (by decide)
theorem flexAcct_ne_module {c : Cfg} (hc : c.WF) (a : Addr) (t : Int) : flexAcct c a t ≠ c.moduleAddr :=
  flexAcct_ne hc a t (by decide)
theorem flexAcct_ne_staked {c : Cfg} (hc : c.WF) (a : Addr) (t : Int) : flexAcct c a t ≠ c.stakedAddr :=
  flexAcct_ne hc a t (by decide)
theorem flexAcct_ne_flexible {c : Cfg} (hc : c.WF) (a : Addr) (t : Int) :
    flexAcct c a t ≠ c.flexibleAddr := flexAcct_ne hc a t (by decide)
theorem flexAcct_ne_warp {c : Cfg} (hc : c.WF) (a : Addr) (t : Int) : flexAcct c a t ≠ c.warpAddr :=
  flexAcct_ne hc a t (by decide)

theorem posAddr_eq {c : Cfg} (hc : c.WF) {signer : String} {a : Addr} (h : c.decode signer = some a)
    (v t : Int) : posAddr c signer v t = acctOf c a v t := by
  unfold posAddr posAccountName acctOf flexAcct
  split
  · rw [hc.decode_lower _ _ h]
    have : ("dollar/vaults/" ++ "flexible" ++ "/" : String) = "dollar/vaults/flexible/" := by decide
    rw [this]
  · rfl

theorem acctOf_ne_yield {c : Cfg} (hc : c.WF) (a : Addr) (v t : Int) : acctOf c a v t ≠ c.yieldAddr := by
  unfold acctOf; split
  · exact flexAcct_ne_yield hc a t
  · exact hc.staked_ne_yield

theorem acctOf_ne_module {c : Cfg} (hc : c.WF) (a : Addr) (v t : Int) : acctOf c a v t ≠ c.moduleAddr := by
  unfold acctOf; split
  · exact flexAcct_ne_module hc a t
  · exact hc.staked_ne_module

theorem ownName_flex (x : String) : ownName ("dollar/vaults/flexible/" ++ x) :=
  .inr ⟨"/vaults/flexible/" ++ x, by rw [← String.append_assoc]; rfl⟩

theorem acctOf_mod (c : Cfg) (a : Addr) (v t : Int) : ∃ n, ownName n ∧ acctOf c a v t = c.modAddr n := by
  unfold acctOf; split
  · refine ⟨_, ?_, rfl⟩
    simp only [String.append_assoc]
    exact ownName_flex _
  · exact ⟨_, .inr ⟨"/vaults/staked", by rfl⟩, rfl⟩

namespace Cfg.IsUser
variable {c : Cfg} {a : Addr}
theorem ne_mod (h : c.IsUser a) {n : String} (hn : ownName n) : a ≠ c.modAddr n := h.1 n hn
theorem ne_yield (h : c.IsUser a) : a ≠ c.yieldAddr := h.1 _ (.inr ⟨"/yield", by rfl⟩)
theorem ne_module (h : c.IsUser a) : a ≠ c.moduleAddr := h.1 _ (.inr ⟨"", by rfl⟩)
theorem ne_staked (h : c.IsUser a) : a ≠ c.stakedAddr := h.1 _ (.inr ⟨"/vaults/staked", by rfl⟩)
theorem ne_flexible (h : c.IsUser a) : a ≠ c.flexibleAddr := h.1 _ (.inr ⟨"/vaults/flexible", by rfl⟩)
theorem ne_warp (h : c.IsUser a) : a ≠ c.warpAddr := h.1 _ (.inl rfl)
theorem ne_escrow (h : c.IsUser a) (ch : String) : a ≠ c.escrowAddr ch := h.2 _
theorem ne_acct (h : c.IsUser a) (b : Addr) (v t : Int) : a ≠ acctOf c b v t := by
  obtain ⟨n, ho, hn⟩ := acctOf_mod c b v t
  rw [hn]; exact h.1 _ ho
theorem ne_flexAcct (h : c.IsUser a) (b : Addr) (t : Int) : a ≠ flexAcct c b t := by
  have := h.ne_acct b FLEXIBLE t
  unfold acctOf at this
  rwa [if_pos rfl] at this
end Cfg.IsUser

end Dollar
