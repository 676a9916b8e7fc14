import Verif.Spec.Demo

/-
A concrete history with two Hyperlane routes.  Used only to show that hypotheses are met and as
counterexample.
-/
namespace Dollar.Demo
open Dollar

/-- The authority has no account in the demo chain. -/
theorem authority_user : ∀ a, cfg.decode "authority" = some a → cfg.IsUser a := by
  intro a h
  have : cfg.decode "authority" = none := by decide
  rw [this] at h; cases h

/-- Two warp tokens with recipients "R" and "S", 2 USDN and 1 USDN collateral. -/
def histExt : History :=
  [(env 1, .deliver [1]), (env 2, .warpCreate 65), (env 3, .warpCreate 66),
   (env 4, .setYieldRecipient "authority" 1 "A" "R"), (env 5, .setYieldRecipient "authority" 1 "B" "S"),
   (env 6, .warpTransfer alice 65 7 [1] 2000000), (env 7, .warpTransfer alice 66 7 [1] 1000000)]

/-- The index announcement arrives while warp transfers fail. -/
def histExtFailed : History := histExt ++ [({ env 8 with warp := fun _ => .failEarly }, .deliver [3])]

theorem hist3_signed : History.Signed cfg histExt := by
  intro e he
  simp only [histExt, List.mem_cons, List.not_mem_nil, or_false] at he
  rcases he with rfl | rfl | rfl | rfl | rfl | rfl | rfl
  · trivial
  · trivial
  · trivial
  · trivial
  · trivial
  · exact alice_user
  · exact alice_user

theorem hist3Failed_signed : History.Signed cfg histExtFailed := by
  intro e he
  rcases List.mem_append.1 he with he | he
  · exact hist3_signed e he
  · cases List.mem_singleton.1 he; trivial

theorem reachExt : Reachable cfg (run cfg histExt start) := .of_run start_initial hist3_signed
theorem reachExtFailed : Reachable cfg (run cfg histExtFailed start) :=
  .of_run start_initial hist3Failed_signed

end Dollar.Demo
