import Verif.Lemmas.BlindExec
import Verif.Spec.DemoExt

/-
C87: statistics, event log and outboxes never influence what happens.
C88: a message depends only on the settings that concern it.
-/
set_option maxRecDepth 100000
namespace Dollar
open MM Spec

/-- C87: take any two states that differ only in statistics (holder count, yield totals, vault statistics),
event log and outboxes.  Every message ends the same way in both, with the same error if it fails, and the
states after it again differ only in those records. -/
theorem C87_records_do_not_matter (c : Cfg) (env : Env) (m : Msg) {s t : State} (h : unrecorded s = unrecorded t) :
    outcome c env m s = outcome c env m t ∧ unrecorded (step c env m s) = unrecorded (step c env m t) := by
  have hr := agree_id.2 h
  obtain ⟨h1, h2⟩ := outcome_of_rel hr ((Same.exec_id c env m).rel s t hr)
  exact ⟨h1, agree_id.1 h2⟩

/-- C87 for histories: wrong statistics (they can be wrong, see C43) or a lost log never change a balance,
an amount owed or a setting, however long the chain runs. -/
theorem C87_histories (c : Cfg) (h : History) {s t : State} (he : unrecorded s = unrecorded t) :
    unrecorded (run c h s) = unrecorded (run c h t) := by
  induction h generalizing s t with
  | nil => exact he
  | cons e l ih => exact ih (C87_records_do_not_matter c e.1 e.2 he).2

namespace Demo

/-- Wrong counts, no log and no outboxes. -/
def forget (s : State) : State := { s with holders := 99, totalYield := 7, events := [], ibcOut := [], posted := [] }
theorem forget_unrecorded (s : State) : unrecorded s = unrecorded (forget s) := rfl

/-- Everything paused, no owner, no peers, an empty archive. -/
def shut (s : State) : State :=
  { s with
    paused := true, vPaused := 3, owner := "", portalPaused := true, peers := [], archive := [] }
theorem shut_send (a b : Addr) (x : Int) (s : State) : looksAt (.bankSend a b x) s = looksAt (.bankSend a b x) (shut s) :=
  rfl

end Demo

/-- Non-vacuity: a state with a wrong holder count, no log and no outboxes, in which an announcement pays
two Hyperlane routes and an IBC channel; the wrong counts stay wrong, the balances agree. -/
example :
    let s := run Demo.cfg Demo.histExt Demo.start
    unrecorded s = unrecorded (Demo.forget s) ∧ outcome Demo.cfg (Demo.env 8) (.deliver [3]) s = .done ∧
    outcome Demo.cfg (Demo.env 8) (.deliver [3]) (Demo.forget s) = .done ∧
    (step Demo.cfg (Demo.env 8) (.deliver [3]) (Demo.forget s)).totalYield ≠
      (step Demo.cfg (Demo.env 8) (.deliver [3]) s).totalYield ∧
    (step Demo.cfg (Demo.env 8) (.deliver [3]) (Demo.forget s)).bal = (step Demo.cfg (Demo.env 8) (.deliver [3]) s).bal ∧
    (step Demo.cfg (Demo.env 8) (.deliver [3]) (Demo.forget s)).bal ≠ s.bal :=
  ⟨Demo.forget_unrecorded _, by decide +kernel, by decide +kernel, by decide +kernel, by decide +kernel,
    by decide +kernel⟩

/-- C88: a message looks at the funds and only at the settings that concern it.  A claim looks at the
module's pause flag, locks and unlocks at the pause state of the vaults, deliveries at the portal's pause
flag, the peers and the archive of delivered messages, transfers at the portal's pause flag, the peers and
the bridging paths, the portal's administrative messages at its owner, everything else at none of them.  In
two states that agree on this, it ends the same way and does the same to the funds. -/
theorem C88_settings_that_matter (c : Cfg) (env : Env) (m : Msg) {s t : State} (h : looksAt m s = looksAt m t) :
    outcome c env m s = outcome c env m t ∧ funds (step c env m s) = funds (step c env m t) := by
  have hr := agree_read h
  obtain ⟨h1, h2⟩ := outcome_of_rel hr ((Same.exec_read c env m).rel s t hr)
  exact ⟨h1, h2.1⟩

/-- C88 for histories: as long as nobody claims, locks, unlocks or uses the portal, no setting plays any
role: sends, IBC and warp transfers go on as if nothing were paused. -/
theorem C88_histories (c : Cfg) (h : History) (hh : ∀ e ∈ h, ∀ s, looksAt e.2 s = funds s) {s t : State}
    (he : funds s = funds t) : funds (run c h s) = funds (run c h t) := by
  induction h generalizing s t with
  | nil => exact he
  | cons e l ih =>
    refine ih (fun x hx => hh x (.tail _ hx)) (C88_settings_that_matter c e.1 e.2 ?_).2
    rw [hh e (.head _), hh e (.head _), he]

/-- Non-vacuity: with everything paused, ownerless and without peers, a send and an IBC transfer do what they
did before, while a claim that succeeded now fails. -/
example :
    let s := run Demo.cfg Demo.hist2 Demo.start
    looksAt (.bankSend Demo.alice Demo.bob 5) s = looksAt (.bankSend Demo.alice Demo.bob 5) (Demo.shut s) ∧
    outcome Demo.cfg (Demo.env 9) (.bankSend Demo.alice Demo.bob 5) (Demo.shut s) = .done ∧
    outcome Demo.cfg (Demo.env 9) (.ibcTransfer Demo.alice "channel-0" "x" 5) (Demo.shut s) = .done ∧
    outcome Demo.cfg (Demo.env 9) (.claimYield Demo.aliceS) s = .done ∧
    outcome Demo.cfg (Demo.env 9) (.claimYield Demo.aliceS) (Demo.shut s) ≠ .done :=
  ⟨Demo.shut_send _ _ _ _, by decide +kernel, by decide +kernel, by decide +kernel, by decide +kernel⟩

end Dollar
