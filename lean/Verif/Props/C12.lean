import Verif.Lemmas.Settings
import Verif.Spec.Views
import Verif.Spec.Demo

/-
C12: a VAA is applied at most once.
-/
set_option maxRecDepth 100000
namespace Dollar
open Spec MM

namespace Spec
/-- Digests of the VAAs successfully delivered along a history, in order. -/
def deliveredDigests (c : Cfg) : History → State → List Bytes
  | [], _ => []
  | (env, m) :: t, s =>
    (match m, exec c env m s with
      | .deliver vaa, .ok _ _ => match env.verify vaa with
        | some v => [v.digest]
        | none => []
      | _, _ => []) ++ deliveredDigests c t (step c env m s)
end Spec

theorem step_of_ok {c : Cfg} {env : Env} {m : Msg} {s s' : State} (h : exec c env m s = .ok () s') :
    step c env m s = s' := by unfold step runTx; rw [h]

/-- The archive only grows. -/
theorem archive_mono (c : Cfg) (env : Env) (m : Msg) (s : State) {d : Bytes} (h : d ∈ s.archive) :
    d ∈ (step c env m s).archive := by
  rcases step_cases c env m s with e | e
  · rw [e]; exact h
  · rcases archive_step e with ⟨e, _⟩ | ⟨_, _, _, _, _, e⟩
    · rw [e]; exact h
    · rw [e]; exact List.mem_append_left _ h

theorem archive_run_mono (c : Cfg) (h : History) (s : State) {d : Bytes} (hd : d ∈ s.archive) :
    d ∈ (run c h s).archive := by
  induction h generalizing s with
  | nil => exact hd
  | cons e t ih => exact ih _ (archive_mono c e.1 e.2 s hd)

/-- After a successful delivery no later delivery of a VAA with the same digest succeeds, whatever
happens in between. -/
theorem C12_no_second_delivery (c : Cfg) (env env' : Env) (vaa vaa' : Bytes) (h : History)
    (s s1 s2 : State) (v v' : VAA) (h1 : exec c env (.deliver vaa) s = .ok () s1)
    (hv : env.verify vaa = some v) (hv' : env'.verify vaa' = some v')
    (h2 : exec c env' (.deliver vaa') (run c h s1) = .ok () s2) : v'.digest ≠ v.digest := by
  rcases archive_step h1 with ⟨_, n⟩ | ⟨w, v0, e, hw, _, ha⟩
  · exact absurd rfl (n vaa)
  cases e
  rw [hv] at hw; cases hw
  rcases archive_step h2 with ⟨_, n⟩ | ⟨w, v0, e, hw, hn, _⟩
  · exact absurd rfl (n vaa')
  cases e
  rw [hv'] at hw; cases hw
  intro e
  apply hn
  rw [e]
  exact archive_run_mono c h s1 (by rw [ha]; simp)

theorem deliveredDigests_not_mem (c : Cfg) (h : History) (s : State) (d : Bytes) (hd : d ∈ s.archive) :
    d ∉ deliveredDigests c h s := by
  induction h generalizing s with
  | nil => exact List.not_mem_nil
  | cons e t ih =>
    obtain ⟨env, m⟩ := e
    unfold deliveredDigests
    rw [List.mem_append]
    rintro (hm | hm)
    · cases m <;> first | (exact List.not_mem_nil hm) | skip
      rename_i vaa
      cases hx : exec c env (.deliver vaa) s with
      | err e s' => simp [hx] at hm
      | panic => simp [hx] at hm
      | ok u s' =>
        rcases archive_step hx with ⟨_, n⟩ | ⟨w, v0, e, hw, hn, ha⟩
        · exact absurd rfl (n vaa)
        cases e
        simp [hx, hw] at hm
        exact hn (hm ▸ hd)
    · exact ih _ (archive_mono c env m s hd) hm

/-- Along every history, from any state, the digests of successfully delivered VAAs are pairwise
different. -/
theorem C12_delivered_once (c : Cfg) (h : History) (s : State) : (deliveredDigests c h s).Nodup := by
  induction h generalizing s with
  | nil => exact List.nodup_nil
  | cons e t ih =>
    obtain ⟨env, m⟩ := e
    unfold deliveredDigests
    cases m <;> first | (exact ih _) | skip
    rename_i vaa
    cases hx : exec c env (.deliver vaa) s with
    | err e s' => simpa [hx] using ih _
    | panic => simpa [hx] using ih _
    | ok u s' =>
      rcases archive_step hx with ⟨_, n⟩ | ⟨w, v0, e, hw, hn, ha⟩
      · exact absurd rfl (n vaa)
      cases e
      simp only [hw, List.singleton_append, List.nodup_cons]
      refine ⟨deliveredDigests_not_mem c t _ _ ?_, ih _⟩
      rw [step_of_ok hx, ha]; simp

/-- A delivery of an archived VAA fails and changes nothing. -/
theorem C12_replay_fails (c : Cfg) (env : Env) (vaa : Bytes) (v : VAA) (s : State)
    (hv : env.verify vaa = some v) (h : v.digest ∈ s.archive) : step c env (.deliver vaa) s = s := by
  rcases step_cases c env (.deliver vaa) s with e | e
  · exact e
  · exfalso
    rcases archive_step e with ⟨_, n⟩ | ⟨w, v0, e, hw, hn, _⟩
    · exact n vaa rfl
    · cases e; rw [hv] at hw; cases hw; exact hn h

-- Four VAAs are delivered in the demo history; delivering the first again changes nothing.
example : deliveredDigests Demo.cfg Demo.hist2 Demo.start = [[1], [2], [3], [4]] ∧
    step Demo.cfg (Demo.env 20) (.deliver [1]) (run Demo.cfg Demo.hist2 Demo.start) =
      run Demo.cfg Demo.hist2 Demo.start := by
  decide +kernel

end Dollar
