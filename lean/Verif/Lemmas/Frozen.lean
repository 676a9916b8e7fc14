import Verif.Lemmas.Share
import Verif.Lemmas.Settings

/-
Once the season flag is set, no message touches the books of season one.
-/
set_option linter.unusedSimpArgs false

namespace Dollar
open MM Spec

/-- The books of season one are the same in both states, and the flag is set in both. -/
structure Frozen (s s' : State) : Prop where
  positions : ∀ key : PKey, key.2.1 = FLEXIBLE → s'.positions.get? key = s.positions.get? key
  rewards : s'.rewards = s.rewards
  total : s'.totalFlexible = s.totalFlexible

theorem Frozen.refl (s : State) : Frozen s s := ⟨fun _ _ => rfl, rfl, rfl⟩

theorem Frozen.trans {s m s' : State} (h : Frozen s m) (h' : Frozen m s') : Frozen s s' :=
  ⟨fun k hk => (h'.positions k hk).trans (h.positions k hk), h'.rewards.trans h.rewards, h'.total.trans h.total⟩

theorem Frozen.of_eq {s s' : State} (e1 : s'.positions = s.positions) (e2 : s'.rewards = s.rewards)
    (e3 : s'.totalFlexible = s.totalFlexible) : Frozen s s' := ⟨fun _ _ => by rw [e1], e2, e3⟩

/-- No message sets the season flag. -/
theorem season_step {c : Cfg} (env : Env) (m : Msg) (s : State) :
    (step c env m s).seasonOneEnded = s.seasonOneEnded := by
  rcases step_cases c env m s with h | h
  · rw [h]
  · cases settings_step h <;> next e => exact (congrArg Settings.seasonOneEnded e :)

theorem OneOk.frozen {c : Cfg} {signer : String} {a : Addr} {v : Int} {p : PosEntry} {amt : Int} {s s' : State}
    (hv : v ≠ FLEXIBLE) (hpv : p.vault = v) (h : OneOk c signer a v p amt s s') : Frozen s s' := by
  cases h with
  | staked m _ _ hm e =>
    subst e
    refine ⟨fun key hk => ?_, hm.rewards, hm.totalFlexible⟩
    show (posUpd m.positions p amt _).get? key = _
    rw [get?_posUpd_ne, hm.positions]
    rintro rfl
    exact hv (hpv ▸ hk)
  | flexible _ _ _ _ _ hv' => exact absurd hv' hv

theorem LoopOk.frozen {c : Cfg} {signer : String} {a : Addr} {v : Int} {l : List PosEntry}
    {rem removed rem' removed' : Int} {s s' : State} (hv : v ≠ FLEXIBLE) (hl : ∀ p ∈ l, p.vault = v)
    (h : LoopOk c signer a v l rem removed s rem' removed' s') : Frozen s s' := by
  induction h with
  | nil => exact .refl _
  | stop => exact .refl _
  | step q t rem removed s m rem' removed' s' _ _ h1 _ ih =>
    exact (h1.frozen hv (hl q List.mem_cons_self)).trans (ih fun p hp => hl p (List.mem_cons_of_mem _ hp))

theorem UI.frozen {c : Cfg} {s s' : State} {i : Int} (hs : s.seasonOneEnded = true) (hu : UI c s i s') :
    Frozen s s' := by
  refine .of_eq hu.positions ?_ hu.totalFlexible
  rcases hu.rewards with hr | ⟨h, _⟩
  · exact hr
  · rw [hs] at h; cases h

theorem frozen_deliver {c : Cfg} (hc : c.WF) {env : Env} {vaa : Bytes} {s s' : State} (hl : Led c s)
    (hs : s.seasonOneEnded = true) (h : deliver c env vaa s = .ok () s') : Frozen s s' := by
  obtain ⟨v, sA, _, _, rfl, hA, _, hd⟩ := deliver_did hc hl h
  generalize content env vaa = q at hd
  have h0 : Frozen s { s with archive := s.archive ++ [v.digest] } := .of_eq rfl rfl rfl
  cases hd with
  | ignored _ _ _ _ _ _ _ _ e =>
    exact .of_eq (congrArg State.positions e :) (congrArg State.rewards e :) (congrArg State.totalFlexible e :)
  | token amount i rcp s1 _ hu hm =>
    have h1 := UI.frozen (show State.seasonOneEnded { s with archive := s.archive ++ [v.digest] } = true from hs) hu
    have h2 : Frozen s1 s' := .of_eq hm.moved.positions hm.moved.rewards hm.moved.totalFlexible
    exact h0.trans (h1.trans h2)
  | index i m _ e hu _ =>
    have h1 := UI.frozen (show State.seasonOneEnded { s with archive := s.archive ++ [v.digest] } = true from hs) hu
    have h2 : Frozen m s' :=
      .of_eq (congrArg State.positions e :) (congrArg State.rewards e :) (congrArg State.totalFlexible e :)
    exact h0.trans (h1.trans h2)

theorem Frozen.step {c : Cfg} (hc : c.WF) {env : Env} {msg : Msg} {s : State} (hl : Led c s)
    (hs : s.seasonOneEnded = true) : Frozen s (Dollar.step c env msg s) := by
  rcases step_cases c env msg s with h | h
  · rw [h]; exact .refl _
  generalize Dollar.step c env msg s = s' at h
  have core : vaultF s' = vaultF s → Frozen s s' := fun h3 =>
    .of_eq (congrArg (fun x => x.1) h3) (congrArg (fun x => x.2.2.1) h3) (congrArg (fun x => x.2.1) h3)
  by_cases ho : msg.noOther = true
  · exact core (congrArg Prod.fst ((Other.msg c env msg ho).ok h) :)
  have ho : msg.noOther = false := by simpa using ho
  cases msg with
  | lock signer v amt? =>
    obtain ⟨amt, a, _, hkk⟩ := lock_ok (show lock c env signer v amt? s = .ok () s' from h)
    have hv : v ≠ FLEXIBLE := fun e => hkk.season ⟨e, hs⟩
    obtain ⟨m, hmv, rfl⟩ := hkk.run
    refine ⟨fun key hk => ?_, hmv.rewards, ?_⟩
    · show (m.positions.set _ _).get? key = _
      rw [KV.get?_set_ne, hmv.positions]
      rintro rfl
      exact hv hk
    · unfold lockedState
      dsimp only
      rw [if_neg hv]
      exact hmv.totalFlexible
  | unlock signer v amt? =>
    obtain ⟨hse, _, amt, a, _, hkk⟩ := unlock_ok (show unlock c signer v amt? s = .ok () s' from h)
    have hv : v ≠ FLEXIBLE := fun e => hse ⟨e, hs⟩
    obtain ⟨m, removed, hlp, rfl⟩ := hkk.run
    exact (hlp.frozen hv fun p hp => (positionsOf_mem hp).2).trans (.of_eq rfl rfl rfl)
  | deliver vaa => exact frozen_deliver hc hl hs h
  | _ =>
    first
    | exact core ((VaultF.route c env _ ho rfl nofun nofun).ok h)
    | exact Bool.noConfusion ho

end Dollar
