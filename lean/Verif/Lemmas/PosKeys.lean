import Verif.Lemmas.RangeVault
import Verif.Lemmas.Settings
import Verif.Lemmas.Local
import Verif.Lemmas.Ledger

/-
The keys of the vault stores: positions are stored under the address and time of a lock, reward records
under an index.
-/
namespace Dollar
open Spec MM

/-- Every position key satisfies `A`, every reward record is stored under a positive index. -/
structure Placed (A : PKey → Prop) (s : State) : Prop where
  pos : ∀ e ∈ s.positions, A e.1
  rew : ∀ e ∈ s.rewards, 0 < e.1

namespace Placed
variable {A : PKey → Prop} {c : Cfg}

theorem congr {s s' : State} (h : Placed A s) (e1 : s'.positions = s.positions) (e2 : s'.rewards = s.rewards) :
    Placed A s' := ⟨e1 ▸ h.pos, e2 ▸ h.rew⟩

theorem upd {s : State} (h : Placed A s) {p : PosEntry} (hp : A p.key) (amt pr : Int) :
    ∀ e ∈ posUpd s.positions p amt pr, A e.1 := by
  unfold posUpd
  split
  · exact fun e he => h.pos e (KV.mem_erase.1 he).1
  · intro e he
    rcases KV.mem_set he with rfl | he
    · exact hp
    · exact h.pos e he

theorem one {signer : String} {a : Addr} {v : Int} {p : PosEntry} {amt : Int} {s s' : State} (h : Placed A s)
    (hp : A p.key) (h1 : OneOk c signer a v p amt s s') : Placed A s' := by
  cases h1 with
  | staked m _ _ hm e =>
    subst e
    have := (h.congr hm.positions hm.rewards)
    exact ⟨this.upd hp _ _, this.rew⟩
  | flexible s1 m3 m4 owed y _ hr _ hm3 _ hm4 e =>
    subst e
    have h1 : Placed A s1 := by
      rcases hr.run with ⟨_, _, rfl⟩ | ⟨_, _, _, m, hm, rfl⟩
      · exact h.congr rfl rfl
      · refine ⟨?_, ?_⟩
        · show ∀ e ∈ m.positions, _
          rw [hm.positions]; exact h.pos
        · show ∀ e ∈ m.rewards, _
          rw [hm.rewards]
          intro e he
          unfold rewardsAfter at he
          obtain ⟨x, hx, rfl⟩ := List.mem_map.1 he
          exact h.rew x hx
    have h4 : Placed A m4 := (h1.congr (s' := m3) hm3.positions hm3.rewards).congr hm4.positions hm4.rewards
    exact ⟨h4.upd hp _ _, h4.rew⟩

theorem loop {signer : String} {a : Addr} {v : Int} {l : List PosEntry} {rem removed rem' removed' : Int}
    {s s' : State} (h : Placed A s) (hl : ∀ p ∈ l, A p.key)
    (h1 : LoopOk c signer a v l rem removed s rem' removed' s') : Placed A s' := by
  induction h1 with
  | nil => exact h
  | stop => exact h
  | step p t rem removed s m rem' removed' s' _ _ h1 _ ih =>
    exact ih (h.one (hl p List.mem_cons_self) h1) fun q hq => hl q (List.mem_cons_of_mem _ hq)

theorem ui {s s' : State} {i : Int} (h : Placed A s) (h0 : 0 < s.index) (hu : UI c s i s') : Placed A s' := by
  refine ⟨by rw [hu.positions]; exact h.pos, ?_⟩
  rcases hu.rewards with hr | ⟨_, _, hlt, r, _, hr, _⟩
  · rw [hr]; exact h.rew
  · rw [hr]
    intro x hx
    rcases KV.mem_set hx with rfl | hx
    · show 0 < i
      omega
    · exact h.rew x hx

end Placed

theorem exec_placed {A : PKey → Prop} {c : Cfg} (hc : c.WF) {env : Env} {msg : Msg} {s s' : State}
    (hr : Reachable c s) (hA : ∀ signer v amt? a, msg = .lock signer v amt? → c.decode signer = some a → A (a, v, env.time))
    (hp : Placed A s) (h : exec c env msg s = .ok () s') : Placed A s' := by
  have hl := hr.led hc
  have core : vaultF s' = vaultF s → Placed A s' := by
    intro h3
    simp only [vaultF, Prod.mk.injEq] at h3
    exact hp.congr h3.1 h3.2.2.1
  by_cases ho : msg.noOther = true
  · exact core (congrArg Prod.fst ((Other.msg c env msg ho).ok h) :)
  have ho : msg.noOther = false := by simpa using ho
  cases msg with
  | lock signer v amt? =>
    obtain ⟨amt, a, _, hk⟩ := lock_ok (show lock c env signer v amt? s = .ok () s' from h)
    obtain ⟨m, hm, rfl⟩ := hk.run
    refine ⟨?_, ?_⟩
    · intro e he
      rcases KV.mem_set he with rfl | he
      · exact hA _ _ _ _ rfl hk.dec
      · rw [hm.positions] at he; exact hp.pos e he
    · rw [show (lockedState m signer a v amt env.time).rewards = s.rewards from hm.rewards]; exact hp.rew
  | unlock signer v amt? =>
    obtain ⟨_, _, amt, a, _, hk⟩ := unlock_ok (show unlock c signer v amt? s = .ok () s' from h)
    obtain ⟨m, removed, hlp, rfl⟩ := hk.run
    have hv := (hr.vinv hc).toV0
    have := hp.loop (A := A) (fun p hm => hp.pos _ (KV.mem_of_get? ((pending_positionsOf hv a v).stored p hm))) hlp
    exact this.congr rfl rfl
  | deliver vaa =>
    obtain ⟨w, sA, _, _, rfl, hA, _, hd⟩ := deliver_did hc hl h
    have hpA : Placed A { s with archive := s.archive ++ [w.digest] } := hp.congr rfl rfl
    generalize content env vaa = q at hd
    cases hd with
    | ignored _ _ _ _ _ _ _ _ e => exact hp.congr (congrArg State.positions e :) (congrArg State.rewards e :)
    | token amount i rcp s1 _ hu hm =>
      exact (hpA.ui hl.good.index hu).congr hm.moved.positions hm.moved.rewards
    | index i m _ e hu _ =>
      exact (hpA.ui hl.good.index hu).congr (congrArg State.positions e :) (congrArg State.rewards e :)
  | _ =>
    first
    | exact core ((VaultF.route c env _ ho rfl nofun nofun).ok h)
    | exact Bool.noConfusion ho

/-- Positions belong to addresses that some text decodes to. -/
theorem Reachable.owners {c : Cfg} (hc : c.WF) {s : State} (h : Reachable c s) :
    ∀ e ∈ s.positions, ∃ x, c.decode x = some e.1.1 := by
  have := Reachable.induct (P := fun s => Reachable c s ∧ Placed (fun k => ∃ x, c.decode x = some k.1) s)
    (fun s hi => ⟨.fresh hi, by rw [hi.positions]; exact nofun, by rw [hi.rewards]; exact nofun⟩)
    (fun s env m hp hm => ⟨hp.1.step hm, by
      rcases step_cases c env m s with q | q
      · rw [q]; exact hp.2
      · exact exec_placed hc hp.1 (fun x _ _ a _ hd => ⟨x, hd⟩) hp.2 q⟩)
    (fun s s' hp hu => ⟨hp.1.upgrade hu, by
      obtain ⟨_, _, _, _, _, _, _, _, _, rfl⟩ := hu.rest
      exact hp.2.congr rfl rfl⟩) h
  exact this.2.pos

end Dollar
