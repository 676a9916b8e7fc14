import Verif.Props.C35

/-
C36: a failed index update never loses Hyperlane retry amounts.  This is false: see
`C36_retry_lost`.  `C36_kept_partial` and `C36_index_kept` state when the amounts are kept.
-/
set_option maxRecDepth 100000
set_option linter.unusedSimpArgs false
namespace Dollar
open MM Spec

/-- The retry amount of a Hyperlane identifier is accounted for: still recorded, or part of a
message that was dispatched for its token. -/
def Spec.RetryKept (c : Cfg) (s s' : State) (id : String) : Prop :=
  s.retryOf 1 id ≤ s'.retryOf 1 id ∨
    ∃ w ∈ dispatched s s', tokenOf c id = some w.tokenId ∧ s.retryOf 1 id ≤ w.amount

/-- The full claim: whatever a delivery does, no retry amount disappears. -/
def Spec.NeverLost : Prop :=
  ∀ (c : Cfg), c.WF → ∀ (env : Env) (vaa : Bytes) (s s' : State), Reachable c s →
    exec c env (.deliver vaa) s = .ok () s' → ∀ id, RetryKept c s s' id

theorem exec_of_isOk {c : Cfg} {env : Env} {m : Msg} {s : State} (h : (exec c env m s).isOk = true) :
    exec c env m s = .ok () (step c env m s) := by
  unfold step runTx
  cases hr : exec c env m s with
  | ok u s' => simp only [hr]
  | err e s' => rw [hr] at h; cases h
  | panic => rw [hr] at h; cases h

/-- The claim is false: a token delivery that announces a higher index while a route has no router
succeeds and drops the retry amount of that route. -/
theorem C36_retry_lost : ¬ NeverLost := by
  intro h
  have hk := h Demo.cfg Demo.cfg_wf { Demo.env 9 with routers := fun _ => [] } [4]
    (run Demo.cfg Demo.histExtFailed Demo.start)
    (step Demo.cfg { Demo.env 9 with routers := fun _ => [] } (.deliver [4])
        (run Demo.cfg Demo.histExtFailed Demo.start)) Demo.reachExtFailed
    (exec_of_isOk (by decide +kernel)) "A"
  have e1 : (run Demo.cfg Demo.histExtFailed Demo.start).retryOf 1 "A" = 199999 := by decide +kernel
  have e2 : (step Demo.cfg { Demo.env 9 with routers := fun _ => [] } (.deliver [4])
        (run Demo.cfg Demo.histExtFailed Demo.start)).retryOf 1 "A" = 0 := by decide +kernel
  have e3 : dispatched (run Demo.cfg Demo.histExtFailed Demo.start) (step Demo.cfg
        { Demo.env 9 with routers := fun _ => [] } (.deliver [4])
        (run Demo.cfg Demo.histExtFailed Demo.start)) = [] := by decide +kernel
  rcases hk with hk | ⟨w, hw, _⟩
  · rw [e1, e2] at hk; exact absurd hk (by decide)
  · rw [e3] at hw; cases hw

/-! ### When the amounts are kept -/

theorem HypRounds.kept {c : Cfg} {env : Env} {recips : KV String String} {total y : Int}
    {done lost : List Route} {m m' : State} (h : HypRounds c env recips total y done lost m m')
    (hp : ∀ r ∈ done, 0 ≤ yieldPortion r.collateral total y)
    (ht : ∀ r ∈ done, tokenOf c r.identifier = some r.tokenId) {id : String}
    (hn : id ∉ lost.map Route.identifier) : RetryKept c m m' id := by
  by_cases hd : id ∈ done.map Route.identifier
  · obtain ⟨r, hr, rfl⟩ := List.mem_map.1 hd
    have h1 := h.retry r hr
    have h2 := hp r hr
    have h3 : hypDue total y m r = yieldPortion r.collateral total y + m.retryOf 1 r.identifier := rfl
    have h1 : m'.retryOf 1 r.identifier = _ := h1
    by_cases hg : hypGoes c env total y m r
    · right
      refine ⟨hypMsg c env recips total y m r, ?_, ht r hr, ?_⟩
      · rw [dispatched_append h.out, List.mem_flatMap]
        exact ⟨r, hr, by rw [if_pos hg]; exact List.mem_singleton.2 rfl⟩
      · show _ ≤ hypDue total y m r
        omega
    · rw [if_neg hg] at h1
      left; omega
  · left
    refine le_of_eq (h.other 1 id (.inr ?_)).symm
    rw [List.map_append, List.mem_append]
    exact not_or.2 ⟨hd, hn⟩

theorem Spec.RetryKept.congr {c : Cfg} {s s' m m' : State} {id : String} (h : RetryKept c m m' id)
    (h1 : m.retryOf 1 id = s.retryOf 1 id) (h2 : m'.retryOf 1 id = s'.retryOf 1 id)
    (h3 : m.warpOut = s.warpOut) (h4 : m'.warpOut = s'.warpOut) : RetryKept c s s' id := by
  unfold RetryKept dispatched at *
  rw [← h1, ← h2, ← h3, ← h4]; exact h

theorem HypDone.kept {c : Cfg} {env : Env} {m m' : State} (hg : Good c m) (h : HypDone c env m m')
    (id : String) : RetryKept c m m' id := by
  obtain ⟨m1, hm, hrest⟩ := h
  have e1 : m1.retryOf 1 id = m.retryOf 1 id := hm.hyp.2.1 id
  obtain ⟨_, rfl⟩ | ⟨hy, rs, hrs, ⟨_, rfl⟩ | ⟨ht, hr⟩⟩ := hrest
  · exact .inl (le_of_eq e1.symm)
  · exact .inl (le_of_eq e1.symm)
  · refine (hr.kept (fun r hx => ?_) (fun r hx => hrs.token hx) (by simp)).congr e1 rfl hm.warpOut rfl
    obtain ⟨h1, _⟩ := hrs.2 r hx
    exact yieldPortion_nonneg (hg.col _ (KV.mem_of_get? h1)) ht hy.le

/-- A failed round drops the retry amount of at most one identifier, and that one cannot be
delivered to. -/
theorem HypFailed.kept {c : Cfg} {env : Env} {m m' : State} (hg : Good c m) (hs : m.recipients.Sorted)
    (h : HypFailed c env m m') :
    ∃ bad, ∀ id, id ≠ bad ∨ Deliverable c env m id → RetryKept c m m' id := by
  obtain rfl | ⟨m1, hm, rfl | ⟨hy, rs, d, r, rest, hrs, hsplit, ht, hr⟩⟩ := h
  · exact ⟨"", fun _ _ => .inl (le_refl _)⟩
  · exact ⟨"", fun id _ => .inl (le_of_eq (hm.hyp.2.1 id).symm)⟩
  · refine ⟨r.identifier, fun id hid => ?_⟩
    have hrm : r ∈ rs := by rw [hsplit]; simp
    have hne : id ≠ r.identifier := by
      rcases hid with hid | ⟨t, dd, rc, raw, h1, h2, h3, h4⟩
      · exact hid
      · rintro rfl
        rw [hrs.token hrm] at h1
        cases h1
        have hb := (hr.lost r (List.mem_singleton.2 rfl)).2.1
        rcases hb with hb | hb
        · exact hb dd h2
        · have hx : (recipientsBy m HYPERLANE).get? r.identifier = some rc := by
            rw [recipientsBy_get? hs]; exact h3
          rw [hx] at hb
          rw [show c.hexAddr ((some rc).getD "") = some raw from h4] at hb
          cases hb
    refine (hr.kept (fun q hx => ?_) (fun q hx => ?_) (by simpa using hne)).congr (hm.hyp.2.1 id) rfl
      hm.warpOut rfl
    · obtain ⟨h1, _⟩ := hrs.2 q (by rw [hsplit]; exact List.mem_append_left _ hx)
      exact yieldPortion_nonneg (hg.col _ (KV.mem_of_get? h1)) ht hy.le
    · exact hrs.token (by rw [hsplit]; exact List.mem_append_left _ hx)

/-- The Hyperlane side is unchanged up to the Hyperlane round. -/
theorem hypFrame {c : Cfg} {env : Env} {recips : KV String String} {done : List String} {i : Int}
    {s m m2 : State} (hb : Before c i s m) (hi : IbcRounds c env recips done m m2) :
    m2.recipients = s.recipients ∧ m2.warpOut = s.warpOut ∧ ∀ id, m2.retryOf 1 id = s.retryOf 1 id := by
  have r2 : m.warpOut = s.warpOut := (congrArg (fun x => x.2.2.2.2.2.2) hb.route :)
  have r3 : m.retry = s.retry := (congrArg (fun x => x.2.1) hb.route :)
  refine ⟨hi.recipients.trans hb.recipients, hi.warpOut.trans r2, fun id => ?_⟩
  rw [hi.retry, if_neg (fun h => absurd h.1 (by decide))]
  unfold State.retryOf; rw [r3]

theorem update_kept {c : Cfg} (hc : c.WF) (env : Env) (i : Int) {s m : State} (hg : Good c s)
    (hb : Backed c s) (hs : s.recipients.Sorted) :
    (updateIndex c env i s = .ok () m → ∀ id, RetryKept c s m id) ∧
    ∀ e, updateIndex c env i s = .err e m →
      ∃ bad, ∀ id, id ≠ bad ∨ Deliverable c env s id → RetryKept c s m id := by
  have hw := updateIndex_ext hc env i hg hb hs
  constructor
  · intro hm id
    obtain ⟨m1, m2, m3, hbf, hbk, hi, hg2, hh, e3⟩ := hw.of_ok hm
    obtain ⟨_, f2, f3⟩ := hypFrame hbf hi
    exact (hh.kept hg2 id).congr (f3 id) (by rw [e3]; rfl) f2 (by rw [e3])
  · intro e hm
    obtain hx | ⟨m1, hbf, _, ⟨d, hd, hi⟩ | ⟨m2, hi, hg2, hh⟩⟩ := hw.of_err hm
    · refine ⟨"", fun id _ => .inl (le_of_eq ?_)⟩
      unfold State.retryOf; rw [routeF_retry hx]
    · exact ⟨"", fun id _ => .inl (le_of_eq ((hypFrame hbf hi).2.2 id).symm)⟩
    · obtain ⟨f1, f2, f3⟩ := hypFrame hbf hi
      obtain ⟨bad, hk⟩ := hh.kept hg2 (f1 ▸ hs)
      refine ⟨bad, fun id hid => (hk id ?_).congr (f3 id) rfl f2 rfl⟩
      rcases hid with h | ⟨t, dd, rc, raw, h1, h2, h3, h4⟩
      · exact .inl h
      · exact .inr ⟨t, dd, rc, raw, h1, h2, by rw [f1]; exact h3, h4⟩

/-- Every delivery, whatever its content and whether or not its index update fails: the retry
amount of every identifier that can be delivered to (its token has exactly one router, its
recipient is a Hyperlane address) is kept, and among the others at most one is lost.
Missing from the full claim: the identifiers without router or with an invalid recipient. -/
theorem C36_kept_partial {c : Cfg} (hc : c.WF) (env : Env) (vaa : Bytes) (s s' : State)
    (hr : Reachable c s) (h : exec c env (.deliver vaa) s = .ok () s') :
    ∃ bad, ∀ id, id ≠ bad ∨ Deliverable c env s id → RetryKept c s s' id := by
  have hl := hr.led hc
  have hs := hr.shape.recipients
  obtain ⟨v, sA, _, _, rfl, hA, hR, hd⟩ := deliver_did hc hl
    (show deliver c env vaa s = .ok () s' from h)
  have hbA : Backed c { s with archive := s.archive ++ [v.digest] } := hr.backed hc
  generalize content env vaa = q at hd
  cases hd with
  | ignored _ _ _ _ _ _ _ _ e => exact ⟨"", fun id _ => .inl (by rw [e]; exact le_refl _)⟩
  | token amount i rcp s1 hx hu hmt =>
    rw [hA] at hx
    have e1 : ∀ id, s1.retryOf 1 id = s'.retryOf 1 id := fun id => (hmt.moved.hyp.2.1 id).symm
    have e2 : s1.warpOut = s'.warpOut := hmt.moved.warpOut.symm
    obtain ⟨k1, k2⟩ := update_kept (m := s1) hc env i hR.good hbA hs
    rcases ignore_split hx with hx | ⟨e, hx⟩
    · exact ⟨"", fun id _ => (k1 hx id).congr rfl (e1 id) rfl e2⟩
    · obtain ⟨bad, hk⟩ := k2 e hx
      exact ⟨bad, fun id hid => (hk id hid).congr rfl (e1 id) rfl e2⟩
  | index i m hx e hu _ =>
    rw [hA] at hx
    obtain ⟨k1, k2⟩ := update_kept (m := m) hc env i hR.good hbA hs
    exact ⟨"", fun id _ => (k1 hx id).congr rfl (by rw [e]; rfl) rfl (by rw [e])⟩

/-- A delivered index announcement (as opposed to a token delivery) never loses a retry amount:
either its update succeeds and every amount is kept, or the transaction fails and nothing changes. -/
theorem C36_index_kept {c : Cfg} (hc : c.WF) (env : Env) (vaa : Bytes) (i : Int) (chain : Nat)
    (s : State) (hr : Reachable c s) (hq : content env vaa = some (.index i chain)) (id : String) :
    RetryKept c s (step c env (.deliver vaa) s) id := by
  rcases step_cases c env (.deliver vaa) s with h | h
  · rw [h]; exact .inl (le_refl _)
  generalize step c env (.deliver vaa) s = s' at h
  have hl := hr.led hc
  have hs := hr.shape.recipients
  obtain ⟨v, sA, _, _, rfl, hA, hR, hd⟩ := deliver_did hc hl
    (show deliver c env vaa s = .ok () s' from h)
  have hbA : Backed c { s with archive := s.archive ++ [v.digest] } := hr.backed hc
  rw [hq] at hd
  cases hd with
  | ignored _ h => cases h
  | index _ m hx e hu _ =>
    rw [hA] at hx
    obtain ⟨k1, k2⟩ := update_kept (m := m) hc env i hR.good hbA hs
    exact (k1 hx id).congr rfl (by rw [e]; rfl) rfl (by rw [e])

-- Non-vacuity: with the router missing for one of two routes, that route's amount is lost and the
-- other one is kept.
example :
    let env : Env := { Demo.env 9 with routers := fun t => if t = 65 then [] else [7] }
    let s := run Demo.cfg Demo.histExtFailed Demo.start
    let s' := step Demo.cfg env (.deliver [4]) s
    s.retryOf 1 "A" = 199999 ∧ s'.retryOf 1 "A" = 0 ∧
    s.retryOf 1 "B" = 99999 ∧ s'.retryOf 1 "B" = 99999 ∧ s.index < s'.index := by
  decide +kernel

end Dollar
