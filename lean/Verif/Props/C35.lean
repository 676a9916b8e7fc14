import Verif.Props.C34
import Verif.Spec.DemoExt

/-
C35: Hyperlane yield portions never exceed the claimed yield, and each portion is sent or kept.
-/
set_option maxRecDepth 100000
set_option linter.unusedSimpArgs false
namespace Dollar
open MM Spec

/-! ### The shares -/

theorem share_le {col total y : Int} (h1 : 0 ≤ col) (h2 : 0 < total) (h3 : 0 ≤ y) :
    share col total y * total ≤ col * y := by
  unfold share
  have a1 : col * 10 ^ 18 / total * total ≤ col * 10 ^ 18 := Int.ediv_mul_le _ h2.ne'
  have a2 := Int.ediv_mul_le (col * 10 ^ 18 / total * y) (b := 10 ^ 18) (by decide)
  have a3 : col * 10 ^ 18 / total * total * y ≤ col * 10 ^ 18 * y := mul_le_mul_of_nonneg_right a1 h3
  have a4 : (col * 10 ^ 18 / total * y / 10 ^ 18 * 10 ^ 18) * total ≤ (col * 10 ^ 18 / total * y) * total :=
    mul_le_mul_of_nonneg_right a2 h2.le
  nlinarith [a3, a4]

theorem yieldPortion_eq {col total y : Int} (h1 : 0 ≤ col) (h2 : 0 < total) (h3 : 0 ≤ y) :
    yieldPortion col total y = share col total y := by
  unfold yieldPortion decTrunc decMulInt decQuoInt decOfInt share
  have e1 : Int.tdiv (col * DEC) total = col * 10 ^ 18 / total := by
    rw [Int.tdiv_eq_ediv_of_nonneg (mul_nonneg h1 (by decide))]; rfl
  rw [e1, Int.tdiv_eq_ediv_of_nonneg (mul_nonneg (Int.ediv_nonneg (by positivity) h2.le) h3)]
  rfl

/-- Each share is the exact share `collateral * y / total` rounded down: never more, and less by
less than `1 + y / 10 ^ 18`. -/
theorem C35_share_rounds_down (col total y : Int) (h1 : 0 ≤ col) (h2 : 0 < total) (h3 : 0 ≤ y) :
    0 ≤ share col total y ∧ share col total y * total ≤ col * y ∧
    col * y * 10 ^ 18 < (share col total y * 10 ^ 18 + 10 ^ 18 + y) * total := by
  refine ⟨?_, share_le h1 h2 h3, ?_⟩
  · unfold share
    exact Int.ediv_nonneg (mul_nonneg (Int.ediv_nonneg (by positivity) h2.le) h3) (by decide)
  · unfold share
    have a1 := Int.lt_ediv_add_one_mul_self (col * 10 ^ 18) h2
    have a2 := Int.lt_ediv_add_one_mul_self (col * 10 ^ 18 / total * y) (b := 10 ^ 18) (by decide)
    generalize col * 10 ^ 18 / total = q at *
    generalize q * y / 10 ^ 18 = p at *
    have a3 : col * 10 ^ 18 * y ≤ (q + 1) * total * y := mul_le_mul_of_nonneg_right a1.le h3
    have a4 : q * y * total < (p + 1) * 10 ^ 18 * total := mul_lt_mul_of_pos_right a2 h2
    nlinarith [a3, a4]

/-- For every list of collateral amounts, the shares add up to at most the yield. -/
theorem C35_shares_sum (cols : List Int) (y : Int) (h1 : ∀ x ∈ cols, 0 ≤ x) (h2 : 0 < cols.sum)
    (h3 : 0 ≤ y) : (cols.map fun x => share x cols.sum y).sum ≤ y := by
  have key : ∀ (l : List Int) (total : Int), (∀ x ∈ l, 0 ≤ x) → 0 < total →
      (l.map fun x => share x total y).sum * total ≤ l.sum * y := by
    intro l total hl ht
    induction l with
    | nil => simp
    | cons x t ih =>
      simp only [List.map_cons, List.sum_cons]
      have := share_le (hl x List.mem_cons_self) ht h3
      have := ih fun z hz => hl z (List.mem_cons_of_mem _ hz)
      nlinarith
  have := key cols cols.sum h1 h2
  rw [mul_comm cols.sum y] at this
  exact le_of_mul_le_mul_right this h2

/-- And they leave only dust behind: less than `1 + y / 10 ^ 18` per route. -/
theorem C35_shares_dust (cols : List Int) (y : Int) (h1 : ∀ x ∈ cols, 0 ≤ x) (h2 : 0 < cols.sum)
    (h3 : 0 ≤ y) :
    y * 10 ^ 18 < (cols.map fun x => share x cols.sum y).sum * 10 ^ 18 + cols.length * (10 ^ 18 + y) := by
  have key : ∀ (l : List Int) (total : Int), (∀ x ∈ l, 0 ≤ x) → 0 < total →
      l.sum * y * 10 ^ 18 + l.length ≤
        ((l.map fun x => share x total y).sum * 10 ^ 18 + l.length * (10 ^ 18 + y)) * total := by
    intro l total hl ht
    induction l with
    | nil => simp
    | cons x t ih =>
      simp only [List.map_cons, List.sum_cons, List.length_cons, Nat.cast_add, Nat.cast_one]
      have := (C35_share_rounds_down x total y (hl x List.mem_cons_self) ht h3).2.2
      have := ih fun z hz => hl z (List.mem_cons_of_mem _ hz)
      nlinarith
  have h := key cols cols.sum h1 h2
  have hn : (0 : Int) < cols.length := by
    cases cols with
    | nil => simp at h2
    | cons x t => simp only [List.length_cons]; omega
  have h' : y * 10 ^ 18 * cols.sum <
      ((cols.map fun x => share x cols.sum y).sum * 10 ^ 18 + cols.length * (10 ^ 18 + y)) * cols.sum := by
    nlinarith
  exact lt_of_mul_lt_mul_right h' h2.le

/-! ### From the model's routes to identifiers -/

theorem hypIds_eq (s : State) : hypIds s = (recipientsBy s HYPERLANE).map Prod.fst := by
  unfold hypIds recipientsBy
  rw [List.map_filterMap]
  congr 1
  funext e
  by_cases h : e.1.1 = 1
  · rw [if_pos h, if_pos (show e.1.1 = HYPERLANE from h)]; rfl
  · rw [if_neg h, if_neg (show ¬ e.1.1 = HYPERLANE from h)]; rfl

theorem RoutesOf.token {c : Cfg} {s : State} {rs : List Route} (h : RoutesOf c s rs) {r : Route}
    (hr : r ∈ rs) : tokenOf c r.identifier = some r.tokenId := by
  obtain ⟨_, raw, h1, h2⟩ := h.2 r hr
  unfold tokenOf; rw [h1, h2]; rfl

theorem RoutesOf.collateral {c : Cfg} {s : State} {rs : List Route} (h : RoutesOf c s rs) {r : Route}
    (hr : r ∈ rs) : collateralOf c s r.identifier = r.collateral := by
  unfold collateralOf; rw [h.token hr]; simp only; rw [(h.2 r hr).1]; rfl

theorem RoutesOf.total {c : Cfg} {s : State} {rs : List Route} (h : RoutesOf c s rs) :
    totalCollateral rs = hypTotal c s := by
  unfold totalCollateral hypTotal
  rw [hypIds_eq, ← h.1, List.map_map]
  congr 1
  exact List.map_congr_left fun r hr => (h.collateral hr).symm

/-- The Hyperlane side of `m` before its round, seen from `s`: `y` is what will be claimed. -/
structure HypView (c : Cfg) (s m : State) (y : Int) : Prop where
  good : Good c m
  collateral : m.collateral = s.collateral
  recipients : m.recipients = s.recipients
  warpOut : m.warpOut = s.warpOut
  retry : ∀ id, m.retryOf HYPERLANE id = s.retryOf HYPERLANE id
  ext : ∀ id, m.extYieldOf HYPERLANE id = s.extYieldOf HYPERLANE id
  bal : m.balance c.warpAddr = s.balance c.warpAddr
  claim : claimable m c.warpAddr = y

theorem hypView {c : Cfg} (hc : c.WF) {env : Env} {recips : KV String String} {done : List String} {i : Int}
    {s m m2 : State} (hb : Before c i s m) (hi : IbcRounds c env recips done m m2) (hg : Good c m2)
    (hcol : s.seasonOneEnded = true → s.collector ≠ c.warpAddr) :
    HypView c s m2 (yieldAt s c.warpAddr i) := by
  have hy : c.warpAddr ≠ c.yieldAddr := hc.mod_ne (by decide)
  have hx : ¬ VaultSide c s c.warpAddr := by
    rintro (e | e | e | ⟨e1, e2⟩)
    · exact hy e
    · exact hc.mod_ne (by decide) e
    · exact hc.mod_ne (by decide) e
    · exact hcol e1 e2.symm
  have hbp := hb.acct _ hx
  have b0 : m2.balance c.warpAddr = m.balance c.warpAddr :=
    hi.bal _ hy fun ch _ => (hc.escrow_ne_mod ch _).symm
  have b1 : m2.balance c.warpAddr = s.balance c.warpAddr := b0.trans (congrArg Prod.fst hbp :)
  have b2 : m2.principalOf c.warpAddr = s.principalOf c.warpAddr :=
    (hi.prin _).trans (congrArg Prod.snd hbp :)
  have r1 : m.collateral = s.collateral := (congrArg (fun x => x.2.2.1) hb.route :)
  have r2 : m.warpOut = s.warpOut := (congrArg (fun x => x.2.2.2.2.2.2) hb.route :)
  have r3 : m.retry = s.retry := (congrArg (fun x => x.2.1) hb.route :)
  have r4 : m.extYield = s.extYield := (congrArg (fun x => x.1) hb.route :)
  refine ⟨hg, hi.collateral.trans r1, hi.recipients.trans hb.recipients, hi.warpOut.trans r2,
    fun id => ?_, fun id => ?_, b1, ?_⟩
  · rw [hi.retry, if_neg (fun h => absurd h.1 (by decide))]
    unfold State.retryOf; rw [r3]
  · rw [hi.ext, if_neg (fun h => absurd h.1 (by decide)), add_zero]
    unfold State.extYieldOf; rw [r4]
  · rw [claimable_eq_yieldAt (hg.bal _) hg.index, hi.index, hb.index]
    unfold yieldAt
    rw [b1, b2]

namespace HypView
variable {c : Cfg} {s m : State} {y : Int}

theorem hypIds (h : HypView c s m y) : hypIds m = hypIds s := by
  unfold Spec.hypIds; rw [h.recipients]
theorem collateralOf (h : HypView c s m y) (id : String) : collateralOf c m id = collateralOf c s id := by
  unfold Spec.collateralOf; rw [h.collateral]
theorem hypTotal (h : HypView c s m y) : hypTotal c m = hypTotal c s := by
  unfold Spec.hypTotal; rw [h.hypIds]
  congr 1
  exact List.map_congr_left fun id _ => h.collateralOf id

end HypView

theorem Moved.hyp {c : Cfg} {s s' : State} {a b : Addr} {x : Int} (h : Moved c s a b x s') :
    s'.warpOut = s.warpOut ∧ (∀ id, s'.retryOf HYPERLANE id = s.retryOf HYPERLANE id) ∧
    (∀ id, s'.extYieldOf HYPERLANE id = s.extYieldOf HYPERLANE id) :=
  ⟨h.warpOut, fun _ => by unfold State.retryOf; rw [h.retry],
    fun _ => by unfold State.extYieldOf; rw [h.extYield]⟩

/-- The facts that hold for a route during the round. -/
structure RouteFacts (c : Cfg) (env : Env) (s m : State) (total y : Int) (r : Route) : Prop where
  token : tokenOf c r.identifier = some r.tokenId
  due : hypDue total y m r = hypOwed c s y r.identifier
  goes : hypGoes c env total y m r ↔ hypSends c env s y r.identifier
  portion : yieldPortion r.collateral total y = share (collateralOf c s r.identifier) (hypTotal c s) y

theorem routeFacts {c : Cfg} (hc : c.WF) (env : Env) {s m m1 : State} {y : Int} (hv : HypView c s m y)
    {rs : List Route} (hr : RoutesOf c m rs) (ht : 0 < totalCollateral rs) (hy : 0 < y)
    (hm : Moved c m c.yieldAddr c.warpAddr y m1) {r : Route} (hx : r ∈ rs) :
    RouteFacts c env s m1 (totalCollateral rs) y r := by
  have e1 := hr.token hx
  have hcol : 0 ≤ r.collateral := by
    obtain ⟨h1, _⟩ := hr.2 r hx
    exact hv.good.col _ (KV.mem_of_get? h1)
  have e2 : yieldPortion r.collateral (totalCollateral rs) y =
      share (collateralOf c s r.identifier) (hypTotal c s) y := by
    rw [yieldPortion_eq hcol ht hy.le, ← hv.collateralOf, hr.collateral hx, ← hv.hypTotal, hr.total]
  have e3 : hypDue (totalCollateral rs) y m1 r = hypOwed c s y r.identifier := by
    unfold hypDue hypOwed
    rw [e2, hm.hyp.2.1, hv.retry]; rfl
  have e4 : m1.balance c.warpAddr = s.balance c.warpAddr + y := by
    have hne : c.warpAddr ≠ c.yieldAddr := hc.mod_ne (by decide)
    rw [hm.bal, if_neg hne, if_pos rfl, hv.bal]; omega
  refine ⟨e1, e3, ?_, e2⟩
  unfold hypGoes hypSends
  rw [e3, e4, e1]
  simp only [Option.map_some, Option.some.injEq]
  exact Iff.rfl

theorem routes_forall {c : Cfg} {env : Env} {s m : State} {recips : KV String String} {total y : Int}
    (hrec : ∀ id, recips.get? id = s.recipients.get? (1, id)) (l : List Route)
    (hl : ∀ r ∈ l, RouteFacts c env s m total y r)
    (hk : ∀ r ∈ l, ∃ x, s.recipients.get? (1, r.identifier) = some x)
    (hs : ∀ r ∈ l, 0 < hypDue total y m r → ¬ Broken c env recips r) :
    List.Forall₂ (IsHypMessage c env s y)
      ((l.map Route.identifier).filter fun id => decide (hypSends c env s y id))
      (l.flatMap fun r => if hypGoes c env total y m r then [hypMsg c env recips total y m r] else []) := by
  induction l with
  | nil => exact .nil
  | cons r t ih =>
    have ih := ih (fun r hr => hl r (List.mem_cons_of_mem _ hr)) (fun r hr => hk r (List.mem_cons_of_mem _ hr))
      (fun r hr => hs r (List.mem_cons_of_mem _ hr))
    have f := hl r List.mem_cons_self
    rw [List.map_cons, List.filter_cons, List.flatMap_cons]
    by_cases hg : hypGoes c env total y m r
    · rw [if_pos hg, if_pos (by simpa using f.goes.1 hg)]
      refine .cons ?_ ih
      have hb := hs r List.mem_cons_self hg.2.1
      obtain ⟨x, hx⟩ := hk r List.mem_cons_self
      have hrc : recips.get? r.identifier = some x := by rw [hrec, hx]
      unfold Broken at hb
      rw [hrc] at hb
      push_neg at hb
      obtain ⟨⟨d, hd⟩, hh⟩ := hb
      have hh : c.hexAddr x ≠ none := hh
      obtain ⟨raw, hraw⟩ := Option.ne_none_iff_exists'.1 hh
      refine ⟨f.token, ?_, ⟨x, hx, ?_⟩, f.due⟩
      · show env.routers r.tokenId = [(env.routers r.tokenId).headD 0]
        rw [hd]; rfl
      · show c.hexAddr x = some ((c.hexAddr ((recips.get? r.identifier).getD "")).getD [])
        rw [hrc]
        show c.hexAddr x = some ((c.hexAddr x).getD [])
        rw [hraw]; rfl
    · rw [if_neg hg, if_neg (by simpa using fun h => hg (f.goes.2 h))]
      exact ih

/-- What a complete round leaves. -/
structure HypResult (c : Cfg) (env : Env) (s s' : State) (y : Int) : Prop where
  bal : s'.balance c.warpAddr = s.balance c.warpAddr + y
  /-- nothing to distribute, or nothing to distribute it by -/
  idle : y = 0 ∨ hypTotal c s = 0 → dispatched s s' = [] ∧ ∀ id, s'.retryOf 1 id = s.retryOf 1 id ∧
    s'.extYieldOf 1 id = s.extYieldOf 1 id
  retry : 0 < y → 0 < hypTotal c s → ∀ id r, s.recipients.get? (1, id) = some r →
    s'.retryOf 1 id = if hypSends c env s y id then 0 else hypOwed c s y id
  ext : 0 < y → 0 < hypTotal c s → ∀ id r, s.recipients.get? (1, id) = some r →
    s'.extYieldOf 1 id = s.extYieldOf 1 id + share (collateralOf c s id) (hypTotal c s) y
  other : ∀ id, s.recipients.get? (1, id) = none → s'.retryOf 1 id = s.retryOf 1 id ∧
    s'.extYieldOf 1 id = s.extYieldOf 1 id
  sent : 0 < y → 0 < hypTotal c s → List.Forall₂ (IsHypMessage c env s y)
    ((hypIds s).filter fun id => decide (hypSends c env s y id)) (dispatched s s')
  /-- nothing is removed from the outbox -/
  kept : s.warpOut <+: s'.warpOut

theorem dispatched_append {s s' : State} {l : List WarpOut} (h : s'.warpOut = s.warpOut ++ l) :
    dispatched s s' = l := by unfold dispatched; rw [h, List.drop_left]

theorem hypTotal_nonneg {c : Cfg} {s : State} (h : ∀ e ∈ s.collateral, 0 ≤ e.2) : 0 ≤ hypTotal c s := by
  unfold hypTotal
  apply List.sum_nonneg
  intro x hx
  obtain ⟨id, _, rfl⟩ := List.mem_map.1 hx
  unfold collateralOf
  split
  · exact le_refl _
  · next t _ =>
    cases hg : s.collateral.get? t with
    | none => exact le_refl _
    | some v => exact h _ (KV.mem_of_get? hg)

theorem mem_hypIds {s : State} (h : s.recipients.Sorted) {id : String} :
    id ∈ hypIds s ↔ ∃ r, s.recipients.get? (1, id) = some r := by
  rw [hypIds_eq]
  constructor
  · intro hm
    obtain ⟨e, he, rfl⟩ := List.mem_map.1 hm
    exact ⟨e.2, KV.get?_of_mem h (mem_recipientsBy.1 he)⟩
  · rintro ⟨r, hr⟩
    exact List.mem_map.2 ⟨(id, r), mem_recipientsBy.2 (KV.mem_of_get? hr), rfl⟩

theorem HypDone.result {c : Cfg} (hc : c.WF) {env : Env} {s m m' : State} {y : Int}
    (hs : s.recipients.Sorted) (hv : HypView c s m y) (h : HypDone c env m m') : HypResult c env s m' y := by
  obtain ⟨m1, hm, hrest⟩ := h
  rw [hv.claim] at hm hrest
  have hne : c.warpAddr ≠ c.yieldAddr := hc.mod_ne (by decide)
  have hbal1 : m1.balance c.warpAddr = s.balance c.warpAddr + y := by
    rw [hm.bal, if_neg hne, if_pos rfl, hv.bal]; omega
  have hsame : ∀ id, m1.retryOf 1 id = s.retryOf 1 id ∧ m1.extYieldOf 1 id = s.extYieldOf 1 id :=
    fun id => ⟨(hm.hyp.2.1 id).trans (hv.retry id), (hm.hyp.2.2 id).trans (hv.ext id)⟩
  have hout : m1.warpOut = s.warpOut := hm.warpOut.trans hv.warpOut
  have hidle : dispatched s m1 = [] := dispatched_append (by simpa using hout)
  have htn : 0 ≤ hypTotal c s := by
    rw [← hv.hypTotal]; exact hypTotal_nonneg hv.good.col
  obtain ⟨h0, rfl⟩ | ⟨hy, rs, hrs, ⟨ht, rfl⟩ | ⟨ht, hr⟩⟩ := hrest
  · exact ⟨hbal1, fun _ => ⟨hidle, hsame⟩, fun h => by omega, fun h => by omega, fun id _ => hsame id,
      fun h => by omega, hout ▸ List.prefix_rfl⟩
  · rw [hrs.total, hv.hypTotal] at ht
    exact ⟨hbal1, fun _ => ⟨hidle, hsame⟩, fun _ h => by omega, fun _ h => by omega, fun id _ => hsame id,
      fun _ h => by omega, hout ▸ List.prefix_rfl⟩
  · have htot : totalCollateral rs = hypTotal c s := by rw [hrs.total, hv.hypTotal]
    have facts : ∀ r ∈ rs, RouteFacts c env s m1 (totalCollateral rs) y r :=
      fun r hx => routeFacts hc env hv hrs ht hy hm hx
    have hids : rs.map Route.identifier = hypIds s := by
      rw [hrs.1, ← hypIds_eq, hv.hypIds]
    have hmem : ∀ r ∈ rs, ∃ x, s.recipients.get? (1, r.identifier) = some x := by
      intro r hx
      exact (mem_hypIds hs).1 (hids ▸ List.mem_map_of_mem hx)
    have hof : ∀ id x, s.recipients.get? (1, id) = some x → ∃ r ∈ rs, r.identifier = id := by
      intro id x hx
      have := (mem_hypIds hs).2 ⟨x, hx⟩
      rw [← hids] at this
      obtain ⟨r, hr, e⟩ := List.mem_map.1 this
      exact ⟨r, hr, e⟩
    have hrecips : ∀ id, (recipientsBy m HYPERLANE).get? id = s.recipients.get? (1, id) := by
      intro id
      rw [recipientsBy_get? (hv.recipients ▸ hs), hv.recipients]; rfl
    refine ⟨by rw [hr.bal]; exact hbal1, fun h => by omega, ?_, ?_, ?_, ?_,
      by rw [hr.out, hout]; exact List.prefix_append _ _⟩
    · intro _ _ id x hx
      obtain ⟨r, hmr, rfl⟩ := hof id x hx
      have f := facts r hmr
      have := hr.retry r hmr
      rw [f.due] at this
      show m'.retryOf HYPERLANE r.identifier = _
      rw [this]
      by_cases hg : hypGoes c env (totalCollateral rs) y m1 r
      · rw [if_pos hg, if_pos (f.goes.1 hg)]
      · rw [if_neg hg, if_neg (fun h => hg (f.goes.2 h))]
    · intro _ _ id x hx
      obtain ⟨r, hmr, rfl⟩ := hof id x hx
      have := hr.ext r hmr
      rw [(facts r hmr).portion] at this
      show m'.extYieldOf HYPERLANE r.identifier = _
      rw [this]
      congr 1
      exact (hsame _).2
    · intro id hx
      have hn : id ∉ (rs ++ []).map Route.identifier := by
        rw [List.append_nil, hids]
        intro h
        obtain ⟨r, hr⟩ := (mem_hypIds hs).1 h
        rw [hx] at hr; cases hr
      exact ⟨(hr.other _ _ (.inr hn)).trans (hsame id).1,
        (hr.extOther _ _ (.inr (by rwa [List.append_nil] at hn))).trans (hsame id).2⟩
    · intro _ _
      have := routes_forall hrecips rs facts hmem hr.sound
      rw [hids] at this
      rwa [dispatched_append (hr.out.trans (by rw [hout]))]

/-! ### The property -/

/-- A delivered index announcement, in any reachable state, whatever the outcome of each transfer.
`y`, the yield of the warp account at the new index, is paid to the warp account.  If that is
positive and there is collateral, every identifier with a recipient gets its share added to the
external-yield statistic; share plus retry amount is dispatched in one message to the token's
router (and the retry amount becomes zero) or becomes the retry amount.  The messages dispatched
are exactly these, in store order, after those dispatched before.  Otherwise nothing is dispatched
and nothing changes. -/
theorem C35_index_update {c : Cfg} (hc : c.WF) (env : Env) (vaa : Bytes) (i : Int) (chain : Nat)
    (s s' : State) (hr : Reachable c s) (hq : content env vaa = some (.index i chain))
    (h : exec c env (.deliver vaa) s = .ok () s')
    (hcol : s.seasonOneEnded = true → s.collector ≠ c.modAddr "warp") :
    let y := yieldAt s (c.modAddr "warp") i
    s'.balance (c.modAddr "warp") = s.balance (c.modAddr "warp") + y ∧
    (0 < y ∧ 0 < hypTotal c s →
      (∀ id r, s.recipients.get? (1, id) = some r →
        s'.extYieldOf 1 id = s.extYieldOf 1 id + share (collateralOf c s id) (hypTotal c s) y ∧
        (hypSends c env s y id → s'.retryOf 1 id = 0) ∧
        (¬ hypSends c env s y id → s'.retryOf 1 id =
          share (collateralOf c s id) (hypTotal c s) y + s.retryOf 1 id)) ∧
      List.Forall₂ (IsHypMessage c env s y)
        ((hypIds s).filter fun id => decide (hypSends c env s y id)) (dispatched s s')) ∧
    (y = 0 ∨ hypTotal c s = 0 → dispatched s s' = [] ∧
      ∀ id, s'.retryOf 1 id = s.retryOf 1 id ∧ s'.extYieldOf 1 id = s.extYieldOf 1 id) ∧
    (∀ id, s.recipients.get? (1, id) = none → s'.retryOf 1 id = s.retryOf 1 id ∧
      s'.extYieldOf 1 id = s.extYieldOf 1 id) ∧
    s.warpOut <+: s'.warpOut := by
  have hl := hr.led hc
  have hb := hr.backed hc
  have hs := hr.shape.recipients
  obtain ⟨v, sA, _, _, rfl, hA, hR, hd⟩ := deliver_did hc hl
    (show deliver c env vaa s = .ok () s' from h)
  rw [hq] at hd
  cases hd with
  | ignored _ h => cases h
  | index _ m hm e hui _ =>
    rw [hA] at hm
    obtain ⟨m1, m2, m3, hbf, hbk, hi, hg2, hh, e3⟩ :=
      (updateIndex_ext hc env i hR.good (hb : Backed c { s with archive := s.archive ++ [v.digest] }) hs).of_ok hm
    have hv0 := hypView hc hbf hi hg2 hcol
    have hv : HypView c s m2 (yieldAt s c.warpAddr i) :=
      ⟨hv0.good, hv0.collateral, hv0.recipients, hv0.warpOut, hv0.retry, hv0.ext, hv0.bal, hv0.claim⟩
    have hres := hh.result hc hs hv
    have e4 : s' = { m3 with events := s'.events, archive := s'.archive } := by
      rw [e, e3]
    have hres : HypResult c env s s' (yieldAt s c.warpAddr i) := by
      rw [e4]; exact ⟨hres.bal, hres.idle, hres.retry, hres.ext, hres.other, hres.sent, hres.kept⟩
    refine ⟨hres.bal, fun hx => ⟨fun id r hid => ⟨hres.ext hx.1 hx.2 id r hid, ?_, ?_⟩,
      hres.sent hx.1 hx.2⟩, hres.idle, hres.other, hres.kept⟩
    · intro hg
      exact (hres.retry hx.1 hx.2 id r hid).trans (if_pos hg)
    · intro hg
      exact (hres.retry hx.1 hx.2 id r hid).trans (if_neg hg)

theorem hypIds_nonneg {c : Cfg} (hc : c.WF) {s : State} (hr : Reachable c s) :
    ∀ x ∈ (hypIds s).map (collateralOf c s), 0 ≤ x := by
  intro x hx
  obtain ⟨id, _, rfl⟩ := List.mem_map.1 hx
  unfold collateralOf
  split
  · exact le_refl _
  · next t _ =>
    cases hg : s.collateral.get? t with
    | none => exact le_refl _
    | some v => exact (hr.led hc).good.col _ (KV.mem_of_get? hg)

/-- The shares of one distribution add up to at most the yield that is distributed. -/
theorem C35_distribution_bounded {c : Cfg} (hc : c.WF) {s : State} (hr : Reachable c s) (y : Int)
    (hy : 0 ≤ y) (ht : 0 < hypTotal c s) :
    ((hypIds s).map fun id => share (collateralOf c s id) (hypTotal c s) y).sum ≤ y := by
  have := C35_shares_sum ((hypIds s).map (collateralOf c s)) y (hypIds_nonneg hc hr) ht hy
  rwa [List.map_map] at this

/-- What one distribution leaves unassigned is dust: less than `1 + y / 10 ^ 18` per route. -/
theorem C35_distribution_dust {c : Cfg} (hc : c.WF) {s : State} (hr : Reachable c s) (y : Int)
    (hy : 0 ≤ y) (ht : 0 < hypTotal c s) :
    (y - ((hypIds s).map fun id => share (collateralOf c s id) (hypTotal c s) y).sum) * 10 ^ 18 <
      (hypIds s).length * (10 ^ 18 + y) := by
  have := C35_shares_dust ((hypIds s).map (collateralOf c s)) y (hypIds_nonneg hc hr) ht hy
  rw [List.map_map, List.length_map] at this
  rw [sub_mul]
  have e : ((hypIds s).map fun id => share (collateralOf c s id) (hypTotal c s) y) =
      (hypIds s).map ((fun x => share x ((hypIds s).map (collateralOf c s)).sum y) ∘ collateralOf c s) := rfl
  rw [e]
  linarith

-- Non-vacuity: two routes with 2 and 1 USDN collateral.
example : Reachable Demo.cfg (run Demo.cfg Demo.histExt Demo.start) ∧
    content (Demo.env 8) [3] = some (.index 1100000000000 4009) ∧
    (exec Demo.cfg (Demo.env 8) (.deliver [3]) (run Demo.cfg Demo.histExt Demo.start)).isOk = true ∧
    (run Demo.cfg Demo.histExt Demo.start).seasonOneEnded = false ∧
    yieldAt (run Demo.cfg Demo.histExt Demo.start) (Demo.cfg.modAddr "warp") 1100000000000 = 300000 ∧
    hypTotal Demo.cfg (run Demo.cfg Demo.histExt Demo.start) = 3000000 ∧
    hypIds (run Demo.cfg Demo.histExt Demo.start) = ["A", "B"] :=
  ⟨Demo.reachExt, by decide +kernel, by decide +kernel, by decide +kernel, by decide +kernel,
    by decide +kernel, by decide +kernel⟩

-- Both shares are dispatched (rounded down); when the transfers fail they are kept and go out
-- together with the next shares.
example :
    let s := run Demo.cfg Demo.histExt Demo.start
    (dispatched s (step Demo.cfg (Demo.env 8) (.deliver [3]) s)).map (fun w => (w.tokenId, w.amount)) =
      [(65, 199999), (66, 99999)] := by decide +kernel
example :
    let s := run Demo.cfg Demo.histExtFailed Demo.start
    s.retryOf 1 "A" = 199999 ∧ s.retryOf 1 "B" = 99999 ∧
    (dispatched s (step Demo.cfg (Demo.env 9) (.deliver [5]) s)).map (fun w => (w.tokenId, w.amount)) =
      [(65, 599998), (66, 299998)] := by decide +kernel

end Dollar
