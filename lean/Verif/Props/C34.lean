import Verif.Lemmas.Backed
import Verif.Lemmas.Yield
import Verif.Spec.External
import Verif.Spec.Demo

/-
C34: IBC yield is either sent or kept for retry.
-/
set_option maxRecDepth 100000
set_option linter.unusedSimpArgs false
namespace Dollar
open MM Spec

/-! ### Packets per channel -/

theorem filter_flatMap {f : String → List IbcOut} (hf : ∀ x, ∀ p ∈ f x, p.channel = x)
    (l : List String) (hn : l.Nodup) (ch : String) :
    (l.flatMap f).filter (fun p => decide (p.channel = ch)) = if ch ∈ l then f ch else [] := by
  induction l with
  | nil => simp
  | cons x t ih =>
    obtain ⟨h1, h2⟩ := List.nodup_cons.1 hn
    rw [List.flatMap_cons, List.filter_append, ih h2]
    by_cases e : ch = x
    · subst e
      rw [if_neg h1, if_pos List.mem_cons_self, List.append_nil, List.filter_eq_self]
      intro p hp; simp [hf ch p hp]
    · have : (f x).filter (fun p => decide (p.channel = ch)) = [] := by
        rw [List.filter_eq_nil_iff]
        intro p hp
        have := hf x p hp
        simp only [decide_eq_true_eq]
        intro e2; exact e (by rw [← e2, this])
      rw [this, List.nil_append]
      by_cases h : ch ∈ t
      · rw [if_pos h, if_pos (List.mem_cons_of_mem _ h)]
      · rw [if_neg h, if_neg (by simp [e, h])]

theorem sentOn_append {s s' : State} {l : List IbcOut} (h : s'.ibcOut = s.ibcOut ++ l) (ch : String) :
    sentOn s s' ch = l.filter fun p => decide (p.channel = ch) := by
  unfold sentOn; rw [h, List.drop_left]

theorem ibcKeys_nodup {s : State} (h : s.recipients.Sorted) : (ibcKeys s).Nodup :=
  KV.nodup_keys (recipientsBy_sorted h IBC)

theorem mem_ibcKeys {s : State} (h : s.recipients.Sorted) {ch : String} :
    ch ∈ ibcKeys s ↔ ∃ r, s.recipients.get? (0, ch) = some r := by
  unfold ibcKeys
  constructor
  · intro hm
    obtain ⟨e, he, rfl⟩ := List.mem_map.1 hm
    exact ⟨e.2, KV.get?_of_mem h (mem_recipientsBy.1 he)⟩
  · rintro ⟨r, hr⟩
    exact List.mem_map.2 ⟨(ch, r), mem_recipientsBy.2 (KV.mem_of_get? hr), rfl⟩

/-- What a round did on one channel, given the yield `y` it claimed. -/
structure ChanRound (c : Cfg) (env : Env) (s s' : State) (ch : String) (y : Int) (rcp : String) : Prop where
  goes : env.ibc ch = .success → 0 < y + s.retryOf IBC ch →
    sentOn s s' ch = [⟨ch, c.escrowAddr ch, rcp, y + s.retryOf IBC ch⟩] ∧ s'.retryOf IBC ch = 0
  stays : ¬ (env.ibc ch = .success ∧ 0 < y + s.retryOf IBC ch) →
    sentOn s s' ch = [] ∧ s'.retryOf IBC ch = y + s.retryOf IBC ch
  ext : s'.extYieldOf IBC ch = s.extYieldOf IBC ch + y

/-- Nothing happened on a channel. -/
structure ChanIdle (s s' : State) (ch : String) : Prop where
  sent : sentOn s s' ch = []
  retry : s'.retryOf IBC ch = s.retryOf IBC ch
  ext : s'.extYieldOf IBC ch = s.extYieldOf IBC ch

theorem IbcRounds.chan {c : Cfg} {env : Env} {recips : KV String String} {done : List String}
    {m m2 : State} (h : IbcRounds c env recips done m m2) (hn : done.Nodup) {ch : String}
    (hm : ch ∈ done) :
    ChanRound c env m m2 ch (claimable m (c.escrowAddr ch)) ((recips.get? ch).getD "") := by
  have hf : sentOn m m2 ch = if ibcGoes c env m ch then [ibcPacket c recips m ch] else [] := by
    rw [sentOn_append h.out, filter_flatMap _ _ hn, if_pos hm]
    intro x p hp
    split at hp
    · cases List.mem_singleton.1 hp; rfl
    · cases hp
  have hr := h.retry IBC ch
  rw [if_pos ⟨rfl, hm⟩] at hr
  refine ⟨fun h1 h2 => ?_, fun h1 => ?_, by rw [h.ext, if_pos ⟨rfl, hm⟩]⟩
  · have hg : ibcGoes c env m ch := ⟨h1, h2⟩
    rw [if_pos hg] at hf hr
    exact ⟨hf, hr⟩
  · have hg : ¬ ibcGoes c env m ch := h1
    rw [if_neg hg] at hf hr
    exact ⟨hf, hr⟩

theorem IbcRounds.idle {c : Cfg} {env : Env} {recips : KV String String} {done : List String}
    {m m2 : State} (h : IbcRounds c env recips done m m2) (hn : done.Nodup) {ch : String}
    (hm : ch ∉ done) : ChanIdle m m2 ch := by
  have hf : sentOn m m2 ch = [] := by
    rw [sentOn_append h.out, filter_flatMap _ _ hn, if_neg hm]
    intro x p hp
    split at hp
    · cases List.mem_singleton.1 hp; rfl
    · cases hp
  exact ⟨hf, by rw [h.retry, if_neg (fun x => hm x.2)], by rw [h.ext, if_neg (fun x => hm x.2), add_zero]⟩

/-- The IBC side of a state. -/
def ibcSide (s : State) : List IbcOut × (String → Int) × (String → Int) :=
  (s.ibcOut, s.retryOf IBC, s.extYieldOf IBC)

theorem Moved.ibcSide {c : Cfg} {s s' : State} {a b : Addr} {x : Int} (h : Moved c s a b x s') :
    ibcSide s' = ibcSide s := by
  unfold Dollar.ibcSide
  rw [h.ibcOut]
  congr 2
  · funext i; unfold State.retryOf; rw [h.retry]
  · funext i; unfold State.extYieldOf; rw [h.extYield]

theorem HypRounds.ibcSide {c : Cfg} {env : Env} {recips : KV String String} {total y : Int}
    {done lost : List Route} {s s' : State} (h : HypRounds c env recips total y done lost s s') :
    ibcSide s' = ibcSide s := by
  unfold Dollar.ibcSide
  rw [h.ibcOut]
  congr 2
  · funext i; exact h.other _ _ (.inl (by decide))
  · funext i; exact h.extOther _ _ (.inl (by decide))

theorem HypDone.ibcSide {c : Cfg} {env : Env} {s s' : State} (h : HypDone c env s s') :
    ibcSide s' = ibcSide s := by
  obtain ⟨m, hm, ⟨_, rfl⟩ | ⟨_, rs, _, ⟨_, rfl⟩ | ⟨_, hr⟩⟩⟩ := h
  · exact hm.ibcSide
  · exact hm.ibcSide
  · exact hr.ibcSide.trans hm.ibcSide

theorem HypFailed.ibcSide {c : Cfg} {env : Env} {s s' : State} (h : HypFailed c env s s') :
    ibcSide s' = ibcSide s := by
  obtain rfl | ⟨m, hm, rfl | ⟨_, rs, d, r, rest, _, _, _, hr⟩⟩ := h
  · rfl
  · exact hm.ibcSide
  · exact hr.ibcSide.trans hm.ibcSide

theorem HypDone.bal {c : Cfg} {env : Env} {s s' : State} (h : HypDone c env s s') {x : Addr}
    (hy : x ≠ c.yieldAddr) (hw : x ≠ c.warpAddr) : s'.balance x = s.balance x := by
  obtain ⟨m, hm, ⟨_, rfl⟩ | ⟨_, rs, _, ⟨_, rfl⟩ | ⟨_, hr⟩⟩⟩ := h
  · exact hm.same hy hw
  · exact hm.same hy hw
  · rw [hr.bal]; exact hm.same hy hw

theorem routeF_ibcSide {s s' : State} (h : routeF s' = routeF s) : ibcSide s' = ibcSide s := by
  unfold ibcSide
  have h1 : s'.ibcOut = s.ibcOut := (congrArg (fun x => x.2.2.2.1) h :)
  have h2 : s'.retry = s.retry := (congrArg (fun x => x.2.1) h :)
  have h3 : s'.extYield = s.extYield := (congrArg (fun x => x.1) h :)
  rw [h1]
  congr 2
  · funext i; unfold State.retryOf; rw [h2]
  · funext i; unfold State.extYieldOf; rw [h3]

theorem ChanRound.congr {c : Cfg} {env : Env} {s s' m m' : State} {ch : String} {y : Int} {rcp : String}
    (h : ChanRound c env m m' ch y rcp) (h1 : ibcSide m = ibcSide s) (h2 : ibcSide m' = ibcSide s') :
    ChanRound c env s s' ch y rcp := by
  have a1 : m.ibcOut = s.ibcOut := (congrArg Prod.fst h1 :)
  have a2 : m.retryOf IBC ch = s.retryOf IBC ch := (congrFun (congrArg (fun x => x.2.1) h1) ch :)
  have a3 : m.extYieldOf IBC ch = s.extYieldOf IBC ch := (congrFun (congrArg (fun x => x.2.2) h1) ch :)
  have b1 : m'.ibcOut = s'.ibcOut := (congrArg Prod.fst h2 :)
  have b2 : m'.retryOf IBC ch = s'.retryOf IBC ch := (congrFun (congrArg (fun x => x.2.1) h2) ch :)
  have b3 : m'.extYieldOf IBC ch = s'.extYieldOf IBC ch := (congrFun (congrArg (fun x => x.2.2) h2) ch :)
  have e : sentOn s s' ch = sentOn m m' ch := by unfold sentOn; rw [a1, b1]
  refine ⟨?_, ?_, ?_⟩
  · rw [e, ← a2, ← b2]; exact h.goes
  · rw [e, ← a2, ← b2]; exact h.stays
  · rw [← a3, ← b3]; exact h.ext

theorem ChanIdle.congr {s s' m m' : State} {ch : String}
    (h : ChanIdle m m' ch) (h1 : ibcSide m = ibcSide s) (h2 : ibcSide m' = ibcSide s') :
    ChanIdle s s' ch := by
  have a1 : m.ibcOut = s.ibcOut := (congrArg Prod.fst h1 :)
  have a2 : m.retryOf IBC ch = s.retryOf IBC ch := (congrFun (congrArg (fun x => x.2.1) h1) ch :)
  have a3 : m.extYieldOf IBC ch = s.extYieldOf IBC ch := (congrFun (congrArg (fun x => x.2.2) h1) ch :)
  have b1 : m'.ibcOut = s'.ibcOut := (congrArg Prod.fst h2 :)
  have b2 : m'.retryOf IBC ch = s'.retryOf IBC ch := (congrFun (congrArg (fun x => x.2.1) h2) ch :)
  have b3 : m'.extYieldOf IBC ch = s'.extYieldOf IBC ch := (congrFun (congrArg (fun x => x.2.2) h2) ch :)
  have e : sentOn s s' ch = sentOn m m' ch := by unfold sentOn; rw [a1, b1]
  exact ⟨by rw [e]; exact h.sent, by rw [← a2, ← b2]; exact h.retry, by rw [← a3, ← b3]; exact h.ext⟩

theorem ChanIdle.of_side {s s' : State} (h : ibcSide s' = ibcSide s) (ch : String) : ChanIdle s s' ch := by
  have a1 : s'.ibcOut = s.ibcOut := (congrArg Prod.fst h :)
  refine ⟨?_, (congrFun (congrArg (fun x => x.2.1) h) ch :), (congrFun (congrArg (fun x => x.2.2) h) ch :)⟩
  rw [sentOn_append (l := []) (by simpa using a1)]; rfl

/-- The yield of an escrow account that the vaults do not pay into, at the new index. -/
theorem Before.claim {c : Cfg} (hc : c.WF) {i : Int} {s m : State} (h : Before c i s m) (hg : Good c s)
    {ch : String} (hcol : s.seasonOneEnded = true → s.collector ≠ c.escrowAddr ch) :
    bp (c.escrowAddr ch) m = bp (c.escrowAddr ch) s ∧
    claimable m (c.escrowAddr ch) = yieldAt s (c.escrowAddr ch) i := by
  have hx : ¬ VaultSide c s (c.escrowAddr ch) := by
    rintro (e | e | e | ⟨e1, e2⟩)
    · exact hc.escrow_ne_yield ch e
    · exact hc.escrow_ne_mod ch _ e
    · exact hc.escrow_ne_mod ch _ e
    · exact hcol e1 e2.symm
  have hb := h.acct _ hx
  refine ⟨hb, ?_⟩
  rw [claimable_eq_yieldAt (h.good.bal _) h.good.index, h.index]
  unfold yieldAt
  have b1 : m.balance (c.escrowAddr ch) = s.balance (c.escrowAddr ch) := (congrArg Prod.fst hb :)
  have b2 : m.principalOf (c.escrowAddr ch) = s.principalOf (c.escrowAddr ch) := (congrArg Prod.snd hb :)
  rw [b1, b2]

/-! ### The property -/

/-- A delivered index announcement, in any reachable state and whatever the outcome of each
transfer.  On every channel with a yield recipient: the yield of the channel's escrow account at
the new index is paid to the escrow account and added to the external-yield statistic; yield plus
retry amount is sent to the recipient in one packet if that is positive and the transfer succeeds
(and the retry amount becomes zero), and becomes the retry amount otherwise. -/
theorem C34_index_update {c : Cfg} (hc : c.WF) (env : Env) (vaa : Bytes) (i : Int) (chain : Nat)
    (s s' : State) (hr : Reachable c s) (hq : content env vaa = some (.index i chain))
    (h : exec c env (.deliver vaa) s = .ok () s') (channel recipient : String)
    (hrec : s.recipients.get? (0, channel) = some recipient)
    (hcol : s.seasonOneEnded = true → s.collector ≠ c.escrow "transfer" channel) :
    let escrow := c.escrow "transfer" channel
    let y := yieldAt s escrow i
    let due := y + s.retryOf 0 channel
    s'.balance escrow = s.balance escrow + y ∧
    s'.extYieldOf 0 channel = s.extYieldOf 0 channel + y ∧
    (env.ibc channel = .success ∧ 0 < due →
      sentOn s s' channel = [⟨channel, escrow, recipient, due⟩] ∧ s'.retryOf 0 channel = 0) ∧
    (¬ (env.ibc channel = .success ∧ 0 < due) →
      sentOn s s' channel = [] ∧ s'.retryOf 0 channel = due) := by
  have hl := hr.led hc
  have hb := hr.backed hc
  have hs := hr.shape.recipients
  obtain ⟨v, sA, _, _, rfl, hA, hR, hd⟩ := deliver_did hc hl
    (show deliver c env vaa s = .ok () s' from h)
  rw [hq] at hd
  cases hd with
  | ignored _ h => cases h
  | index _ m hm e hui _ =>
    rw [hA] at hm
    obtain ⟨m1, m2, m3, hbf, hbk, hi, hg2, hh, e3⟩ :=
      (updateIndex_ext hc env i hR.good (hb : Backed c { s with archive := s.archive ++ [v.digest] }) hs).of_ok hm
    have hmem : channel ∈ ibcKeys s := (mem_ibcKeys hs).2 ⟨_, hrec⟩
    have hn := ibcKeys_nodup hs
    have hround := hi.chan hn hmem
    have hcl := hbf.claim hc hR.good (ch := channel) hcol
    have hcl2 : claimable m1 (c.escrowAddr channel) = yieldAt s (c.escrowAddr channel) i := hcl.2
    have hrcp : ((recipientsBy s IBC).get? channel).getD "" = recipient := by
      rw [recipientsBy_get? hs]
      show (s.recipients.get? (0, channel)).getD "" = _
      rw [hrec]; rfl
    have hside : ibcSide s' = ibcSide m2 := by
      rw [← hh.ibcSide, e, e3]; rfl
    have hR2 := hround.congr (s := s) (s' := s')
      (show ibcSide m1 = ibcSide s from routeF_ibcSide hbf.route) hside.symm
    rw [hcl2, show (recipientsBy { s with archive := s.archive ++ [v.digest] } IBC) = recipientsBy s IBC from rfl,
      hrcp] at hR2
    refine ⟨?_, hR2.ext, fun hx => hR2.goes hx.1 hx.2, hR2.stays⟩
    have b1 : s'.balance (c.escrowAddr channel) = m3.balance (c.escrowAddr channel) := by
      rw [e, e3]; rfl
    have b2 := hh.bal (hc.escrow_ne_yield channel) (hc.escrow_ne_mod channel _)
    have b3 := hi.esc channel hmem
    have b4 : m1.balance (c.escrowAddr channel) = s.balance (c.escrowAddr channel) := (congrArg Prod.fst hcl.1 :)
    show s'.balance (c.escrowAddr channel) = s.balance (c.escrowAddr channel) + yieldAt s (c.escrowAddr channel) i
    rw [b1, b2, b3, b4, hcl2]

/-- Either nothing happened on a channel, or a round with the yield at the announced index. -/
theorem deliver_chan {c : Cfg} (hc : c.WF) (env : Env) (vaa : Bytes) (s s' : State)
    (hr : Reachable c s) (h : exec c env (.deliver vaa) s = .ok () s') (channel : String)
    (hcol : s.seasonOneEnded = true → s.collector ≠ c.escrow "transfer" channel) :
    ChanIdle s s' channel ∨ ∃ q r, content env vaa = some q ∧
      s.recipients.get? (0, channel) = some r ∧
      ChanRound c env s s' channel (yieldAt s (c.escrowAddr channel) q.announced) r := by
  have hl := hr.led hc
  have hb := hr.backed hc
  have hs := hr.shape.recipients
  obtain ⟨v, sA, _, _, rfl, hA, hR, hd⟩ := deliver_did hc hl
    (show deliver c env vaa s = .ok () s' from h)
  generalize content env vaa = q0 at hd
  -- the round on this channel, if it took place
  have rounds : ∀ {q : Content} {m1 m2 : State} {done : List String}, q0 = some q →
      Before c q.announced { s with archive := s.archive ++ [v.digest] } m1 → done.Nodup →
      (∀ x ∈ done, x ∈ ibcKeys s) →
      IbcRounds c env (recipientsBy s IBC) done m1 m2 → ibcSide s' = ibcSide m2 →
      ChanIdle s s' channel ∨ ∃ q r, q0 = some q ∧ s.recipients.get? (0, channel) = some r ∧
        ChanRound c env s s' channel (yieldAt s (c.escrowAddr channel) q.announced) r := by
    intro q m1 m2 done hq hbf hn hsub hi hside
    by_cases hmem : channel ∈ done
    · obtain ⟨r, hrec⟩ := (mem_ibcKeys hs).1 (hsub _ hmem)
      have hround := hi.chan hn hmem
      have hcl2 : claimable m1 (c.escrowAddr channel) = yieldAt s (c.escrowAddr channel) q.announced :=
        (hbf.claim hc hR.good (ch := channel) hcol).2
      have hrcp : ((recipientsBy s IBC).get? channel).getD "" = r := by
        rw [recipientsBy_get? hs]
        show (s.recipients.get? (0, channel)).getD "" = _
        rw [hrec]; rfl
      have hR2 := hround.congr (s := s) (s' := s')
        (show ibcSide m1 = ibcSide s from routeF_ibcSide hbf.route) hside.symm
      rw [hcl2, hrcp] at hR2
      exact .inr ⟨q, r, hq, hrec, hR2⟩
    · exact .inl ((hi.idle hn hmem).congr
        (show ibcSide m1 = ibcSide s from routeF_ibcSide hbf.route) hside.symm)
  have hbA : Backed c { s with archive := s.archive ++ [v.digest] } := hb
  have update : ∀ {q : Content} {m : State}, q0 = some q →
      (updateIndex c env q.announced { s with archive := s.archive ++ [v.digest] } = .ok () m ∨
        ∃ e, updateIndex c env q.announced { s with archive := s.archive ++ [v.digest] } = .err e m) →
      ibcSide s' = ibcSide m → 
      ChanIdle s s' channel ∨ ∃ q r, q0 = some q ∧ s.recipients.get? (0, channel) = some r ∧
        ChanRound c env s s' channel (yieldAt s (c.escrowAddr channel) q.announced) r := by
    intro q m hq hm hside
    have hw := updateIndex_ext hc env q.announced hR.good hbA hs
    rcases hm with hm | ⟨e, hm⟩
    · obtain ⟨m1, m2, m3, hbf, hbk, hi, hg2, hh, e3⟩ := hw.of_ok hm
      refine rounds hq hbf (ibcKeys_nodup hs) (fun _ hx => hx) hi ?_
      rw [hside, ← hh.ibcSide, e3]; rfl
    · obtain hx | ⟨m1, hbf, _, ⟨d, hd, hi⟩ | ⟨m2, hi, _, hh⟩⟩ := hw.of_err hm
      · have hz : ibcSide s' = ibcSide s := hside.trans (routeF_ibcSide hx)
        exact .inl (ChanIdle.of_side hz _)
      · exact rounds hq hbf (hd.sublist.nodup (ibcKeys_nodup hs)) (fun _ hx => hd.subset hx) hi hside
      · exact rounds hq hbf (ibcKeys_nodup hs) (fun _ hx => hx) hi (hside.trans hh.ibcSide)
  cases hd with
  | ignored _ _ _ _ _ _ _ _ e => exact .inl (ChanIdle.of_side (by rw [e]; rfl) _)
  | token amount i rcp s1 hx hu hmt =>
    rw [hA] at hx
    exact update rfl (ignore_split hx) (show ibcSide s' = _ from hmt.moved.ibcSide)
  | index i m hx e hu _ =>
    rw [hA] at hx
    exact update rfl (.inl hx) (by rw [e]; rfl)

/-- Every delivery, also one whose index update fails half-way and is ignored: on every channel,
what was sent plus the new retry amount is the old retry amount plus the growth of the
external-yield statistic; and that growth is either nothing or the yield of the escrow account at
the announced index.  Every packet goes from the channel's escrow account to the recipient. -/
theorem C34_conserved {c : Cfg} (hc : c.WF) (env : Env) (vaa : Bytes) (s s' : State)
    (hr : Reachable c s) (h : exec c env (.deliver vaa) s = .ok () s') (channel : String)
    (hcol : s.seasonOneEnded = true → s.collector ≠ c.escrow "transfer" channel) :
    ∃ y, (y = 0 ∨ ∃ q, content env vaa = some q ∧ (∃ r, s.recipients.get? (0, channel) = some r) ∧
        y = yieldAt s (c.escrow "transfer" channel) q.announced) ∧
      s'.extYieldOf 0 channel = s.extYieldOf 0 channel + y ∧
      packetTotal (sentOn s s' channel) + s'.retryOf 0 channel = y + s.retryOf 0 channel ∧
      ∀ p ∈ sentOn s s' channel, p.sender = c.escrow "transfer" channel ∧
        s.recipients.get? (0, channel) = some p.receiver := by
  rcases deliver_chan hc env vaa s s' hr h channel hcol with hi | ⟨q, r, hq, hrec, hround⟩
  · refine ⟨0, .inl rfl, by rw [add_zero]; exact hi.ext, ?_, ?_⟩
    · rw [hi.sent]
      have := hi.retry
      show 0 + s'.retryOf IBC channel = 0 + s.retryOf IBC channel
      omega
    · rw [hi.sent]; nofun
  · refine ⟨_, .inr ⟨q, hq, ⟨r, hrec⟩, rfl⟩, hround.ext, ?_⟩
    by_cases hx : env.ibc channel = .success ∧ 0 < yieldAt s (c.escrowAddr channel) q.announced + s.retryOf IBC channel
    · obtain ⟨h1, h2⟩ := hround.goes hx.1 hx.2
      rw [h1]
      constructor
      · show (yieldAt s (c.escrowAddr channel) q.announced + s.retryOf IBC channel) + 0 + s'.retryOf IBC channel = 
          yieldAt s (c.escrowAddr channel) q.announced + s.retryOf IBC channel
        omega
      · intro p hp
        cases List.mem_singleton.1 hp
        exact ⟨rfl, hrec⟩
    · obtain ⟨h1, h2⟩ := hround.stays hx
      rw [h1]
      constructor
      · show 0 + s'.retryOf IBC channel = 
          yieldAt s (c.escrowAddr channel) q.announced + s.retryOf IBC channel
        omega
      · nofun

/-- In every reachable state the escrow account of every channel holds at least what is in flight
or outstanding on the channel plus the retry amount. -/
theorem C34_escrow_covers {c : Cfg} (hc : c.WF) {s : State} (hr : Reachable c s) (channel : String) :
    0 ≤ s.vouchersOf channel ∧ 0 ≤ s.retryOf 0 channel ∧
    s.vouchersOf channel + s.retryOf 0 channel ≤ s.balance (c.escrow "transfer" channel) :=
  ⟨(hr.backed hc channel).1, (hr.led hc).good.retry _ _, (hr.backed hc channel).2⟩

-- Non-vacuity: a reachable state with 1 USDN escrowed on a channel that has a recipient.  The
-- announced index is delivered when the transfer works and when it fails late.
example : Reachable Demo.cfg (run Demo.cfg (Demo.hist1.take 6) Demo.start) ∧
    content (Demo.env 7) [3] = some (.index 1100000000000 4009) ∧
    (exec Demo.cfg (Demo.env 7) (.deliver [3]) (run Demo.cfg (Demo.hist1.take 6) Demo.start)).isOk = true ∧
    (exec Demo.cfg { Demo.env 7 with ibc := fun _ => .failLate } (.deliver [3])
      (run Demo.cfg (Demo.hist1.take 6) Demo.start)).isOk = true ∧
    (run Demo.cfg (Demo.hist1.take 6) Demo.start).recipients.get? (0, "channel-0") = some "noble1remote" ∧
    (run Demo.cfg (Demo.hist1.take 6) Demo.start).seasonOneEnded = false ∧
    yieldAt (run Demo.cfg (Demo.hist1.take 6) Demo.start) (Demo.cfg.escrow "transfer" "channel-0")
      1100000000000 = 100000 :=
  ⟨Demo.reach_take 6, by decide +kernel, by decide +kernel, by decide +kernel, by decide +kernel,
    by decide +kernel, by decide +kernel⟩

-- A retry amount exists after the failed transfer, and is sent with the next announcement.
example :
    let s := step Demo.cfg { Demo.env 7 with ibc := fun _ => .failLate } (.deliver [3])
      (run Demo.cfg (Demo.hist1.take 6) Demo.start)
    s.retryOf 0 "channel-0" = 100000 ∧
    (step Demo.cfg (Demo.env 8) (.deliver [5]) s).ibcOut.map (·.amount) = [1000000, 300000] := by
  decide +kernel

end Dollar
