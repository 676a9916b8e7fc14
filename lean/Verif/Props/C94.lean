import Verif.Props.C03
import Verif.Props.C34
import Verif.Props.C54
import Verif.Lemmas.Cover2
import Verif.Spec.DemoExt

/-
C94: coins held in escrow for other chains, and in vaults, earn the growth of the index like any others.
-/
set_option maxRecDepth 100000
namespace Dollar
open Spec MM

/-- After any history, the principal of every account (except the yield account and the one used for
minting) is worth at least its balance, up to one unit of principal for each rounding against it. -/
theorem C94_principal_covers {c : Cfg} (hc : c.WF) {a : Addr} (hy : a ≠ c.modAddr "dollar/yield")
    (hm : a ≠ c.modAddr "dollar") {s0 : State} (h0 : Initial c s0) {h : History} (hsig : History.Signed c h) :
    let s := run c h s0
    10 ^ 12 * s.balance a ≤ s.index * (s.principalOf a + roundsOf c a h s0) := by
  have := (run_covered hc h (Led.initial h0) hsig (CoveredBy.initial h0)).debt a hy hm
  rwa [List.append_nil] at this

theorem growth {s : State} {a : Addr} {i n : Int} (hp : 0 < s.index) (hi : s.index ≤ i)
    (hd : 10 ^ 12 * s.balance a ≤ s.index * (s.principalOf a + n)) :
    10 ^ 12 * (s.balance a * (i - s.index)) ≤ s.index * (10 ^ 12 * (yieldAt s a i + 2) + i * n) := by
  have hy : s.principalOf a * i ≤ 10 ^ 12 * (yieldAt s a i + s.balance a + 2) := by
    unfold yieldAt
    generalize s.principalOf a * i = z at *
    split <;> omega
  have h1 : i * (10 ^ 12 * s.balance a) ≤ i * (s.index * (s.principalOf a + n)) :=
    mul_le_mul_of_nonneg_left hd (by omega)
  have h2 : s.index * (s.principalOf a * i) ≤ s.index * (10 ^ 12 * (yieldAt s a i + s.balance a + 2)) :=
    mul_le_mul_of_nonneg_left hy hp.le
  nlinarith

/-- Hence every account earns the growth of the index on its whole balance: when the index goes to `i`, its
yield is at least `balance * (i - index) / index`, minus two units (the unit lost by rounding down and the claim
threshold) and minus the value of one unit of principal for each rounding against the account. -/
theorem C94_earns_growth {c : Cfg} (hc : c.WF) {a : Addr} (hy : a ≠ c.modAddr "dollar/yield")
    (hm : a ≠ c.modAddr "dollar") {s0 : State} (h0 : Initial c s0) {h : History} (hsig : History.Signed c h)
    (i : Int) (hi : (run c h s0).index ≤ i) :
    let s := run c h s0
    10 ^ 12 * (s.balance a * (i - s.index)) ≤
      s.index * (10 ^ 12 * (yieldAt s a i + 2) + i * roundsOf c a h s0) :=
  growth (Reachable.index_pos hc (.of_run h0 hsig)) hi (C94_principal_covers hc hy hm h0 hsig)

/-- Transactions that take coins out of the escrow account of a channel: coins that come back over it, a
refund for one of its packets.  (A portal transfer that names the escrow account as recipient counts too.) -/
def Spec.comesBack (c : Cfg) (channel : String) (x : Env × Msg) : Bool :=
  match x.2 with
  | .ibcReceive ch .. => ch == channel
  | .ibcTimeout p | .ibcAckError p => p.channel == channel
  | .deliver vaa => match content x.1 vaa with
      | some (.token _ _ r _ _) => r == c.escrow "transfer" channel
      | _ => false
  | _ => false

theorem roundedIn_escrow {c : Cfg} (hc : c.WF) {env : Env} {m : Msg} {s : State} (hm : m.SignedByUser c)
    (ch : String) : (roundedIn c env s m).count (c.escrow "transfer" ch) ≤ if comesBack c ch (env, m) then 1 else 0 := by
  have hu : ∀ x, c.IsUser x → x ≠ c.escrow "transfer" ch := fun x hx => hx.ne_escrow ch
  have hmod : ∀ n, c.modAddr n ≠ c.escrow "transfer" ch := fun n => hc.mod_ne_escrow n _ _
  have h1 : ∀ x, x ≠ c.escrow "transfer" ch → [x].count (c.escrow "transfer" ch) = 0 := fun x hx =>
    List.count_eq_zero.2 (by rw [List.mem_singleton]; exact hx.symm)
  have h2 : [c.modAddr "dollar/vaults/staked", c.modAddr "dollar/vaults/flexible"].count (c.escrow "transfer" ch) = 0 :=
    List.count_eq_zero.2 (by
      intro hx
      rcases List.mem_cons.1 hx with hx | hx
      · exact hmod _ hx.symm
      · exact hmod _ (List.mem_singleton.1 hx).symm)
  have hdec : ∀ signer, (∀ a, c.decode signer = some a → c.IsUser a) →
      (c.decode signer).toList.count (c.escrow "transfer" ch) = 0 := by
    intro signer hs
    cases e : c.decode signer with
    | none => rfl
    | some a => exact h1 _ (hu a (hs a e))
  have hesc : ∀ ch', [c.escrow "transfer" ch'].count (c.escrow "transfer" ch) ≤ if ch' == ch then 1 else 0 := by
    intro ch'
    by_cases e : ch' = ch
    · subst e; simp
    · rw [h1 _ fun h => e (hc.escrow_inj _ _ h)]; omega
  cases m with
  | bankSend a b v => rw [show (roundedIn c env s (.bankSend a b v)) = [a] from rfl, h1 _ (hu _ hm)]; omega
  | keeperSend a b v => rw [show (roundedIn c env s (.keeperSend a b v)) = [a] from rfl, h1 _ (hu _ hm.1)]; omega
  | ibcTransfer a b v x => rw [show (roundedIn c env s (.ibcTransfer a b v x)) = [a] from rfl, h1 _ (hu _ hm)]; omega
  | warpTransfer a t d r x => rw [show (roundedIn c env s (.warpTransfer a t d r x)) = [a] from rfl, h1 _ (hu _ hm)]; omega
  | bankMultiSend a outs =>
    have : (roundedIn c env s (.bankMultiSend a outs)).count (c.escrow "transfer" ch) = 0 :=
      List.count_eq_zero.2 (by
        intro hx
        obtain ⟨_, _, e⟩ := List.mem_map.1 hx
        exact hu a hm e)
    omega
  | lock signer v amt => have := hdec signer hm; exact this.trans_le (Nat.zero_le _)
  | transfer signer amt x t r => have := hdec signer hm; exact this.trans_le (Nat.zero_le _)
  | unlock signer v amt =>
    have : (roundedIn c env s (.unlock signer v amt)).count (c.escrow "transfer" ch) = 0 :=
      List.count_eq_zero.2 (by
        intro hx
        change _ ∈ (match c.decode signer with
          | some u => (positionsOf s u v).flatMap fun (p : PosEntry) =>
              if v = 2 then [vaultAccount c u v p.time, c.modAddr "dollar/vaults/flexible"]
              else [vaultAccount c u v p.time]
          | none => []) at hx
        cases e : c.decode signer with
        | none => rw [e] at hx; cases hx
        | some u =>
          rw [e] at hx
          obtain ⟨p, _, hp⟩ := List.mem_flatMap.1 hx
          have hv : vaultAccount c u v p.time ≠ c.escrow "transfer" ch := by
            unfold vaultAccount; split <;> exact hmod _
          split at hp
          · rcases List.mem_cons.1 hp with hp | hp
            · exact hv hp.symm
            · exact hmod _ (List.mem_singleton.1 hp).symm
          · exact hv (List.mem_singleton.1 hp).symm)
    omega
  | ibcReceive ch' r amt => exact hesc ch'
  | ibcTimeout p => exact hesc p.channel
  | ibcAckError p => exact hesc p.channel
  | warpReceive a b x => exact (h1 _ (hmod _)).trans_le (Nat.zero_le _)
  | deliver vaa =>
    change List.count _ (match content env vaa with
      | some (.token _ i r _ _) =>
          r :: if s.index < i then [c.modAddr "dollar/vaults/staked", c.modAddr "dollar/vaults/flexible"] else []
      | some (.index ..) => [c.modAddr "dollar/vaults/staked", c.modAddr "dollar/vaults/flexible"]
      | none => []) ≤ if (match content env vaa with
      | some (.token _ _ r _ _) => r == c.escrow "transfer" ch
      | _ => false) = true then 1 else 0
    cases content env vaa with
    | none => exact Nat.zero_le _
    | some q =>
      cases q with
      | index i x => exact h2.trans_le (Nat.zero_le _)
      | token n i r x d =>
        show List.count _ (r :: _) ≤ if (r == c.escrow "transfer" ch) = true then 1 else 0
        rw [List.count_cons]
        have : List.count (c.escrow "transfer" ch) (if s.index < i then
            [c.modAddr "dollar/vaults/staked", c.modAddr "dollar/vaults/flexible"] else []) = 0 := by
          split
          · exact h2
          · rfl
        rw [this, Nat.zero_add]
  | _ => exact Nat.zero_le _

/-- The escrow account of a channel is rounded against at most once for each of these transactions; coins
going out over the channel, index updates and yield payments round against others or against nobody. -/
theorem C94_escrow_roundings {c : Cfg} (hc : c.WF) {h : History} (hsig : History.Signed c h) (channel : String)
    (s : State) : roundsOf c (c.escrow "transfer" channel) h s ≤ h.countP (comesBack c channel) := by
  induction h generalizing s with
  | nil => exact Nat.zero_le _
  | cons x t ih =>
    have h1 := ih (fun y hy => hsig y (List.mem_cons_of_mem _ hy)) (step c x.1 x.2 s)
    have h2 := roundedIn_escrow hc (env := x.1) (s := s) (hsig x List.mem_cons_self) channel
    change _ ≤ if comesBack c channel x = true then 1 else 0 at h2
    unfold roundsOf at h1 ⊢
    show List.count _ ((if _ then _ else _) ++ rounded c t _) ≤ _
    rw [List.count_append, List.countP_cons]
    split
    · omega
    · rw [List.count_nil]; omega

/-- So the holders on the other chain get the growth of the index.  Let a channel have a yield recipient and
let an index announcement be delivered: what is then sent to the recipient or kept for a later attempt, on top
of what was kept before, is at least `vouchers * (i - index) / index` for the vouchers that exist on the other
chain, minus two units and minus the value of one unit of principal for each time coins came back before. -/
theorem C94_vouchers_earn_growth {c : Cfg} (hc : c.WF) {s0 : State} (h0 : Initial c s0) {h : History}
    (hsig : History.Signed c h) (env : Env) (vaa : Bytes) (i : Int) (chain : Nat) {s' : State}
    (hq : content env vaa = some (.index i chain)) (he : exec c env (.deliver vaa) (run c h s0) = .ok () s')
    (channel recipient : String) (hrec : (run c h s0).recipients.get? (0, channel) = some recipient)
    (hcol : (run c h s0).seasonOneEnded = true → (run c h s0).collector ≠ c.escrow "transfer" channel) :
    let s := run c h s0
    let y := packetTotal (sentOn s s' channel) + s'.retryOf 0 channel - s.retryOf 0 channel
    10 ^ 12 * (s.vouchersOf channel * (i - s.index)) ≤
      s.index * (10 ^ 12 * (y + 2) + i * h.countP (comesBack c channel)) := by
  intro s y
  have hr : Reachable c s := .of_run h0 hsig
  obtain ⟨_, _, h3, h4⟩ := C34_index_update hc env vaa i chain s s' hr hq he channel recipient hrec hcol
  obtain ⟨hv0, hr0, hcov⟩ := C34_escrow_covers hc hr channel
  have hlt : s.index < i := (C03_delivered_index hc hr env vaa i chain hq he).1
  have hp := hr.index_pos hc
  have hg := C94_earns_growth hc (a := c.escrow "transfer" channel) (fun e => hc.mod_ne_escrow _ _ _ e.symm)
    (fun e => hc.mod_ne_escrow _ _ _ e.symm) h0 hsig i hlt.le
  have hn := C94_escrow_roundings hc hsig channel s0
  change 10 ^ 12 * (s.balance _ * (i - s.index)) ≤ _ at hg
  have hy : y = yieldAt s (c.escrow "transfer" channel) i := by
    by_cases hx : env.ibc channel = .success ∧ 0 < yieldAt s (c.escrow "transfer" channel) i + s.retryOf 0 channel
    · obtain ⟨k1, k2⟩ := h3 hx
      show packetTotal (sentOn s s' channel) + s'.retryOf 0 channel - s.retryOf 0 channel = _
      rw [k1, k2]
      simp [packetTotal]
    · obtain ⟨k1, k2⟩ := h4 hx
      show packetTotal (sentOn s s' channel) + s'.retryOf 0 channel - s.retryOf 0 channel = _
      rw [k1, k2]
      simp [packetTotal]
  rw [hy]
  have k1 : s.vouchersOf channel * (i - s.index) ≤ s.balance (c.escrow "transfer" channel) * (i - s.index) :=
    mul_le_mul_of_nonneg_right (by omega) (by omega)
  have k2 : s.index * (i * (roundsOf c (c.escrow "transfer" channel) h s0 : Int)) ≤
      s.index * (i * (h.countP (comesBack c channel) : Int)) :=
    mul_le_mul_of_nonneg_left (mul_le_mul_of_nonneg_left (by exact_mod_cast hn) (by omega)) hp.le
  change 10 ^ 12 * (s.balance (c.escrow "transfer" channel) * (i - s.index)) ≤
    s.index * (10 ^ 12 * (yieldAt s (c.escrow "transfer" channel) i + 2) + i * roundsOf c (c.escrow "transfer" channel) h s0) at hg
  rw [mul_add] at hg ⊢
  linarith

-- Non-vacuity: 1 USDN went out over a channel with a recipient, nothing came back; the index rises by a tenth
-- and 0.1 USDN is sent on.
example : let h := Demo.hist1.take 6
    let s := run Demo.cfg h Demo.start
    Initial Demo.cfg Demo.start ∧ content (Demo.env 7) [3] = some (.index 1100000000000 4009) ∧
    (exec Demo.cfg (Demo.env 7) (.deliver [3]) s).isOk = true ∧ s.index = 1000000000000 ∧
    s.recipients.get? (0, "channel-0") = some "noble1remote" ∧ s.seasonOneEnded = false ∧
    s.vouchersOf "channel-0" = 1000000 ∧ h.countP (comesBack Demo.cfg "channel-0") = 0 ∧
    packetTotal (sentOn s (step Demo.cfg (Demo.env 7) (.deliver [3]) s) "channel-0") = 100000 :=
  ⟨Demo.start_initial, by decide +kernel⟩

-- The staked vault holds 5 USDN of alice and bob, the warp account 3 USDN of collateral.
example : let s := run Demo.cfg (Demo.hist1.take 6) Demo.start
    s.balance (Demo.cfg.modAddr "dollar/vaults/staked") = 5000000 ∧
    roundsOf Demo.cfg (Demo.cfg.modAddr "dollar/vaults/staked") (Demo.hist1.take 6) Demo.start = 0 ∧
    yieldAt s (Demo.cfg.modAddr "dollar/vaults/staked") 1100000000000 = 500000 ∧
    yieldAt (run Demo.cfg Demo.histExt Demo.start) (Demo.cfg.modAddr "warp") 1100000000000 = 300000 := by
  decide +kernel

end Dollar
