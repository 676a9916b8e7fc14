import Verif.Lemmas.Ledger
import Verif.Spec.Views

/-
Deliveries in terms of the specification of their content.
-/
set_option linter.unusedSimpArgs false

namespace Dollar
open MM Spec

theorem totalBalances_eq (s : State) : totalBalances s = sumBal s := rfl
theorem totalPrincipals_eq (s : State) : totalPrincipals s = sumPrin s := rfl

/-- A delivery of known content. -/
inductive DeliverDid (c : Cfg) (env : Env) (s s' : State) : Option Content → Prop
  | ignored (cn : Option Content) : cn = none → s'.index = s.index → s'.supply = s.supply →
      s'.totalYield = s.totalYield → s'.totalPrincipal = s.totalPrincipal →
      s'.bal = s.bal → s'.principal = s.principal → s' = { s with events := s'.events } →
      DeliverDid c env s s' cn
  | token (amount : Nat) (i : Int) (rcp : Bytes) (s1 : State) :
      ignore (updateIndex c env i) { s with archive := s'.archive } = .ok () s1 →
      UI c s i s1 → MintOk c s1 rcp amount { s' with events := s1.events } →
      DeliverDid c env s s' (some (.token amount i rcp c.chain c.rawToken))
  | index (i : Int) (m : State) : updateIndex c env i { s with archive := s'.archive } = .ok () m →
      s' = { m with events := s'.events } → UI c s i m → Updated s i m →
      DeliverDid c env s s' (some (.index i c.chain))

theorem MintOk.congr_events {c : Cfg} {s1 m s2 : State} {rcp : Addr} {amt : Int}
    (h : MintOk c s1 rcp amt m) (he : s2 = { m with events := s1.events }) : MintOk c s1 rcp amt s2 := by
  subst he
  refine ⟨h.nonneg, h.allowed, ?_⟩
  have hv : m.events = s1.events := h.moved.events
  have : { m with events := s1.events } = m := by rw [← hv]
  rw [this]
  exact h.moved

/-- `deliver` in terms of content; `sA` is the state with the digest archived. -/
theorem deliver_did {c : Cfg} (hc : c.WF) {env : Env} {bz : Bytes} {s s' : State} {u : Unit}
    (hl : Led c s) (h : deliver c env bz s = .ok u s') :
    ∃ v sA, env.verify bz = some v ∧ v.digest ∉ s.archive ∧
      sA = { s with archive := s.archive ++ [v.digest] } ∧ s'.archive = sA.archive ∧
      Led c sA ∧ DeliverDid c env sA s' (content env bz) := by
  obtain ⟨hl', hp, v, peer, t, mm, m, h1, h2, h3, h4, h5, h6, h7, h8, h9, rfl⟩ := deliver_eff hc hl h
  have hin : content env bz = contentOf mm.payload := by
    unfold content innerPayload
    simp only [h1, h5, h8]
  refine ⟨v, _, h1, h2, rfl, ?_, hl.congr, ?_⟩
  · cases h9 with
    | ignored _ e => rw [e]
    | token p s1 m1 _ _ _ _ _ hu hm e =>
      rw [e]
      show m1.archive = _
      rw [show m1.archive = s1.archive from hm.moved.archive, hu.archive]
    | index i _ _ _ hu _ => exact hu.archive
  rw [hin]
  unfold contentOf
  cases h9 with
  | ignored ht e =>
    simp only [ht]
    subst e
    exact .ignored _ rfl rfl rfl rfl rfl rfl rfl rfl
  | token p s1 m1 ht hd hch htk hi hu hm e =>
    have ha : m1.archive = s.archive ++ [v.digest] :=
      (show m1.archive = s1.archive from hm.moved.archive).trans hu.archive
    simp only [ht, hd, ← hch, ← htk]
    rw [e]
    refine .token _ _ _ s1 ?_ hu ?_
    · show ignore (updateIndex c env p.index) { s with archive := m1.archive } = _
      rw [ha]; exact hi
    · exact hm.congr_events rfl
  | index i ht hd hx hu hup =>
    simp only [ht, hd]
    refine .index i m ?_ rfl hu hup
    show updateIndex c env i { s with archive := m.archive } = _
    rw [show m.archive = s.archive ++ [v.digest] from hu.archive]
    exact hx

theorem MintOk.gap {c : Cfg} (hc : c.WF) {s1 s' : State} {rcp : Addr} {amt : Int}
    (hi : 0 < s1.index) (h : MintOk c s1 rcp amt s') :
    s1.totalPrincipal - sumPrin s1 ≤ s'.totalPrincipal - sumPrin s' ∧
      s'.totalPrincipal - sumPrin s' ≤ s1.totalPrincipal - sumPrin s1 + 1 := by
  have hm := h.moved
  have hg := hm.gap h.nonneg hi
  have e1 : (minted s1 c.moduleAddr amt).totalPrincipal = s1.totalPrincipal := rfl
  have e2 : sumPrin (minted s1 c.moduleAddr amt) = sumPrin s1 := rfl
  rw [e1, e2] at hg
  refine ⟨hg, ?_⟩
  by_cases h0 : amt = 0
  · have := hm.zero h0
    rw [this, e1, e2]; omega
  by_cases hy : rcp = c.yieldAddr
  · have := hm.skip (.inr hy)
    have e3 : sumPrin s' = sumPrin s1 := by unfold sumPrin; rw [this.1]; rfl
    rw [this.2.1, e3, e1]; omega
  · have ht := hm.total h0 hc.yield_ne_module.symm hy
    have hs := hm.sumP h0 hc.yield_ne_module.symm hy
    rw [if_pos rfl, if_neg (h.ne_module hc), e1] at ht
    rw [if_neg (by simp), if_pos (h.ne_module hc), if_pos rfl, e2] at hs
    have := up_le_down_succ h.nonneg hi
    have e4 : (minted s1 c.moduleAddr amt).index = s1.index := rfl
    rw [e4] at ht hs
    omega

theorem TransferOk.sender {c : Cfg} {env : Env} {signer : String} {amt : Int} {chain : Nat}
    {token recipient : Bytes} {s s' : State}
    (h : TransferOk c env signer amt chain token recipient s s') :
    ∃ a, c.decode signer = some a := by
  obtain ⟨_, a, _, _, hd, _⟩ := h.run
  exact ⟨a, hd⟩

/-- What a portal transfer leaves alone. -/
def transferCore (s : State) : State :=
  { s with bal := [], supply := 0, principal := [], holders := 0, totalPrincipal := 0, nonce := 0,
           posted := [], events := [] }

/-- Totals after a portal transfer. -/
structure TransferDid (c : Cfg) (a : Addr) (amt : Int) (s s' : State) : Prop where
  bal : ∀ x, s'.balance x = s.balance x - (if x = a then amt else 0)
  supply : s'.supply = s.supply - amt
  index : s'.index = s.index
  totalYield : s'.totalYield = s.totalYield
  archive : s'.archive = s.archive
  gap : c.IsUser a → s'.totalPrincipal - sumPrin s' = s.totalPrincipal - sumPrin s
  season : s'.seasonOneEnded = s.seasonOneEnded
  collector : s'.collector = s.collector
  yprin : s'.principalOf c.yieldAddr = s.principalOf c.yieldAddr
  core : transferCore s' = transferCore s
  nonce : s'.nonce = (s.nonce + 1) % 2 ^ 32
  prin : ∀ x, x ≠ a → x ≠ c.moduleAddr → s'.principalOf x = s.principalOf x

theorem TransferOk.did {c : Cfg} {env : Env} {signer : String} {amt : Int} {chain : Nat}
    {token recipient : Bytes} {s s' : State}
    (h : TransferOk c env signer amt chain token recipient s s') {a : Addr}
    (ha : c.decode signer = some a) : TransferDid c a amt s s' := by
  obtain ⟨peer, sender, m, _, hd, _, _, hb, e⟩ := h.run
  rw [ha] at hd; cases hd
  have hbal := hb.bal
  have hsup := hb.supply
  obtain ⟨q, hq, _, rfl⟩ := hb.mid
  rw [e]
  refine ⟨hbal, hsup, ?_, ?_, ?_, ?_, ?_, ?_, hq.yield_prin, ?_, hq.nonce,
    fun x h1 h2 => hq.prin_same h1 h2⟩
  · exact hq.index
  · exact hq.totalYield
  · exact hq.archive
  · intro hu
    show q.totalPrincipal - sumPrin q = s.totalPrincipal - sumPrin s
    by_cases h0 : amt = 0
    · rw [hq.zero h0]; rfl
    by_cases hy : c.moduleAddr = c.yieldAddr
    · rcases hq.not_yield h0 hy with hh | hh
      · exact absurd hh hu.ne_yield
      · exact absurd hh hu.ne_module
    have h1 := hq.total h0 hu.ne_yield hy
    have h2 := hq.sumP h0 hu.ne_yield hy
    rw [if_neg hu.ne_module, if_pos rfl] at h1
    rw [if_pos hu.ne_module, if_neg (by simp)] at h2
    rw [h1, h2]
    show s.totalPrincipal + 0 - _ - (sumPrin s - _ + 0) = _
    ring
  · exact hq.seasonOneEnded
  · exact hq.collector
  · have := congrArg transferCore hq.frame
    exact this

end Dollar
