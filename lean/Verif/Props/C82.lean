import Verif.Lemmas.Range
import Verif.Lemmas.RouteKeys
import Verif.Lemmas.PosKeys
import Verif.Props.C43
import Verif.Props.C57
import Verif.Props.C79

/-
C82: every number the module stores stays in the range of its Go type.
-/
set_option maxRecDepth 100000
namespace Dollar
open Spec MM Proto

namespace Spec

/-- What the Go types of the fields of a message allow: protocol buffer enums are `int32`, strings are bytes, and
the handlers of the portal take a chain as `uint16`. -/
def MsgTyped : Msg → Prop
  | .setYieldRecipient _ provider identifier recipient => I32 provider ∧ Latin identifier ∧ Latin recipient
  | .transferOwnership _ newOwner => Latin newOwner
  | .setPeer _ chain _ _ => chain < 2 ^ 16
  | .setBridgingPath _ chain _ _ => chain < 2 ^ 16
  | _ => True

/-- Every message of the history has well-typed fields and is in a block whose time is between the years 1 and
9999, as the time of a block header is. -/
def HistTyped (h : History) : Prop :=
  ∀ e ∈ h, MsgTyped e.2 ∧ -62135596800 ≤ e.1.time ∧ e.1.time < 253402300800

/-- The address codec returns addresses of at most 255 bytes (`address.MaxAddrLen` of the SDK). -/
def ShortAddresses (c : Cfg) : Prop := ∀ s a, c.decode s = some a → a.length ≤ 255

end Spec

/-! ### Settings -/

/-- The part of `Fits` about settings. -/
structure SFits (s : State) : Prop where
  owner : Latin s.owner
  vPaused : I32 s.vPaused
  recipients : ∀ e ∈ s.recipients, Latin e.2
  peers : ∀ e ∈ s.peers, e.1 < 2 ^ 16 ∧ (encPeer e.2).length < 2 ^ 63
  paths : ∀ e ∈ s.paths, e.1.1 < 2 ^ 16

theorem encPeer_length {t m : Bytes} (ht : t.length = 32) (hm : m.length = 32) :
    (encPeer ⟨t, m⟩).length < 2 ^ 63 := by
  have h1 := varint_length_le 32
  have t1 : (tag 1 2).length = 1 := tag_length (by decide) (by decide)
  have t2 : (tag 2 2).length = 1 := tag_length (by decide) (by decide)
  have n1 : t ≠ [] := by rintro rfl; cases ht
  have n2 : m ≠ [] := by rintro rfl; cases hm
  have e : encPeer ⟨t, m⟩ = marshalLen 1 t ++ (marshalLen 2 m ++ []) := by
    show marshalField 1 (.bs t) ++ (marshalField 2 (.bs m) ++ []) = _
    show (if t = [] then [] else marshalLen 1 t) ++ ((if m = [] then [] else marshalLen 2 m) ++ []) = _
    rw [if_neg n1, if_neg n2]
  rw [e]
  unfold marshalLen
  simp only [List.length_append, ht, hm, t1, t2, List.length_nil]
  omega

theorem SFits.exec {c : Cfg} {env : Env} {m : Msg} {s s' : State} (h : SFits s) (hm : MsgTyped m)
    (hx : exec c env m s = .ok () s') : SFits s' := by
  have go : ∀ {o : String} {v : Int} {r : KV (Int × String) String} {p : KV Nat Peer} {q : KV (Nat × Bytes) Bool},
      s'.owner = o → s'.vPaused = v → s'.recipients = r → s'.peers = p → s'.paths = q → Latin o → I32 v →
      (∀ e ∈ r, Latin e.2) → (∀ e ∈ p, e.1 < 2 ^ 16 ∧ (encPeer e.2).length < 2 ^ 63) → (∀ e ∈ q, e.1.1 < 2 ^ 16) →
      SFits s' := by
    rintro _ _ _ _ _ rfl rfl rfl rfl rfl a b d e f
    exact ⟨a, b, d, e, f⟩
  have un : ∀ {x : Settings}, settings s' = x → s'.owner = x.owner ∧ s'.vPaused = x.vPaused ∧
      s'.recipients = x.recipients ∧ s'.peers = x.peers ∧ s'.paths = x.paths := by
    rintro x rfl; exact ⟨rfl, rfl, rfl, rfl, rfl⟩
  cases settings_step hx with
  | same _ e | paused _ e | portalPaused _ _ e =>
    obtain ⟨a, b, d, f, g⟩ := un e
    exact go a b d f g h.owner h.vPaused h.recipients h.peers h.paths
  | recipients p i r e =>
    obtain ⟨a, b, d, f, g⟩ := un e
    exact go a b d f g h.owner h.vPaused
      (fun x hx => (KV.mem_set hx).elim (fun e => e ▸ hm.2.2) (h.recipients x)) h.peers h.paths
  | vPaused p h0 h3 e =>
    obtain ⟨a, b, d, f, g⟩ := un e
    exact go a b d f g h.owner ⟨by show -2 ^ 31 ≤ p; omega, by show p < 2 ^ 31; omega⟩ h.recipients h.peers h.paths
  | owner o _ e =>
    obtain ⟨a, b, d, f, g⟩ := un e
    exact go a b d f g hm h.vPaused h.recipients h.peers h.paths
  | peers ch t m _ h1 h2 e =>
    obtain ⟨a, b, d, f, g⟩ := un e
    exact go a b d f g h.owner h.vPaused h.recipients
      (fun x hx => (KV.mem_set hx).elim (fun e => e ▸ ⟨hm, encPeer_length h1 h2⟩) (h.peers x)) h.paths
  | paths ch t b' _ _ e =>
    obtain ⟨a, b, d, f, g⟩ := un e
    exact go a b d f g h.owner h.vPaused h.recipients h.peers
      (fun x hx => (KV.mem_set hx).elim (fun e => e ▸ hm) (h.paths x))

/-! ### Histories -/

/-- A key of a route store. -/
def RouteKey (k : Int × String) : Prop := I32 k.1 ∧ Latin k.2

/-- A key of the position store. -/
def PlaceKey (k : PKey) : Prop := k.1.length ≤ 255 ∧ -62135596800 ≤ k.2.2 ∧ k.2.2 < 253402300800

theorem typed_run {c : Cfg} (hc : c.WF) (ha : ShortAddresses c) {s0 : State} (h0 : Initial c s0) (hf : Fits s0)
    {h : History} (hsig : History.Signed c h) (hty : HistTyped h) :
    SFits (run c h s0) ∧ Keyed RouteKey (run c h s0) ∧ Placed PlaceKey (run c h s0) := by
  induction h using List.reverseRecOn with
  | nil =>
    refine ⟨⟨hf.owner, hf.vPaused, fun e he => (hf.recipients e he).2, hf.peers, hf.paths⟩,
      ⟨fun e he => (hf.recipients e he).1, fun e he => (hf.extYield e he).1, fun e he => (hf.retry e he).1, ?_⟩, ?_, ?_⟩
    · show ∀ p ∈ s0.inflight, _
      rw [h0.inflight]; exact nofun
    · show ∀ p ∈ s0.positions, _
      rw [h0.positions]; exact nofun
    · show ∀ p ∈ s0.rewards, _
      rw [h0.rewards]; exact nofun
  | append_singleton t e ih =>
    obtain ⟨env, m⟩ := e
    have ht : History.Signed c t := fun e he => hsig e (List.mem_append_left _ he)
    have hr : Reachable c (run c t s0) := .of_run h0 ht
    obtain ⟨i1, i2, i3⟩ := ih ht fun e he => hty e (List.mem_append_left _ he)
    obtain ⟨hm, t1, t2⟩ := hty (env, m) (List.mem_append_right _ List.mem_cons_self)
    rw [run_append]
    show SFits (step c env m (run c t s0)) ∧ Keyed RouteKey (step c env m (run c t s0)) ∧
      Placed PlaceKey (step c env m (run c t s0))
    rcases step_cases c env m (run c t s0) with q | q
    · rw [q]; exact ⟨i1, i2, i3⟩
    · refine ⟨i1.exec hm q, exec_keyed i2 ?_ q, exec_placed hc hr ?_ i3 q⟩
      · rintro signer p i r rfl
        exact ⟨hm.1, hm.2.1⟩
      · intro signer v amt? a _ hd
        exact ⟨ha signer a hd, t1, t2⟩

/-- The bound on amounts after a history. -/
theorem nrange_run {c : Cfg} (hc : c.WF) {s0 : State} (h0 : Initial c s0) (hlo : 10 ^ 12 ≤ s0.index)
    (hhi : s0.index < 2 ^ 63) {h : History} (hsig : History.Signed c h) :
    NRange (2 ^ 88 * (deliveries c h s0 : Nat)) (2 ^ 88 * (deliveries c h s0 * h.length : Nat)) (run c h s0) := by
  induction h using List.reverseRecOn with
  | nil =>
    have hz : (0 : Int) ≤ 2 ^ 88 * (deliveries c [] s0 * ([] : History).length : Nat) := by positivity
    refine ⟨⟨?_, ?_, ?_, ?_, ?_, ?_⟩, ?_, ?_, ?_⟩
    · show ∀ e ∈ s0.positions, _
      rw [h0.positions]; exact nofun
    · show ∀ e ∈ s0.rewards, _
      rw [h0.rewards]; exact nofun
    · show s0.totalFlexible ≤ _
      rw [h0.totalFlexible]; exact hz
    · show s0.vstats.stakedPrincipal ≤ _
      rw [h0.vstats]; exact hz
    · show 0 ≤ s0.vstats.flexDistributed
      rw [h0.vstats]
    · show s0.vstats.flexDistributed ≤ _
      rw [h0.vstats]; exact hz
    · show 0 ≤ s0.totalYield ∧ s0.totalYield ≤ _
      rw [h0.totalYield]; exact ⟨le_refl _, hz⟩
    · intro p id
      show 0 ≤ s0.extYieldOf p id ∧ s0.extYieldOf p id ≤ _
      unfold State.extYieldOf; rw [h0.extYield]; exact ⟨le_refl _, hz⟩
    · intro p id _
      show s0.retryOf p id ≤ _
      unfold State.retryOf; rw [h0.retry]; exact hz
  | append_singleton t e ih =>
    obtain ⟨env, m⟩ := e
    have ht : History.Signed c t := fun e he => hsig e (List.mem_append_left _ he)
    have hm : m.SignedByUser c := hsig (env, m) (List.mem_append_right _ List.mem_cons_self)
    have hr : Reachable c (run c t s0) := .of_run h0 ht
    have hr0 : Reachable c s0 := .fresh h0
    have ih := ih ht
    have a1 := (C70_absolute hc h0 hlo hhi ht).2.2.2.1
    have a2 := (C70_absolute hc h0 hlo hhi hsig).2.2.2.1
    have hi : 10 ^ 12 ≤ (run c t s0).index := hlo.trans (C02_index_monotone hc hr0 t ht)
    have hd := deliveries_append c t [(env, m)] s0
    rw [run_append] at a2 ⊢
    change (step c env m (run c t s0)).supply ≤ _ at a2
    show NRange _ _ (step c env m (run c t s0))
    have hlen : (t ++ [(env, m)]).length = t.length + 1 := by simp
    rw [hlen]
    generalize deliveries c (t ++ [(env, m)]) s0 = d' at *
    generalize deliveries c t s0 = d at *
    have hdd : d ≤ d' := by omega
    have hmul : 2 ^ 88 * ((d * t.length : Nat) : Int) + 2 ^ 88 * (d' : Int) ≤
        2 ^ 88 * ((d' * (t.length + 1) : Nat) : Int) := by
      have : d * t.length ≤ d' * t.length := Nat.mul_le_mul_right _ hdd
      have e : d' * (t.length + 1) = d' * t.length + d' := by ring
      rw [e]
      push_cast at *
      have h3 : (d : Int) * t.length ≤ d' * t.length := by exact_mod_cast this
      omega
    exact ((ih.widen (S' := 2 ^ 88 * (d' : Int)) (by omega)).step hc hr hm hi (by omega) a2).mono hmul

theorem fits_of_abs {x B : Int} (h : |x| ≤ B) (hB : B < 2 ^ 256) : IntFits x := by
  have := abs_le.1 h
  show x.natAbs < 2 ^ 256
  omega

theorem fits_of_le {x B : Int} (h0 : -B ≤ x) (h : x ≤ B) (hB : B < 2 ^ 256) : IntFits x :=
  fits_of_abs (abs_le.2 ⟨h0, h⟩) hB

/-- C82: on a chain that started with the module's genesis state, during the first 2^80 messages everything the
module stores is in the range of its Go type (`math.Int` holds 256 bits, `uint64`, `int64` and `int32` wrap), as long
as fewer than 2^64 accounts hold coins. -/
theorem C82_fits {c : Cfg} (hc : c.WF) (ha : ShortAddresses c) {s0 : State} (h0 : Initial c s0) (hf : Fits s0)
    (hlo : 10 ^ 12 ≤ s0.index) {h : History} (hsig : History.Signed c h) (hty : HistTyped h)
    (hlen : h.length < 2 ^ 80) (hold : holdersOf c (run c h s0) < 2 ^ 64) : Fits (run c h s0) := by
  have hhi := hf.index.2
  have hr : Reachable c (run c h s0) := .of_run h0 hsig
  obtain ⟨t1, t2, t3⟩ := typed_run hc ha h0 hf hsig hty
  have n := nrange_run hc h0 hlo hhi hsig
  obtain ⟨p1, p2⟩ := C71_principal_bounded hc h0 hlo hhi hsig
  have hd := deliveries_le c h s0
  obtain ⟨hi, _, _, hs, hb⟩ := C70_absolute hc h0 hlo hhi hsig
  have B1 : (2 ^ 88 * (deliveries c h s0 : Nat) : Int) < 2 ^ 256 := by
    have : deliveries c h s0 < 2 ^ 80 := by omega
    omega
  have B2 : (2 ^ 88 * (deliveries c h s0 * h.length : Nat) : Int) < 2 ^ 256 := by
    have : deliveries c h s0 * h.length ≤ 2 ^ 80 * 2 ^ 80 := Nat.mul_le_mul (by omega) (by omega)
    omega
  have z1 : (0 : Int) ≤ 2 ^ 88 * (deliveries c h s0 : Nat) := by positivity
  have z2 : (0 : Int) ≤ 2 ^ 88 * (deliveries c h s0 * h.length : Nat) := by positivity
  generalize (2 ^ 88 * (deliveries c h s0 : Nat) : Int) = S at *
  generalize (2 ^ 88 * (deliveries c h s0 * h.length : Nat) : Int) = T at *
  generalize run c h s0 = s at *
  have hv := hr.vinv hc
  have hg := (hr.led hc).good
  have hsh := hr.shape
  have hp0 : ∀ e ∈ s.positions, 0 ≤ e.2.principal := fun e he =>
    (down_nonneg (hv.entry e he).amount (hv.entry e he).idx).trans (hv.entry e he).prin
  have hpin : ∀ v, 0 ≤ s.positions.sum (prinIn v) := fun v => KV.sum_nonneg fun e he => by
    unfold prinIn; split
    · exact hp0 e he
    · exact le_refl _
  have hamt : ∀ e ∈ s.positions, e.2.amount ≤ S := by
    intro e he
    rcases (hv.entry e he).vault with hv1 | hv1
    · have h1 : amtIn STAKED e.1 e.2 ≤ s.positions.sum (amtIn STAKED) :=
        KV.le_sum_of_mem (fun p hp => by
          unfold amtIn; split
          · exact (hv.entry p hp).amount
          · exact le_refl _) he
      have h2 : amtIn STAKED e.1 e.2 = e.2.amount := if_pos hv1
      have := hv.staked
      have := hb c.stakedAddr
      omega
    · exact (hv.flex e he hv1).trans (hb _)
  have hft : 0 ≤ s.totalFlexible := (hpin _).trans hv.ftot
  have hft' := n.vault.ftot
  constructor
  · exact ⟨by have := hg.index; omega, hi⟩
  · exact lt_of_le_of_lt (C43_never_overcounts hc hr) hold
  · exact fits_of_abs p2 B2
  · exact fits_of_le (by have := n.yield.1; omega) n.yield.2 B2
  · exact t1.owner
  · exact hr.nonce_lt
  · exact t1.vPaused
  · exact fits_of_le (by omega) hft' B2
  · refine ⟨?_, ?_, ?_, ?_, ?_⟩
    · rw [hv.flexP]; exact fits_of_le (by omega) hft' B2
    · rw [hv.flexU]; exact Nat.mod_lt _ (by decide)
    · exact fits_of_le (by have := n.vault.dist0; omega) n.vault.dist B2
    · exact fits_of_le (by have := (hpin STAKED).trans hv.stakedP; omega) n.vault.stot B2
    · rw [hv.stakedU]; exact Nat.mod_lt _ (by decide)
  · rintro ⟨a, v⟩ he
    have e1 : s.principalOf a = v := by
      unfold State.principalOf; rw [(KV.mem_iff_get? hsh.principal).1 he]; rfl
    exact fits_of_abs (e1 ▸ p1 a) B2
  · rintro ⟨⟨p, i⟩, v⟩ he
    have e1 : s.extYieldOf p i = v := by
      unfold State.extYieldOf; rw [(KV.mem_iff_get? hsh.extYield).1 he]; rfl
    have := n.ext p i
    rw [e1] at this
    exact ⟨t2.ext _ he, fits_of_le (by show -T ≤ v; omega) this.2 B2⟩
  · exact fun e he => ⟨t2.recips e he, t1.recipients e he⟩
  · rintro ⟨⟨p, i⟩, v⟩ he
    have e1 : s.retryOf p i = v := by
      unfold State.retryOf; rw [(KV.mem_iff_get? hsh.retry).1 he]; rfl
    have r0 := hg.retry p i
    rw [e1] at r0
    refine ⟨t2.retry _ he, ?_⟩
    by_cases hp : p = IBC
    · subst hp
      have h3 := C34_escrow_covers hc hr i
      have h4 := hb (c.escrow "transfer" i)
      have e2 : s.retryOf 0 i = v := e1
      exact fits_of_le (B := S) (by show -S ≤ v; omega) (by show v ≤ S; omega) B1
    · have := n.retry p i hp
      rw [e1] at this
      exact fits_of_le (by show -T ≤ v; omega) this B2
  · exact t1.peers
  · exact t1.paths
  · intro e he
    have ho := hv.entry e he
    obtain ⟨k1, k2, k3⟩ := t3.pos e he
    have q := n.vault.pos e he
    have h1 := hp0 e he
    have h2 := hamt e he
    have h3 := ho.amount
    refine ⟨⟨k1, ?_, by omega, by omega⟩, fits_of_le (by omega) q.2 B1, ⟨?_, ?_⟩, fits_of_le (by omega) h2 B1, ?_⟩
    · rcases ho.vault with e | e <;> rw [e] <;> decide
    · have := ho.idx; omega
    · exact lt_of_le_of_lt ho.le hi
    · rw [ho.time]; exact ⟨k2, k3⟩
  · intro e he
    obtain ⟨r1, r2, r3⟩ := hv.rew e he
    have k := t3.rew e he
    have q := n.vault.rew e he
    have h1 : 0 ≤ s.positions.sum (below e.1) := KV.sum_nonneg fun p hp => by
      unfold below; split
      · exact down_nonneg (hv.entry p hp).amount (hv.entry p hp).idx
      · exact le_refl _
    refine ⟨⟨by omega, by omega⟩, ?_, fits_of_le (by omega) q.1 B2, fits_of_le q.2.1 q.2.2 B1⟩
    rw [r1]; exact ⟨by omega, by omega⟩

/-- C82: there are never more accounts with coins than units of the coin, so the last condition holds as long as
fewer than 2^64 units (18 million million dollars) exist. -/
theorem C82_holders_le_supply {c : Cfg} (hc : c.WF) {s : State} (hr : Reachable c s) :
    (s.holders : Int) ≤ s.supply ∧ (holdersOf c s : Int) ≤ s.supply := by
  have h1 := C43_never_overcounts hc hr
  have hl := hr.led hc
  have h2 : nz c s ≤ s.bal.sum fun _ v => v := by
    unfold nz
    refine KV.sum_le fun e he => ?_
    have : 0 ≤ e.2 := by
      have := hl.good.bal e.1
      unfold State.balance at this
      rw [(KV.mem_iff_get? hr.shape.bal).1 (show (e.1, e.2) ∈ s.bal from he)] at this
      exact this
    unfold ind
    split <;> omega
  have h3 : (s.bal.sum fun _ v => v) = s.supply := hl.sum
  rw [nz_eq_holdersOf] at h2
  omega

/-- C82: so a node that restarts at any point of such a history reads back exactly the state it had. -/
theorem C82_restart (T : IntText) {c : Cfg} (hc : c.WF) (ha : ShortAddresses c) {s0 : State} (h0 : Initial c s0)
    (hf : Fits s0) (hlo : 10 ^ 12 ≤ s0.index) {h : History} (hsig : History.Signed c h) (hty : HistTyped h)
    (hlen : h.length < 2 ^ 80) (hold : holdersOf c (run c h s0) < 2 ^ 64) {rest : State}
    (nanos : PosKey → Int) (hn : ∀ k, 0 ≤ nanos k ∧ nanos k < 1000000000) (he : SameElsewhere rest (run c h s0)) :
    restart T rest (disk nanos (run c h s0)) = .ok (run c h s0) :=
  C79_restart T c _ rest (.of_run h0 hsig) (C82_fits hc ha h0 hf hlo hsig hty hlen hold) nanos hn he

/-! Example: the chain of C79, with balances, a peer, a path, recipients, a position and amounts to retry. -/

theorem Demo.short : ShortAddresses Demo.cfg := fun _ _ h => Demo.decode_short h

instance (m : Msg) : Decidable (MsgTyped m) := by
  cases m <;> unfold MsgTyped <;> infer_instance

theorem Demo.full_typed : HistTyped Demo.histFull := by unfold HistTyped; decide +kernel

theorem Demo.full_signed : History.Signed Demo.cfg Demo.histFull := fun e he => by
  rcases List.mem_append.1 he with he | he
  · exact Demo.hist3Failed_signed e he
  · cases List.mem_singleton.1 he; exact fun a h => by
      have : Demo.cfg.decode Demo.aliceS = some Demo.alice := by decide
      rw [this] at h; cases h; exact Demo.alice_user

theorem Demo.start_fits : Fits Demo.start := by
  constructor <;> (try simp only [PosFits]) <;> decide +kernel

example : Fits (run Demo.cfg Demo.histFull Demo.start) :=
  C82_fits Demo.cfg_wf Demo.short Demo.start_initial Demo.start_fits (by decide +kernel) Demo.full_signed
    Demo.full_typed (by decide +kernel) (by decide +kernel)

end Dollar
