import Verif.Lemmas.Disk
import Verif.Spec.DemoExt

/-
C79: a node that stops and starts again from the bytes of its store has the state it had.
-/
namespace Dollar
open Proto Spec

namespace Spec

/-- Two states agree on what other modules keep (bank, wormhole, hyperlane, IBC) and on what was emitted. -/
structure SameElsewhere (s s' : State) : Prop where
  bal : s.bal = s'.bal
  supply : s.supply = s'.supply
  archive : s.archive = s'.archive
  posted : s.posted = s'.posted
  collateral : s.collateral = s'.collateral
  ibcOut : s.ibcOut = s'.ibcOut
  inflight : s.inflight = s'.inflight
  vouchers : s.vouchers = s'.vouchers
  warpOut : s.warpOut = s'.warpOut
  events : s.events = s'.events

end Spec

theorem readOpt_some (x : α) : readOpt (some x) = .ok x := rfl

set_option maxHeartbeats 1000000 in
theorem restart_shape (T : IntText) {s rest : State} (hs : Shape s) (hf : Fits s) (nanos : PosKey → Int)
    (hn : ∀ k, 0 ≤ nanos k ∧ nanos k < 1000000000) (he : SameElsewhere rest s) :
    restart T rest (disk nanos s) = .ok s := by
  have sc := C73_scalars T
  have w1 : (disk nanos s).walk .principal (fun k v => do .ok (k, ← readInt T v)) = .ok s.principal := by
    refine walk_disk hf hs nanos hs.principal (fun e => (.principal e.1, encInt e.2)) ?_ (fun _ _ => rfl) ?_
    · intro k v hk
      cases k <;> simp only [SKey.coll, reduceCtorEq] at hk
      simp [stored]
    · intro e he
      show (readInt T (encInt e.2) >>= fun x => _) = _
      rw [readInt_encInt T (hf.principal e he)]; rfl
  have w2 : (disk nanos s).walk .extYield (fun k v => do .ok (← readRoute k, ← readInt T v)) = .ok s.extYield := by
    refine walk_disk hf hs nanos hs.extYield (fun e => (.extYield e.1.1 (ascii e.1.2), encInt e.2)) ?_ (fun _ _ => rfl) ?_
    · intro k v hk
      cases k <;> simp only [SKey.coll, reduceCtorEq] at hk
      simp [stored]
    · intro e he
      obtain ⟨⟨a, b⟩, d⟩ := hf.extYield e he
      show (readRoute (encInt32 e.1.1 ++ ascii e.1.2) >>= fun x => _) = _
      rw [readRoute_enc a b]
      show (readInt T (encInt e.2) >>= fun x => _) = _
      rw [readInt_encInt T d]; rfl
  have w3 : (disk nanos s).walk .recipient (fun k v => do .ok (← readRoute k, str v)) = .ok s.recipients := by
    refine walk_disk hf hs nanos hs.recipients (fun e => (.recipient e.1.1 (ascii e.1.2), ascii e.2)) ?_ (fun _ _ => rfl) ?_
    · intro k v hk
      cases k <;> simp only [SKey.coll, reduceCtorEq] at hk
      simp [stored]
    · intro e he
      obtain ⟨⟨a, b⟩, d⟩ := hf.recipients e he
      show (readRoute (encInt32 e.1.1 ++ ascii e.1.2) >>= fun x => .ok (x, str (ascii e.2))) = _
      rw [readRoute_enc a b, str_ascii d]; rfl
  have w4 : (disk nanos s).walk .retry (fun k v => do .ok (← readRoute k, ← readInt T v)) = .ok s.retry := by
    refine walk_disk hf hs nanos hs.retry (fun e => (.retry e.1.1 (ascii e.1.2), encInt e.2)) ?_ (fun _ _ => rfl) ?_
    · intro k v hk
      cases k <;> simp only [SKey.coll, reduceCtorEq] at hk
      simp [stored]
    · intro e he
      obtain ⟨⟨a, b⟩, d⟩ := hf.retry e he
      show (readRoute (encInt32 e.1.1 ++ ascii e.1.2) >>= fun x => _) = _
      rw [readRoute_enc a b]
      show (readInt T (encInt e.2) >>= fun x => _) = _
      rw [readInt_encInt T d]; rfl
  have w5 : (disk nanos s).walk .peer (fun k v => do .ok ((← readChain k).1, ← decPeer T v)) = .ok s.peers := by
    refine walk_disk hf hs nanos hs.peers (fun e => (.peer e.1, encPeer e.2)) ?_ (fun _ _ => rfl) ?_
    · intro k v hk
      cases k <;> simp only [SKey.coll, reduceCtorEq] at hk
      simp [stored]
    · intro e he
      obtain ⟨a, b⟩ := hf.peers e he
      show (readChain (toBE 2 e.1) >>= fun x => _) = _
      have := readChain_enc a []
      rw [List.append_nil] at this
      rw [this]
      show (decPeer T (encPeer e.2) >>= fun x => _) = _
      rw [C73_peer T e.2 b]; rfl
  have w6 : (disk nanos s).walk .path (fun k v => do .ok (← readChain k, ← readOpt (decBool v))) = .ok s.paths := by
    refine walk_disk hf hs nanos hs.paths (fun e => (.path e.1.1 e.1.2, encBool e.2)) ?_ (fun _ _ => rfl) ?_
    · intro k v hk
      cases k <;> simp only [SKey.coll, reduceCtorEq] at hk
      simp [stored]
    · intro e he
      show (readChain (toBE 2 e.1.1 ++ e.1.2) >>= fun x => _) = _
      rw [readChain_enc (hf.paths e he)]
      show (readOpt (decBool (encBool e.2)) >>= fun x => _) = _
      rw [sc.1]; rfl
  have w7 : (disk nanos s).walk .position (fun k v => do .ok (← readOpt (decPos k), ← decPosition T v)) =
      .ok s.positions := by
    refine walk_disk hf hs nanos hs.positions (fun e => (.position e.1, encPosition e.2 (nanos e.1))) ?_ (fun _ _ => rfl) ?_
    · intro k v hk
      cases k <;> simp only [SKey.coll, reduceCtorEq] at hk
      simp [stored]
    · intro e he
      obtain ⟨a, b, d, f, g⟩ := hf.positions e he
      show (readOpt (decPos (encPos e.1)) >>= fun x => _) = _
      rw [decPos_enc a]
      show (decPosition T (encPosition e.2 (nanos e.1)) >>= fun x => _) = _
      rw [C73_position T e.2 _ b d f g (hn _)]; rfl
  have w8 : (disk nanos s).walk .reward (fun k v => do .ok (← readOpt ((decInt64 k).map Prod.fst), ← decReward T v)) =
      .ok s.rewards := by
    refine walk_disk hf hs nanos hs.rewards (fun e => (.reward e.1, encReward e.2)) ?_ (fun _ _ => rfl) ?_
    · intro k v hk
      cases k <;> simp only [SKey.coll, reduceCtorEq] at hk
      simp [stored]
    · intro e he
      obtain ⟨a, b, d, f⟩ := hf.rewards e he
      show (readOpt ((decInt64 (encInt64 e.1)).map Prod.fst) >>= fun x => _) = _
      rw [sc.2.2.2.1 e.1 a]
      show (decReward T (encReward e.2) >>= fun x => _) = _
      rw [C73_reward T e.2 b d f]; rfl
  obtain ⟨v1, v2, v3, v4, v5⟩ := hf.vstats
  unfold restart
  rw [item_disk hf hs nanos (k := .paused) (v := encBool s.paused) (by simp [stored]), sc.1]
  simp only [readOpt_some, PRes.ok_bind]
  rw [item_disk hf hs nanos (k := .index) (v := encInt64 s.index) (by simp [stored]), sc.2.2.2.1 _ hf.index]
  simp only [readOpt_some, PRes.ok_bind, Option.map_some]
  rw [item_disk hf hs nanos (k := .stats) (v := encStats s.holders s.totalPrincipal s.totalYield) (by simp [stored]),
    C73_stats T _ _ _ hf.holders hf.totalPrincipal hf.totalYield, PRes.ok_bind,
    item_disk hf hs nanos (k := .owner) (v := ascii s.owner) (by simp [stored]), str_ascii hf.owner, PRes.ok_bind,
    item_disk hf hs nanos (k := .portalPaused) (v := encBool s.portalPaused) (by simp [stored]), sc.1]
  simp only [readOpt_some, PRes.ok_bind]
  rw [item_disk hf hs nanos (k := .nonce) (v := encUint32 s.nonce) (by simp [stored]), sc.2.1 _ hf.nonce]
  simp only [readOpt_some, PRes.ok_bind]
  rw [item_disk hf hs nanos (k := .vPaused) (v := encInt32 s.vPaused) (by simp [stored]), sc.2.2.2.2 _ hf.vPaused]
  simp only [readOpt_some, PRes.ok_bind, Option.map_some]
  rw [item_disk hf hs nanos (k := .seasonOneEnded) (v := encBool s.seasonOneEnded) (by simp [stored]), sc.1]
  simp only [readOpt_some, PRes.ok_bind]
  rw [item_disk hf hs nanos (k := .collector) (v := s.collector) (by simp [stored]), PRes.ok_bind,
    item_disk hf hs nanos (k := .totalFlexible) (v := encInt s.totalFlexible) (by simp [stored]),
    readInt_encInt T hf.totalFlexible, PRes.ok_bind,
    item_disk hf hs nanos (k := .vstats) (v := encVStats s.vstats) (by simp [stored]),
    C73_vault_stats T _ v1 v2 v3 v4 v5, PRes.ok_bind, w1, PRes.ok_bind, w2, PRes.ok_bind, w3, PRes.ok_bind, w4,
    PRes.ok_bind, w5, PRes.ok_bind]
  rw [w6, PRes.ok_bind, w7, PRes.ok_bind, w8, PRes.ok_bind]
  rw [he.bal, he.supply, he.archive, he.posted, he.collateral, he.ibcOut, he.inflight, he.vouchers, he.warpOut,
    he.events]

/-- C79: from the bytes in its store (and the state of the other modules) a restarted node reads exactly the state it
had, whatever history led there and whatever the nanoseconds of the times of positions are. -/
theorem C79_restart (T : IntText) (c : Cfg) (s rest : State) (hr : Reachable c s) (hf : Fits s)
    (nanos : PosKey → Int) (hn : ∀ k, 0 ≤ nanos k ∧ nanos k < 1000000000) (he : SameElsewhere rest s) :
    restart T rest (disk nanos s) = .ok s :=
  restart_shape T hr.shape hf nanos hn he

/-- C79: so nothing the module does depends on anything but the bytes: states with the same bytes are the same and
have the same future. -/
theorem C79_bytes_determine (c : Cfg) (s s' : State) (hr : Reachable c s) (hr' : Reachable c s')
    (hf : Fits s) (hf' : Fits s') (nanos nanos' : PosKey → Int) (hn : ∀ k, 0 ≤ nanos k ∧ nanos k < 1000000000)
    (hn' : ∀ k, 0 ≤ nanos' k ∧ nanos' k < 1000000000) (he : SameElsewhere s s')
    (hd : disk nanos s = disk nanos' s') : ∀ hist, run c hist s = run c hist s' := by
  have e1 := C79_restart decimal c s s hr hf nanos hn ⟨rfl, rfl, rfl, rfl, rfl, rfl, rfl, rfl, rfl, rfl⟩
  have e2 := C79_restart decimal c s' s hr' hf' nanos' hn' he
  rw [hd, e2] at e1
  cases e1
  exact fun _ => rfl

/-! Example: a state with balances, a peer, a path, rewards, positions, recipients and a retry amount. -/

namespace Demo

/-- Two routes with amounts to retry, and a staked position. -/
def histFull : History := histExtFailed ++ [(env 9, .lock aliceS 1 (some 1500000))]

theorem reachFull : Reachable cfg (run cfg histFull start) :=
  .of_run start_initial fun e he => by
    rcases List.mem_append.1 he with he | he
    · exact hist3Failed_signed e he
    · cases List.mem_singleton.1 he; exact fun a h => by
        have : cfg.decode aliceS = some alice := by decide
        rw [this] at h; cases h; exact alice_user

end Demo

theorem Demo.fitsFull : Fits (run Demo.cfg Demo.histFull Demo.start) := by
  constructor <;> (try simp only [PosFits]) <;> decide +kernel

/-- Everything the module knew is lost; what the other modules keep is there. -/
def Demo.lost (s : State) : State :=
  { Demo.start with
    bal := s.bal, supply := s.supply, archive := s.archive, posted := s.posted, collateral := s.collateral,
    ibcOut := s.ibcOut, inflight := s.inflight, vouchers := s.vouchers, warpOut := s.warpOut, events := s.events }

theorem Demo.lost_same (s : State) : SameElsewhere (Demo.lost s) s := ⟨rfl, rfl, rfl, rfl, rfl, rfl, rfl, rfl, rfl, rfl⟩

example : restart decimal (Demo.lost (run Demo.cfg Demo.histFull Demo.start))
    (disk (fun _ => 999999999) (run Demo.cfg Demo.histFull Demo.start)) = .ok (run Demo.cfg Demo.histFull Demo.start) :=
  C79_restart decimal Demo.cfg _ _ Demo.reachFull Demo.fitsFull _ (fun _ => ⟨by decide, by decide⟩) (Demo.lost_same _)

example : (run Demo.cfg Demo.histFull Demo.start).positions.length = 1 ∧
    (run Demo.cfg Demo.histFull Demo.start).retry.length = 2 ∧
    (disk (fun _ => 999999999) (run Demo.cfg Demo.histFull Demo.start)).length = 27 := by decide +kernel

end Dollar
