import Verif.Lemmas.PacketJson
import Verif.Lemmas.Base64Time
import Verif.Spec.Acks
import Verif.Props.C37
import Verif.Props.C111

/-
C117: an acknowledgement either pays a packet back and queues it again, or does neither.
-/
set_option maxRecDepth 100000
namespace Dollar
open MM Spec

/-! ### The text of an acknowledgement is read back -/

theorem escape_b64 {n : Nat} (h : n < 64) : Json.escape (Json.b64Char n) = [Json.b64Char n] := by
  interval_cases n <;> decide

theorem escape_b64s (b : Bytes) : (Json.b64 b).flatMap Json.escape = Json.b64 b := by
  induction b using Json.b64.induct with
  | case1 a b c t ih =>
    have ha := a.toNat_lt; have hb := b.toNat_lt; have hc := c.toNat_lt
    unfold Json.b64
    simp only [List.flatMap_cons, ih]
    rw [escape_b64 (by omega), escape_b64 (by omega), escape_b64 (by omega), escape_b64 (by omega)]
    rfl
  | case2 a b =>
    have ha := a.toNat_lt; have hb := b.toNat_lt
    unfold Json.b64
    simp only [List.flatMap_cons, List.flatMap_nil]
    rw [escape_b64 (by omega), escape_b64 (by omega), escape_b64 (by omega)]
    rfl
  | case3 a =>
    have ha := a.toNat_lt
    unfold Json.b64
    simp only [List.flatMap_cons, List.flatMap_nil]
    rw [escape_b64 (by omega), escape_b64 (by omega)]
    rfl
  | case4 => rfl

theorem text_result (b : Bytes) : (Ack.result b).text = "{\"result\":\"".toList ++ Json.b64 b ++ "\"}".toList := by
  have e : (Ack.result b).text = '{' :: ((Json.quote "result".toList ++
      ':' :: ('"' :: ((String.ofList (Json.b64 b)).toList.flatMap Json.escape ++ ['"']))) ++ ['}']) := rfl
  have e3 : (String.ofList (Json.b64 b)).toList = Json.b64 b := String.toList_ofList
  rw [e, e3, escape_b64s]
  have e2 : Json.quote "result".toList = "\"result\"".toList := by decide
  rw [e2]
  simp

theorem text_error (e : String) : (Ack.error e).text = "{\"error\":".toList ++ Json.quote e.toList ++ "}".toList := by
  have h : (Ack.error e).text = '{' :: ((Json.quote "error".toList ++ ':' :: Json.quote e.toList) ++ ['}']) := rfl
  have e2 : Json.quote "error".toList = "\"error\"".toList := by decide
  rw [h, e2]
  simp

theorem delivered_iff (ack : List Char) : Delivered ack ↔ ∃ b, ack = (Ack.result b).text := by
  unfold Delivered
  simp only [text_result]

theorem refused_iff (ack : List Char) : Refused ack ↔ ∃ e, ack = (Ack.error e).text := by
  unfold Refused
  simp only [text_error]

theorem assign_result (o : Bool) (r : List Char) :
    Ack.assign o [("result".toList, r)] = (Json.unb64 r).map .result := by
  rfl

theorem assign_error (o : Bool) (e : List Char) :
    Ack.assign o [("error".toList, e)] = some (.error (String.ofList e)) := by
  rfl

/-- C117: an acknowledgement with a result is read back, in whatever order its members are assigned. -/
theorem C117_read_result (o : Bool) (b : Bytes) (rest : List Char) :
    Ack.read o ((Ack.result b).text ++ rest) = some (.result b) := by
  unfold Ack.read Ack.text
  simp only
  rw [Json.readObject_written]
  simp only [Option.bind_some, List.map_cons, List.map_nil, String.toList_ofList]
  rw [assign_result, Json.unb64_b64]
  rfl

/-- C117: an acknowledgement with an error is read back, whatever characters the error contains. -/
theorem C117_read_error (o : Bool) (e : String) (rest : List Char) :
    Ack.read o ((Ack.error e).text ++ rest) = some (.error e) := by
  unfold Ack.read Ack.text
  simp only
  rw [Json.readObject_written]
  simp only [Option.bind_some, List.map_cons, List.map_nil]
  rw [assign_error, String.ofList_toList]

/-! ### The stack -/

theorem packetAckText_out (app : TransferApp) (c : Cfg) (p : IbcOut) (memo : String) (o o' : Bool) (ack : List Char)
    (s : State) (h : p ∉ s.inflight) : packetAckText app c p memo o o' ack s = .err .transferFailed s := by
  unfold packetAckText
  simp only [bind_apply, get_apply]
  rw [if_pos h]
  rfl

theorem packetAckText_eq (app : TransferApp) (c : Cfg) (p : IbcOut) (memo : String) (o o' : Bool) (ack : List Char)
    (s : State) (h : p ∈ s.inflight) :
    packetAckText app c p memo o o' ack s = transferAck app c p o' ack
      (if (Ack.read o ack).map Ack.success = some false ∧ ownPacket c p = true then retryAdded s IBC p.channel p.amount
        else s) := by
  unfold packetAckText onAckText
  simp only [bind_apply, get_apply]
  rw [if_neg (not_not.2 h)]
  have hr := C111_read (Packet.mk (packetData c p) memo) []
  rw [List.append_nil] at hr
  rw [hr]
  cases ha : Ack.read o ack with
  | none =>
    rw [if_neg (fun hh => nomatch hh.1)]
    rfl
  | some a =>
    have key : ∀ b : Bool, onAck c "transfer" p.channel (some (packetData c p)) (some b) (transferAck app c p o' ack) s =
        transferAck app c p o' ack (if some b = some false ∧ ownPacket c p = true then
          retryAdded s IBC p.channel p.amount else s) := by
      intro b
      unfold onAck
      cases b with
      | true =>
        rw [if_neg (fun hh => nomatch hh.1)]
      | false =>
        simp only [bind_apply, addAmountToRetry_packet, true_and]
    exact key a.success

/-- C117: an error acknowledgement does what the system model's `ibcAckError` does: the packet is refunded, and its
amount is queued if it was yield. -/
theorem C117_error (c : Cfg) (p : IbcOut) (memo : String) (o o' : Bool) (ack : List Char) (ha : Refused ack) (s : State)
    (hv : p.amount ≤ s.vouchersOf p.channel) :
    packetAckText .pinned c p memo o o' ack s = packetFailed c p false s := by
  obtain ⟨e, rfl⟩ := (refused_iff ack).1 ha
  by_cases hp : p ∈ s.inflight
  · rw [packetFailed_eq _ _ _ _ hp (by omega), packetAckText_eq _ _ _ _ _ _ _ _ hp]
    have hr := fun o => C117_read_error o e []
    simp only [List.append_nil] at hr
    unfold transferAck
    simp only [hr]
    rw [if_neg (fun h => h.2 rfl)]
    simp only [Option.map_some, Ack.success, true_and]
  · rw [packetAckText_out _ _ _ _ _ _ _ _ hp]
    unfold packetFailed
    simp only [bind_apply, get_apply]
    rw [if_pos hp]
    rfl

/-- C117: a result acknowledgement does what the system model's `ibcAckSuccess` does: nothing but forget the packet. -/
theorem C117_result (c : Cfg) (p : IbcOut) (memo : String) (o o' : Bool) (ack : List Char) (ha : Delivered ack) :
    packetAckText .pinned c p memo o o' ack = packetAcked c p := by
  obtain ⟨b, rfl⟩ := (delivered_iff ack).1 ha
  funext s
  have hr := fun o => C117_read_result o b []
  simp only [List.append_nil] at hr
  unfold packetAcked
  simp only [bind_apply, get_apply]
  by_cases hp : p ∈ s.inflight
  · rw [packetAckText_eq _ _ _ _ _ _ _ _ hp, if_neg (not_not.2 hp)]
    unfold transferAck
    simp only [hr]
    rw [if_neg (fun h => h.2 rfl)]
    simp only [Option.map_some, Ack.success, Option.some.injEq, Bool.true_eq_false, false_and, if_false]
    rfl
  · rw [packetAckText_out _ _ _ _ _ _ _ _ hp, if_pos hp]
    rfl

/-- C117: every other text makes the transaction fail, so that nothing of it stays. -/
theorem C117_other (c : Cfg) (p : IbcOut) (memo : String) (o o' : Bool) (ack : List Char) (hd : ¬ Delivered ack)
    (hr : ¬ Refused ack) (s : State) : ∃ s', packetAckText .pinned c p memo o o' ack s = .err .transferFailed s' := by
  by_cases hp : p ∈ s.inflight
  · rw [packetAckText_eq _ _ _ _ _ _ _ _ hp]
    unfold transferAck
    cases ha : Ack.read o' ack with
    | none => exact ⟨_, rfl⟩
    | some a =>
      simp only
      by_cases ht : a.text = ack
      · cases a with
        | result b => exact absurd ((delivered_iff _).2 ⟨b, ht.symm⟩) hd
        | error e => exact absurd ((refused_iff _).2 ⟨e, ht.symm⟩) hr
        | empty =>
          rw [if_neg (fun h => h.2 ht)]
          exact ⟨_, rfl⟩
      · rw [if_pos ⟨rfl, ht⟩]
        exact ⟨_, rfl⟩
  · exact ⟨_, packetAckText_out _ _ _ _ _ _ _ _ hp⟩

theorem transferAck_canonical (c : Cfg) (p : IbcOut) (o o' : Bool) (ack : List Char) (s : State)
    (h : Delivered ack ∨ Refused ack) : transferAck .pinned c p o ack s = transferAck .pinned c p o' ack s := by
  rcases h with h | h
  · obtain ⟨b, rfl⟩ := (delivered_iff ack).1 h
    have hr := fun o => C117_read_result o b []
    simp only [List.append_nil] at hr
    unfold transferAck
    simp only [hr]
  · obtain ⟨e, rfl⟩ := (refused_iff ack).1 h
    have hr := fun o => C117_read_error o e []
    simp only [List.append_nil] at hr
    unfold transferAck
    simp only [hr]

theorem read_canonical (o o' : Bool) (ack : List Char) (h : Delivered ack ∨ Refused ack) :
    Ack.read o ack = Ack.read o' ack := by
  rcases h with h | h
  · obtain ⟨b, rfl⟩ := (delivered_iff ack).1 h
    have hr := fun o => C117_read_result o b []
    simp only [List.append_nil] at hr
    rw [hr, hr]
  · obtain ⟨e, rfl⟩ := (refused_iff ack).1 h
    have hr := fun o => C117_read_error o e []
    simp only [List.append_nil] at hr
    rw [hr, hr]

/-- C117: what a transaction with an acknowledgement leaves behind does not depend on the order in which Go iterates
over the members of the acknowledgement, in neither of its two readings. -/
theorem C117_same (c : Cfg) (p : IbcOut) (memo : String) (o1 o2 o3 o4 : Bool) (ack : List Char) (s : State) :
    runTx (packetAckText .pinned c p memo o1 o2 ack) s = runTx (packetAckText .pinned c p memo o3 o4 ack) s := by
  by_cases h : Delivered ack ∨ Refused ack
  · have e : packetAckText .pinned c p memo o1 o2 ack s = packetAckText .pinned c p memo o3 o4 ack s := by
      by_cases hp : p ∈ s.inflight
      · rw [packetAckText_eq _ _ _ _ _ _ _ _ hp, packetAckText_eq _ _ _ _ _ _ _ _ hp, read_canonical o1 o3 ack h,
          transferAck_canonical c p o2 o4 ack _ h]
      · rw [packetAckText_out _ _ _ _ _ _ _ _ hp, packetAckText_out _ _ _ _ _ _ _ _ hp]
    unfold runTx
    rw [e]
  · obtain ⟨s1, e1⟩ := C117_other c p memo o1 o2 ack (fun hh => h (.inl hh)) (fun hh => h (.inr hh)) s
    obtain ⟨s2, e2⟩ := C117_other c p memo o3 o4 ack (fun hh => h (.inl hh)) (fun hh => h (.inr hh)) s
    unfold runTx
    rw [e1, e2]

/-- C117: when the acknowledgement of a packet is accepted, the packet was in flight and is no longer, and either it
was delivered and no retry amount and no balance changes; or it was refused, its vouchers are gone from the books, and
it is queued for another try if, and only if, it was yield that now lies in the escrow account again; otherwise its
sender has the money back. -/
theorem C117_paired {c : Cfg} (hc : c.WF) (p : IbcOut) (memo : String) (o o' : Bool) (ack : List Char) (s s' : State)
    (h : packetAckText .pinned c p memo o o' ack s = .ok () s') :
    p ∈ s.inflight ∧ s'.inflight = s.inflight.erase p ∧
    ((Delivered ack ∧ s'.retry = s.retry ∧ s'.bal = s.bal ∧ s'.vouchers = s.vouchers) ∨
     (Refused ack ∧ s'.vouchersOf p.channel = s.vouchersOf p.channel - p.amount ∧
      (∀ prov ch, s'.retryOf prov ch = s.retryOf prov ch +
        (if p.sender = c.escrowAddr p.channel ∧ prov = 0 ∧ ch = p.channel then p.amount else 0)) ∧
      ∀ x, s'.balance x = s.balance x - (if x = c.escrowAddr p.channel then p.amount else 0)
        + (if x = p.sender then p.amount else 0))) := by
  have hp : p ∈ s.inflight := by
    by_contra hp
    rw [packetAckText_out _ _ _ _ _ _ _ _ hp] at h
    cases h
  by_cases hd : Delivered ack
  · rw [C117_result c p memo o o' ack hd] at h
    obtain ⟨_, rfl⟩ := packetAcked_ok h
    exact ⟨hp, rfl, .inl ⟨hd, rfl, rfl, rfl⟩⟩
  by_cases hr : Refused ack
  · obtain ⟨e, rfl⟩ := (refused_iff ack).1 hr
    have hre := fun o => C117_read_error o e []
    simp only [List.append_nil] at hre
    rw [packetAckText_eq _ _ _ _ _ _ _ _ hp] at h
    unfold transferAck at h
    simp only [hre] at h
    rw [if_neg (fun h => h.2 rfl)] at h
    simp only [Option.map_some, Ack.success, true_and] at h
    unfold refund at h
    simp only [bind_ok] at h
    obtain ⟨_, m, h4, h5⟩ := h
    have hmv := sendCoins_ok h4
    have h5 := (modify_ok.1 h5).symm
    subst h5
    have hb : ∀ x, (if ownPacket c p = true then retryAdded s IBC p.channel p.amount else s).balance x = s.balance x := by
      intro x; split <;> rfl
    have hi : m.inflight = s.inflight := by
      have := (congrArg State.inflight hmv.frame :)
      refine this.trans ?_
      split <;> rfl
    have hvo : m.vouchers = s.vouchers := by
      have := (congrArg State.vouchers hmv.frame :)
      refine this.trans ?_
      split <;> rfl
    refine ⟨hp, by show m.inflight.erase p = _; rw [hi], .inr ⟨hr, ?_, fun prov ch => ?_, fun x => ?_⟩⟩
    · show ((m.vouchers.set p.channel _).get? p.channel).getD 0 = _
      rw [KV.get?_set_self]
      show m.vouchersOf p.channel - p.amount = _
      unfold State.vouchersOf
      rw [hvo]
    · show m.retryOf prov ch = _
      rw [hmv.retryOf]
      by_cases ho : p.sender = c.escrowAddr p.channel
      · rw [if_pos ((ownPacket_iff hc p).2 ho)]
        simp only [ho, true_and]
        show ((s.retry.set (0, p.channel) _).get? (prov, ch)).getD 0 = _
        rw [getD_set]
        by_cases he : prov = 0 ∧ ch = p.channel
        · obtain ⟨rfl, rfl⟩ := he
          simp
          rfl
        · rw [if_neg he, if_neg (fun e => he (Prod.mk.inj e))]
          simp [State.retryOf]
      · rw [if_neg (fun e => ho ((ownPacket_iff hc p).1 e)), if_neg (fun e => ho e.1), add_zero]
    · show m.balance x = _
      rw [hmv.bal, hb]
  · obtain ⟨s1, e1⟩ := C117_other c p memo o o' ack hd hr s
    rw [e1] at h
    cases h

/-! ### What the order does before the transaction fails, and which checks the pairing rests on -/

/-- An acknowledgement with both members. -/
def Spec.both (b : Bytes) (e : String) : List Char := Json.object [("result", String.ofList (Json.b64 b)), ("error", e)]

theorem read_both (o : Bool) (b : Bytes) (e : String) :
    Ack.read o (both b e) = some (if o then .error e else .result b) := by
  have h := Json.readObject_written [("result", String.ofList (Json.b64 b)), ("error", e)] []
  rw [List.append_nil] at h
  unfold Ack.read both
  rw [h]
  simp only [Option.bind_some, List.map_cons, List.map_nil, String.toList_ofList]
  have ha : Ack.assign o [("result".toList, Json.b64 b), ("error".toList, e.toList)] =
      (Json.unb64 (Json.b64 b)).map fun b => if o then .error (String.ofList e.toList) else .result b := rfl
  rw [ha, Json.unb64_b64, String.ofList_toList]
  rfl

theorem text_ne_both (a : Ack) (b : Bytes) (e : String) : a.text ≠ both b e := by
  intro h
  have hb : Json.readObject (both b e) = some [("result".toList, Json.b64 b), ("error".toList, e.toList)] := by
    have h := Json.readObject_written [("result", String.ofList (Json.b64 b)), ("error", e)] []
    rw [List.append_nil] at h
    unfold both
    rw [h]
    simp only [List.map_cons, List.map_nil, String.toList_ofList]
  rw [← h] at hb
  have hl : ∀ fs, fs.length ≤ 1 → Json.readObject (Json.object fs) ≠
      some [("result".toList, Json.b64 b), ("error".toList, e.toList)] := by
    intro fs hf he
    have h := Json.readObject_written fs []
    rw [List.append_nil, he] at h
    have := congrArg List.length (Option.some.inj h)
    rw [List.length_map] at this
    simp at this
    omega
  cases a with
  | result x => exact hl _ (by simp) hb
  | error x => exact hl _ (by simp) hb
  | empty => exact hl _ (by simp) hb

/-- C117: the pairing does not hold step by step.  For an acknowledgement with both members the middleware queues a
yield packet or does not, depending on the order of a Go map, before the transfer application refuses the
acknowledgement.  What it wrote is thrown away with the transaction, but not the gas that it used. -/
theorem C117_undetermined {c : Cfg} (hc : c.WF) (p : IbcOut) (memo : String) (b : Bytes) (e : String) (s : State)
    (hp : p ∈ s.inflight) (ho : p.sender = c.escrowAddr p.channel) (o' : Bool) :
    packetAckText .pinned c p memo false o' (both b e) s = .err .transferFailed s ∧
    packetAckText .pinned c p memo true o' (both b e) s =
      .err .transferFailed { s with retry := s.retry.set (0, p.channel) (s.retryOf 0 p.channel + p.amount) } := by
  have hf : ∀ t, transferAck .pinned c p o' (both b e) t = .err .transferFailed t := by
    intro t
    unfold transferAck
    simp only [read_both]
    rw [if_pos ⟨rfl, text_ne_both _ b e⟩]
    rfl
  constructor
  · rw [packetAckText_eq _ _ _ _ _ _ _ _ hp, hf, read_both, if_neg (fun hh => nomatch hh.1)]
  · rw [packetAckText_eq _ _ _ _ _ _ _ _ hp, hf, read_both, if_pos ⟨rfl, (ownPacket_iff hc p).2 ho⟩]
    rfl

/-- C117: a transfer application that does not compare the bytes would let the same acknowledgement queue a packet of
yield that is not refunded. -/
theorem C117_needs_bytes {c : Cfg} (hc : c.WF) (p : IbcOut) (memo : String) (b : Bytes) (e : String) (s : State)
    (hp : p ∈ s.inflight) (ho : p.sender = c.escrowAddr p.channel) (refuses : Bool) :
    packetAckText ⟨false, refuses⟩ c p memo true false (both b e) s =
      .ok () { s with retry := s.retry.set (0, p.channel) (s.retryOf 0 p.channel + p.amount),
                      inflight := s.inflight.erase p } := by
  rw [packetAckText_eq _ _ _ _ _ _ _ _ hp, read_both, if_pos ⟨rfl, (ownPacket_iff hc p).2 ho⟩]
  unfold transferAck
  rw [read_both]
  rfl

theorem read_empty (o : Bool) : Ack.read o "{}".toList = some .empty := by cases o <;> decide

/-- C117: so would one that takes an acknowledgement without response for a success. -/
theorem C117_needs_empty {c : Cfg} (hc : c.WF) (p : IbcOut) (memo : String) (s : State) (hp : p ∈ s.inflight)
    (ho : p.sender = c.escrowAddr p.channel) (o o' : Bool) :
    packetAckText ⟨true, false⟩ c p memo o o' "{}".toList s =
      .ok () { s with retry := s.retry.set (0, p.channel) (s.retryOf 0 p.channel + p.amount),
                      inflight := s.inflight.erase p } := by
  rw [packetAckText_eq _ _ _ _ _ _ _ _ hp, read_empty, if_pos ⟨rfl, (ownPacket_iff hc p).2 ho⟩]
  unfold transferAck
  rw [read_empty]
  simp only
  rw [if_neg (fun h => h.2 (by decide))]
  rfl

/-! ### Non-vacuity -/

/-- The acknowledgements of ICS-20 as they travel. -/
example : Delivered "{\"result\":\"AQ==\"}".toList := ⟨[1], by decide⟩
example : Refused "{\"error\":\"ABCI code: 1: error handling packet: see events for details\"}".toList :=
  ⟨"ABCI code: 1: error handling packet: see events for details", by decide⟩

/-- Other spellings that are read as acknowledgements. -/
example : Ack.read true "{ \"result\" : \"AQ==\" } x".toList = some (.result [1]) := by decide +kernel
example : Ack.read true "{\"error\":\"a\",\"error\":null}".toList = some (.error "") := by decide +kernel
example : Ack.read true "{\"code\":\"1\"}".toList = none := by decide +kernel
example : Ack.read true "{\"result\":\"?\",\"error\":\"\"}".toList = none := by decide +kernel
example : both [1] "x" = "{\"result\":\"AQ==\",\"error\":\"x\"}".toList := by decide +kernel

/-- The yield packet of the demo chain is in flight, and the escrow account sent it. -/
example : let s := run Demo.cfg Demo.hist1 Demo.start
    let p : IbcOut := ⟨"channel-0", Demo.cfg.escrowAddr "channel-0", "noble1remote", 100000⟩
    p ∈ s.inflight ∧ p.sender = Demo.cfg.escrowAddr p.channel ∧ p.amount ≤ s.vouchersOf p.channel := by
  decide +kernel

/-- Its refusal and its delivery are accepted. -/
example : let s := run Demo.cfg Demo.hist1 Demo.start
    let p : IbcOut := ⟨"channel-0", Demo.cfg.escrowAddr "channel-0", "noble1remote", 100000⟩
    (packetAckText .pinned Demo.cfg p "memo" true false "{\"error\":\"no\"}".toList s).isOk = true ∧
    (packetAckText .pinned Demo.cfg p "memo" true false "{\"result\":\"AQ==\"}".toList s).isOk = true := by
  intro s p
  have h1 : p ∈ s.inflight := by decide +kernel
  have h2 : p.amount ≤ s.vouchersOf p.channel := by decide +kernel
  have h3 : (refund Demo.cfg p (if ownPacket Demo.cfg p then retryAdded s IBC p.channel p.amount
    else s)).isOk = true := by decide +kernel
  have h4 : (packetAcked Demo.cfg p s).isOk = true := by decide +kernel
  constructor
  · rw [C117_error _ _ _ _ _ _ ⟨"no", by decide⟩ _ h2, packetFailed_eq _ _ _ _ h1 (by omega)]
    exact h3
  · rw [C117_result _ _ _ _ _ _ ⟨[1], by decide⟩]
    exact h4

end Dollar
