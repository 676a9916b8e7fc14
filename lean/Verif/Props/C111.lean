import Verif.Lemmas.PacketJson
import Verif.Lemmas.WP
import Verif.Spec.DemoExt

/-
C111: every USDN packet is recognised, whatever its receiver and memo.
-/
set_option maxRecDepth 100000
namespace Dollar
open MM

theorem assignAll_filter (p q : Packet) (name value : String) (t : List (List Char × List Char))
    (h : value ≠ "" → p.assign name value = some q) (h0 : value = "" → p = q) :
    p.assignAll ((([(name, value)].filter fun e => e.2 ≠ "").map fun f => (f.1.toList, f.2.toList)) ++ t) = q.assignAll t := by
  by_cases hv : value = ""
  · rw [h0 hv]
    simp [hv]
  · simp only [hv, ne_eq, not_false_eq_true, decide_true, List.filter_cons_of_pos, List.filter_nil, List.map_cons,
      List.map_nil, List.cons_append, List.nil_append, Packet.assignAll, String.ofList_toList, h hv]
    rfl

/-- C111: reading the text of a packet gives back the packet: denomination, amount, sender, receiver and memo,
whatever characters they contain. Text after the packet is not looked at. -/
theorem C111_read (p : Packet) (rest : List Char) : Packet.read (p.text ++ rest) = some p := by
  obtain ⟨⟨denom, amount, sender, receiver⟩, memo⟩ := p
  unfold Packet.read Packet.text
  rw [Json.readObject_written]
  show Packet.assignAll _ _ = _
  have e : ([("amount", amount), ("denom", denom), ("memo", memo), ("receiver", receiver), ("sender", sender)].filter
      fun e => e.2 ≠ "") = ([("amount", amount)].filter fun e => e.2 ≠ "") ++ (([("denom", denom)].filter fun e => e.2 ≠ "")
      ++ (([("memo", memo)].filter fun e => e.2 ≠ "") ++ (([("receiver", receiver)].filter fun e => e.2 ≠ "") ++
        (([("sender", sender)].filter fun e => e.2 ≠ "") ++ [])))) := by
    rw [List.append_nil, ← List.filter_append, ← List.filter_append, ← List.filter_append, ← List.filter_append]
    rfl
  show Packet.assignAll _ (([("amount", amount), ("denom", denom), ("memo", memo), ("receiver", receiver), ("sender", sender)].filter
      fun e => e.2 ≠ "").map _) = _
  rw [e]
  simp only [List.map_append]
  rw [assignAll_filter _ ⟨⟨"", amount, "", ""⟩, ""⟩ _ _ _ (fun _ => rfl) (fun h => by rw [h]),
    assignAll_filter _ ⟨⟨denom, amount, "", ""⟩, ""⟩ _ _ _ (fun _ => rfl) (fun h => by rw [h]),
    assignAll_filter _ ⟨⟨denom, amount, "", ""⟩, memo⟩ _ _ _ (fun _ => rfl) (fun h => by rw [h]),
    assignAll_filter _ ⟨⟨denom, amount, "", receiver⟩, memo⟩ _ _ _ (fun _ => rfl) (fun h => by rw [h]),
    assignAll_filter _ ⟨⟨denom, amount, sender, receiver⟩, memo⟩ _ _ _ (fun _ => rfl) (fun h => by rw [h])]
  rfl

/-- C111: two different packets have different texts. -/
theorem C111_injective (p q : Packet) (h : p.text = q.text) : p = q := by
  have hp := C111_read p []
  have hq := C111_read q []
  rw [h, hq] at hp
  exact (Option.some.inj hp).symm

/-- C111: a USDN packet is refused on a channel without yield recipient, whatever its receiver and memo. -/
theorem C111_stopped (c : Cfg) (channel : String) (p : Packet) (hd : p.denom = c.denom) (next : M Unit) (s : State)
    (hr : s.recipients.get? (IBC, channel) = none) : sendPacketText c channel p.text next s = .err .ibcDisabled s := by
  have h := C111_read p []
  rw [List.append_nil] at h
  unfold sendPacketText sendPacket
  rw [h]
  have hh : hasYieldRecipient s IBC channel = false := by unfold hasYieldRecipient KV.has; rw [hr]; rfl
  simp only [Option.map_some, bind_apply, get_apply, hd, hh, and_self, if_true]
  rfl

/-- C111: every other packet is passed on unchanged. -/
theorem C111_passed (c : Cfg) (channel : String) (p : Packet) (next : M Unit) (s : State)
    (hr : p.denom ≠ c.denom ∨ ∃ r, s.recipients.get? (IBC, channel) = some r) :
    sendPacketText c channel p.text next s = next s := by
  have h := C111_read p []
  rw [List.append_nil] at h
  unfold sendPacketText sendPacket
  rw [h]
  simp only [Option.map_some, bind_apply, get_apply]
  rw [if_neg]
  rintro ⟨h1, h2⟩
  rcases hr with h3 | ⟨r, h3⟩
  · exact h3 h1
  · unfold hasYieldRecipient KV.has at h2
    rw [h3] at h2
    cases h2

/-- C111: a transfer of USDN as the system model has it (with the check of the channel in place of the wrapper)
is the transfer whose packet, with any memo, goes through the wrapper as bytes. -/
theorem C111_transfer (c : Cfg) (env : Env) (channel : String) (sender : Addr) (receiver memo : String) (amount : Int)
    (he : env.ibc channel = .success) :
    ibcTransfer c env channel sender receiver amount = (do
      sendCoins c sender (c.escrowAddr channel) amount
      sendPacketText c channel (Packet.mk (packetData c ⟨channel, sender, receiver, amount⟩) memo).text
        (bookPacket ⟨channel, sender, receiver, amount⟩)) := by
  funext s
  unfold ibcTransfer
  rw [he]
  simp only [bind_apply]
  cases sendCoins c sender (c.escrowAddr channel) amount s with
  | err e t => rfl
  | panic => rfl
  | ok u t =>
    simp only [ics4Check, bind_apply, get_apply]
    cases hr : t.recipients.get? (IBC, channel) with
    | none =>
      rw [C111_stopped c channel _ rfl _ t hr]
      have hh : hasYieldRecipient t IBC channel = false := by unfold hasYieldRecipient KV.has; rw [hr]; rfl
      rw [hh]
      rfl
    | some r =>
      rw [C111_passed c channel _ _ t (.inr ⟨r, hr⟩)]
      have hh : hasYieldRecipient t IBC channel = true := by unfold hasYieldRecipient KV.has; rw [hr]; rfl
      rw [hh]
      rfl

/-- C111: when a packet of the escrow account comes back, its bytes are understood: exactly its amount is queued
for the channel, whatever the memo. -/
theorem C111_retry (c : Cfg) (port channel : String) (p : Packet) :
    addAmountToRetryText c port channel p.text = addAmountToRetry c port channel (some p.toPacketData) := by
  have h := C111_read p []
  rw [List.append_nil] at h
  unfold addAmountToRetryText
  rw [h]
  rfl

/-! ### Non-vacuity: a packet with quotes, a line feed and a forged member in its memo -/

/-- Its memo tries to look like another denomination. -/
def Demo.packet : Packet := ⟨⟨"uusdn", "1000000", "noble1x", "a<b>&\\"⟩, "\",\"denom\":\"uatom\"}\n"⟩

example : String.ofList Demo.packet.text = "{\"amount\":\"1000000\",\"denom\":\"uusdn\",\"memo\":\"\\\",\\\"denom\\\":\\\"uatom\\\"}\\n\",\"receiver\":\"a\\u003cb\\u003e\\u0026\\\\\",\"sender\":\"noble1x\"}" := by
  decide +kernel
example : Packet.read "{ \"denom\" : \"\\u0075usdn\" } ".toList = some ⟨⟨"uusdn", "", "", ""⟩, ""⟩ := by decide +kernel
example : Packet.read "{\"denom\":\"uusdn\",\"extra\":\"1\"}".toList = none := by decide +kernel

end Dollar
