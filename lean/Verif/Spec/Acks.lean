import Verif.Model.AckJson

/-
The two acknowledgements ICS-20 knows, letter by letter, and what they mean.
-/
namespace Dollar.Spec

/-- `{"result":"…"}` with the base64 text of some bytes. -/
def Delivered (ack : List Char) : Prop :=
  ∃ b : Bytes, ack = "{\"result\":\"".toList ++ Json.b64 b ++ "\"}".toList

/-- `{"error":"…"}` with some JSON string. -/
def Refused (ack : List Char) : Prop :=
  ∃ e : String, ack = "{\"error\":".toList ++ Json.quote e.toList ++ "}".toList

end Dollar.Spec
