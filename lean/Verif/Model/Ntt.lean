import Verif.Model.Types

/-
types/portal/ntt/*.go, types/portal/payload.go, types/portal/additional_payload.go.
Encoders work on byte strings, parsers on Go slices (length and capacity).
-/
namespace Dollar

/-- types/portal/ntt/manager.pb.go: `ManagerMessage`. -/
structure ManagerMessage (β : Type) where
  id : β
  sender : β
  payload : β
  deriving DecidableEq, Repr

/-- types/portal/ntt/transceiver.pb.go: `TransceiverMessage`. -/
structure TransceiverMessage (β : Type) where
  sourceManager : β
  recipientManager : β
  managerPayload : β
  transceiverPayload : β
  deriving DecidableEq, Repr

/-- types/portal/ntt/ntt.pb.go: `NativeTokenTransfer`; `amount` is uint64, `toChain` uint16. -/
structure NativeTokenTransfer (β : Type) where
  amount : Nat
  sourceToken : β
  recipient : β
  toChain : Nat
  additional : β
  deriving DecidableEq, Repr

/-- Visible contents of a parsed manager message. -/
def ManagerMessage.bytes (m : ManagerMessage Sl) : ManagerMessage Bytes :=
  ⟨m.id.bytes, m.sender.bytes, m.payload.bytes⟩

/-- Visible contents of a parsed transceiver message. -/
def TransceiverMessage.bytes (m : TransceiverMessage Sl) : TransceiverMessage Bytes :=
  ⟨m.sourceManager.bytes, m.recipientManager.bytes, m.managerPayload.bytes, m.transceiverPayload.bytes⟩

/-- Visible contents of a parsed native token transfer. -/
def NativeTokenTransfer.bytes (m : NativeTokenTransfer Sl) : NativeTokenTransfer Bytes :=
  ⟨m.amount, m.sourceToken.bytes, m.recipient.bytes, m.toChain, m.additional.bytes⟩

/-- types/portal/ntt/constants.go:29. -/
def nttPrefix : Bytes := [0x99, 0x4e, 0x54, 0x54]
/-- types/portal/ntt/constants.go:33. -/
def transceiverPrefix : Bytes := [0x99, 0x45, 0xff, 0x10]
/-- types/portal/payload.go:43, the bytes of "M0IT". -/
def indexPrefix : Bytes := [0x4d, 0x30, 0x49, 0x54]

/-- A nil Go slice. -/
def Sl.nil : Sl := ⟨[], 0⟩

/-! ### Manager message -/

/-- types/portal/ntt/manager.go:31-39. -/
def encodeManager (m : ManagerMessage Bytes) : Bytes :=
  m.id ++ m.sender ++ toBE 2 m.payload.length ++ m.payload

/-- types/portal/ntt/manager.go:42-57. -/
def parseManager (bz : Sl) : PRes (ManagerMessage Sl) :=
  if bz.len < 66 then .err
  else do
    let id ← PRes.ofSlice (bz.slice 0 32)
    let sender ← PRes.ofSlice (bz.slice 32 64)
    let l ← PRes.ofSlice (bz.slice 64 66)
    let payload ← PRes.ofSlice (bz.sliceFrom 66)
    if payload.len ≠ beNat l.bytes then .err
    else .ok ⟨id, sender, payload⟩

/-- types/portal/ntt/manager.go:59-64. -/
def managerDigest (c : Cfg) (sourceChain : Nat) (m : ManagerMessage Bytes) : Bytes :=
  c.keccak (toBE 2 sourceChain ++ encodeManager m)

/-! ### Transceiver message -/

/-- types/portal/ntt/transceiver.go:31-43. -/
def encodeTransceiver (m : TransceiverMessage Bytes) : Bytes :=
  transceiverPrefix ++ m.sourceManager ++ m.recipientManager ++
    toBE 2 m.managerPayload.length ++ m.managerPayload ++
    toBE 2 m.transceiverPayload.length ++ m.transceiverPayload

/-- types/portal/ntt/transceiver.go:46-75 (no length checks). -/
def parseTransceiver (bz : Sl) : PRes (TransceiverMessage Sl) := do
  let prefix' ← PRes.ofSlice (bz.slice 0 4)
  if prefix'.bytes ≠ transceiverPrefix then .err
  else do
    let src ← PRes.ofSlice (bz.slice 4 36)
    let dst ← PRes.ofSlice (bz.slice 36 68)
    let l1 ← PRes.ofSlice (bz.slice 68 70)
    let mp ← PRes.ofSlice (bz.slice 70 (70 + beNat l1.bytes))
    let l2 ← PRes.ofSlice (bz.slice (70 + beNat l1.bytes) (70 + beNat l1.bytes + 2))
    let tp ← PRes.ofSlice (bz.slice (70 + beNat l1.bytes + 2) (70 + beNat l1.bytes + 2 + beNat l2.bytes))
    .ok ⟨src, dst, mp, tp⟩

/-! ### Native token transfer -/

/-- types/portal/ntt/ntt.go:32-46. -/
def encodeNtt (t : NativeTokenTransfer Bytes) : Bytes :=
  nttPrefix ++ [6] ++ toBE 8 t.amount ++ t.sourceToken ++ t.recipient ++ toBE 2 t.toChain ++
    (if 0 < t.additional.length then toBE 2 t.additional.length ++ t.additional else [])

/-- types/portal/ntt/ntt.go:81-93: the optional additional payload. -/
def parseAdditionalOf (bz : Sl) : PRes Sl :=
  if 79 < bz.len then
    if bz.len < 81 then .err
    else do
      let l ← PRes.ofSlice (bz.slice 79 81)
      let add ← PRes.ofSlice (bz.sliceFrom 81)
      if add.len ≠ beNat l.bytes then .err else .ok add
  else .ok Sl.nil

/-- types/portal/ntt/ntt.go:49-96. -/
def parseNtt (bz : Sl) : PRes (NativeTokenTransfer Sl) :=
  if bz.len < 79 then .err
  else do
    let prefix' ← PRes.ofSlice (bz.slice 0 4)
    if prefix'.bytes ≠ nttPrefix then .err
    else do
      let amount ← PRes.ofSlice (bz.slice 5 13)
      let source ← PRes.ofSlice (bz.slice 13 45)
      let dst ← PRes.ofSlice (bz.slice 45 77)
      let chain ← PRes.ofSlice (bz.slice 77 79)
      let add ← parseAdditionalOf bz
      .ok ⟨beNat amount.bytes, source, dst, beNat chain.bytes, add⟩

/-! ### Additional payload -/

/-- types/portal/additional_payload.go:31-36. -/
def encodeAdditional (index : Int) (token : Bytes) : Bytes := toBE 8 (toUint64 index) ++ token

/-- types/portal/additional_payload.go:41-56. -/
def decodeAdditional (bz : Sl) : PRes (Int × Bytes) :=
  if bz.len < 40 then .err
  else do
    let i ← PRes.ofSlice (bz.slice 0 8)
    let t ← PRes.ofSlice (bz.slice 8 40)
    .ok (toInt64 (beNat i.bytes), t.bytes)

/-! ### Payloads -/

/-- types/portal/payload.go:34-40. -/
inductive PayloadType
  | unknown | token | index
  deriving DecidableEq, Repr

/-- types/portal/payload.go:49-62. -/
def payloadType (bz : Sl) : PRes PayloadType :=
  if bz.len < 4 then .ok .unknown
  else do
    let p ← PRes.ofSlice (bz.slice 0 4)
    if p.bytes = nttPrefix then .ok .token
    else if p.bytes = indexPrefix then .ok .index
    else .ok .unknown

/-- types/portal/payload.go:66-72. -/
structure TokenPayload where
  amount : Nat
  index : Int
  recipient : Bytes
  chain : Nat
  token : Bytes
  deriving DecidableEq, Repr

/-- types/portal/payload.go:78: the parse error is discarded, leaving a zero struct. -/
def nttOrZero (bz : Sl) : PRes (NativeTokenTransfer Sl) :=
  match parseNtt bz with
  | .ok t => .ok t
  | .err => .ok ⟨0, Sl.nil, Sl.nil, 0, Sl.nil⟩
  | .panic => .panic

/-- types/portal/payload.go:83: the decode error is discarded (zero index, empty token). -/
def additionalOrZero (bz : Sl) : PRes (Int × Bytes) :=
  match decodeAdditional bz with
  | .ok r => .ok r
  | .err => .ok (0, [])
  | .panic => .panic

/-- types/portal/payload.go:77-86. -/
def decodeToken (bz : Sl) : PRes TokenPayload := do
  let t ← nttOrZero bz
  let a ← additionalOrZero t.additional
  let r ← PRes.ofSlice (t.recipient.sliceFrom 12)
  .ok ⟨t.amount, a.1, r.bytes, t.toChain, a.2⟩

/-- types/portal/payload.go:91-96. -/
def decodeIndex (bz : Sl) : PRes (Int × Nat) := do
  let i ← PRes.ofSlice (bz.slice 4 12)
  let d ← PRes.ofSlice (bz.slice 12 14)
  .ok (toInt64 (beNat i.bytes), beNat d.bytes)

/-- types/portal/payload.go:101-113. -/
def encodeIndex (index : Int) (destination : Nat) : Bytes :=
  indexPrefix ++ toBE 8 (toUint64 index) ++ toBE 2 destination

end Dollar
