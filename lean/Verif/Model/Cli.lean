import Verif.Model.Queries
import Verif.Model.System

/-
client/cli: the hand-written commands.  Flags, key rings and the network are not modelled: a query
command answers with the query, a transaction command stands for the message it signs.
-/
namespace Dollar

/-- `unicode.ToLower`, as far as it matters here: besides the letters A to Z only U+0130 and U+212A have a
lower-case form in ASCII.  Simplification: every other rune is left alone; its true lower-case form
is not an ASCII letter either, so no comparison below can tell. -/
def runeLower (c : Char) : Char :=
  if 'A' ≤ c ∧ c ≤ 'Z' then Char.ofNat (c.toNat + 32)
  else if c.toNat = 0x130 then 'i'
  else if c.toNat = 0x212A then 'k'
  else c

/-- `strings.ToLower` on the runes of the argument. -/
def toLowerGo (s : String) : String := String.ofList (s.toList.map runeLower)

/-- client/cli/util.go:30-39, `parseProvider`. -/
def parseProvider (input : String) : Option Int :=
  if toLowerGo input = "ibc" then some 0
  else if toLowerGo input = "hyperlane" then some 1
  else none

/-- client/cli/tx.go:49-79: the message signed by `set-yield-recipient [provider] [identifier]
[recipient]`; `from_` is the address of the key that signs. -/
def cliSetRecipient (from_ : String) (args : List String) : Option Msg :=
  match args with
  | [p, i, r] => (parseProvider p).map fun p => .setYieldRecipient from_ p i r
  | _ => none

/-- client/cli/query.go:99-128: `yield-recipient [provider] [identifier]`. -/
def cliYieldRecipient (s : State) (args : List String) : Option String :=
  match args with
  | [p, i] => (parseProvider p).bind fun p => queryYieldRecipient s p i
  | _ => none

/-- client/cli/query.go:153-182: `retry-amount [provider] [identifier]`. -/
def cliRetryAmount (s : State) (args : List String) : Option Int :=
  match args with
  | [p, i] => (parseProvider p).map fun p => queryRetryAmount s p i
  | _ => none

/-- client/cli/query.go:76-97: `yield-recipients`. -/
def cliYieldRecipients (s : State) (args : List String) : Option (List (String × String)) :=
  match args with
  | [] => some (queryYieldRecipients s)
  | _ => none

/-- client/cli/query.go:130-151: `retry-amounts`. -/
def cliRetryAmounts (s : State) (args : List String) : Option (List (String × String)) :=
  match args with
  | [] => some (queryRetryAmounts s)
  | _ => none

end Dollar
