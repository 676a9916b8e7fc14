import Verif.Model.Bank

/-
The two orders in which a bank can debit the sender and call the module's send restriction
(keeper/keeper.go:188-292).  `sendCoins` and `multiSend` of Model/Bank debit first, as x/bank of SDK v0.50
does.  Here are the other orders: the bank the repository's own tests use, and a bank that asks the
restriction about every output of a multi-send before it debits the input.
-/
namespace Dollar
open MM

/-- utils/mocks/bank.go:118-134, `SendCoins` of the bank used in the repository's tests: restriction first,
then debit and credit. -/
def mockSendCoins (c : Cfg) (sender recipient : Addr) (amount : Int) : M Unit :=
  if amount = 0 then pure ()
  else do
    sendRestriction c sender recipient amount
    subCoins sender amount
    addCoins recipient amount

/-- Every output of a multi-send is put to the restriction. -/
def restrictAll (c : Cfg) (sender : Addr) : List (Addr × Int) → M Unit
  | [] => pure ()
  | (out, amount) :: t => do
    sendRestriction c sender out amount
    restrictAll c sender t

/-- Every output of a multi-send is credited. -/
def creditAll : List (Addr × Int) → M Unit
  | [] => pure ()
  | (out, amount) :: t => do
    addCoins out amount
    creditAll t

/-- A multi-send by a bank that asks first: restriction for all outputs, debit, credits. -/
def mockMultiSend (c : Cfg) (sender : Addr) (outs : List (Addr × Int)) : M Unit := do
  restrictAll c sender outs
  subCoins sender (outs.map Prod.snd).sum
  creditAll outs

end Dollar
