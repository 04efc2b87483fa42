import Verif.Model.Base

/-!
# Keyword arguments on their way to `_driver_send`: `drivers/__init__.py:108-130, 136-147, 165-191, 193-210`

A call with keyword arguments is a list of names and values. Parameters with a default that are not given are left out.
-/

namespace CocotbBus

/-- Python's rules for calling `f(*positional, **kw)` where the positional arguments take the parameters `taken`, `named` are the remaining
parameters, and `varkw` tells whether there is a `**kwargs`: TypeError for a name given twice, for the name of a parameter that is already
taken, and for a name that is not a parameter. The result is what the function receives. -/
def pyCall {V : Type} (taken named : List String) (varkw : Bool) (kw : List (String × V)) : Except PyErr (List (String × V)) :=
  if (kw.map Prod.fst).Nodup ∧ (∀ p ∈ kw, p.1 ∉ taken) ∧ (varkw = true ∨ ∀ p ∈ kw, p.1 ∈ named) then .ok kw else .error .typeError

/-- The parameters of a `_driver_send`: that of the transaction, and those after it. -/
structure SendSig where
  transaction : String
  named : List String

/-- `BusDriver._driver_send(self, transaction, sync)` (drivers/__init__.py:259). -/
def sigBusDriver : SendSig := ⟨"transaction", ["sync"]⟩
/-- `AvalonST._driver_send(self, value, sync)` (drivers/avalon.py:548). -/
def sigAvalonST : SendSig := ⟨"value", ["sync"]⟩
/-- `AvalonSTPkts._driver_send(self, pkt, sync, channel)` (drivers/avalon.py:828-833). -/
def sigAvalonPkts : SendSig := ⟨"pkt", ["sync", "channel"]⟩
/-- `XGMII._driver_send(self, pkt, sync)` (drivers/xgmii.py:156). -/
def sigXgmii : SendSig := ⟨"pkt", ["sync"]⟩

variable {V : Type}

/-- `_send(transaction, callback, event, **kw)` up to the call of `_driver_send` (drivers/__init__.py:165-185): the keyword arguments
`_driver_send` receives. -/
def sendCall (sig : SendSig) (kw : List (String × V)) : Except PyErr (List (String × V)) := do
  let kw ← pyCall ["self", "transaction", "callback", "event"] ["sync"] true kw
  pyCall ["self", sig.transaction] sig.named false kw

/-- `append(transaction, callback, event, **kw)` (drivers/__init__.py:108-130): what goes into the queue. -/
def appendCall (kw : List (String × V)) : Except PyErr (List (String × V)) :=
  pyCall ["self", "transaction", "callback", "event"] [] true kw

/-- The call made by the sending coroutine for a queue entry (drivers/__init__.py:207-209). -/
def queueCall (sig : SendSig) (sync : V) (kw : List (String × V)) : Except PyErr (List (String × V)) :=
  sendCall sig (("sync", sync) :: kw)

/-- `send(transaction, sync=sync, **kw)` (drivers/__init__.py:136-147). -/
def blockingCall (sig : SendSig) (sync : V) (kw : List (String × V)) : Except PyErr (List (String × V)) := do
  let kw ← pyCall ["self", "transaction"] ["sync"] true (("sync", sync) :: kw)
  sendCall sig kw

end CocotbBus
