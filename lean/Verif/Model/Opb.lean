import Verif.Model.AvalonMM

/-!
# OPB master: `drivers/opb.py`

Simplifications as for the Avalon-MM master: one caller at a time, natural numbers for addresses and values. `errAck` and `retry`
are never looked at by the code, `seqAddr` is never driven, so they are left out.
-/

namespace CocotbBus
open Coro

/-- Signals driven by the peripheral. -/
structure OpbIn where
  xferAck : Logic := .zero
  toutSup : Logic := .zero
  dbusOut : LogicArray := []
  deriving DecidableEq, Repr

/-- Signals driven by the master, and `self.busy`. `dbusOut` is what the master itself puts on DBus_out in a write; what a read gets
is `OpbIn.dbusOut` (simplification: no resolution of two drivers). -/
structure OpbOut where
  abus : LogicArray
  select : Logic
  rnw : Logic
  be : LogicArray
  dbusOut : LogicArray
  dbusIn : LogicArray
  busy : Bool
  deriving DecidableEq, Repr

/-- Widths of the signals. -/
structure OpbCfg where
  addrW : Nat
  dataW : Nat
  beW : Nat := 4
  deriving DecidableEq, Repr

/-- `OPBMaster.__init__` (drivers/opb.py:40-43): the signals after construction. -/
def opbInit (o : OpbOut) : OpbOut := { o with select := .zero, busy := false }

/-- `_acquire_lock` (drivers/__init__.py:92-96) by the only caller: with the lock taken it waits for ever. -/
def opbAcquire : M OpbIn OpbOut Unit := do
  if (← getOut).busy then hang
  setPy (fun o => { o with busy := true })

/-- `_max_cycles` (drivers/opb.py:38). -/
def opbMax : Nat := 16

/-- One turn of the wait for xferAck (drivers/opb.py:72-80, 112-120). -/
def opbBody (count : Nat) : M OpbIn OpbOut (Nat ⊕ Unit) := do
  let i ← inp
  if (← ofExcept (intOf i.xferAck)) ≠ 0 then pure (.inr ())
  else do
    awaitEdge
    readOnly
    let j ← inp
    let t ← ofExcept (intOf j.toutSup)
    let count' := if t ≠ 0 then 0 else count + 1
    if count' ≥ opbMax then raise .opbException
    else pure (.inl count')

/-- The wait for xferAck. -/
def opbWait : M OpbIn OpbOut Unit := loop opbBody 0

/-- `OPBMaster.read` (drivers/opb.py:45-87). -/
def opbRead (c : OpbCfg) (address : Nat) (sync : Bool) : M OpbIn OpbOut Nat := do
  opbAcquire
  when sync awaitEdge
  writeInt c.addrW address (fun v o => { o with abus := v })
  write (fun o => { o with select := .one })
  write (fun o => { o with rnw := .one })
  writeInt c.beW 0xF (fun v o => { o with be := v })
  opbWait
  let i ← inp
  let data ← ofExcept (toUnsigned i.dbusOut)
  write (fun o => { o with select := .zero })
  setPy (fun o => { o with busy := false })
  pure data

/-- `OPBMaster.write` (drivers/opb.py:89-123). -/
def opbWrite (c : OpbCfg) (address value : Nat) (sync : Bool) : M OpbIn OpbOut Unit := do
  opbAcquire
  when sync awaitEdge
  writeInt c.addrW address (fun v o => { o with abus := v })
  write (fun o => { o with select := .one })
  write (fun o => { o with rnw := .zero })
  writeInt c.beW 0xF (fun v o => { o with be := v })
  writeInt c.dataW value (fun v o => { o with dbusOut := v })
  opbWait
  write (fun o => { o with select := .zero })
  setPy (fun o => { o with busy := false })

/-- A step of a test that uses an OPB master. -/
inductive OpbOp where
  | read (address : Nat) (sync : Bool)
  | write (address value : Nat) (sync : Bool)
  | pause (edges : Nat)
  deriving DecidableEq, Repr

/-- Calls of `read` and `write` one after the other (drivers/opb.py:45-123): the values read. -/
def opbUse (c : OpbCfg) : List OpbOp → M OpbIn OpbOut (List Nat)
  | [] => pure []
  | .read a sync :: r => do
    let d ← opbRead c a sync
    let l ← opbUse c r
    pure (d :: l)
  | .write a v sync :: r => do
    opbWrite c a v sync
    opbUse c r
  | .pause n :: r => do
    edges n
    opbUse c r

end CocotbBus
