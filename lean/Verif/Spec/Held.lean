import Verif.Model.AxiMany
import Verif.Model.AvalonPkts
import Verif.Model.MmUse
import Verif.Model.Opb

/-! # An offer is held until it is taken -/

namespace CocotbBus.Spec

/-- In a sequence of cycles: whenever something is offered in a cycle and not taken in it, the same is offered in the next cycle. `what` are
the signals that make up the offer. -/
def Held {I O P : Type} (offers : O → Bool) (takes : I → Bool) (what : O → P) (t : List (O × I)) : Prop :=
  ∀ (n : Nat) a b, t[n]? = some a → t[n + 1]? = some b → offers a.1 = true → takes a.2 = false → what b.1 = what a.1

/-! ### AXI -/

def awOffers (o : AxAll) : Bool := o.1.1.valid == .one
def wOffers (o : AxAll) : Bool := o.1.2.valid == .one
def arOffers (o : AxAll) : Bool := o.2.valid == .one

/-- A call of `write` with no latency between its data beats. -/
def NoGaps : AxOp → Prop
  | .write _ v _ _ _ _ dl _ => dl = 0 ∨ v.length ≤ 1
  | _ => True

/-! ### Avalon-MM -/

/-- A request. -/
def mmOffers (o : MmOut) : Bool := o.read == .one || o.write == .one

/-- The slave takes it. -/
def mmTakes (c : MmCfg) (i : MmIn) : Bool := !c.hasWait || i.waitrequest == .zero

/-- The signals of the master. -/
def mmPins (o : MmOut) : LogicArray × LogicArray × LogicArray × Logic × Logic × Logic := (o.address, o.writedata, o.byteenable, o.read, o.write, o.cs)

/-! ### Avalon-ST -/

def stOffers (o : StOut) : Bool := o.valid == .one
def stTakes (c : StCfg) (i : StIn) : Bool := !c.hasReady || i.ready == .one
def pkOffers (o : PkOut) : Bool := o.valid == .one
def pkTakes (c : PkCfg) (i : PkIn) : Bool := !c.hasReady || i.ready == .one

/-- No word of a packet given word by word says that it is not valid. -/
def AllValid : PkArg → Prop
  | .words l => ∀ w ∈ l, w.valid ≠ some false
  | _ => True

/-! ### OPB -/

def opbOffers (o : OpbOut) : Bool := o.select == .one
def opbTakes (i : OpbIn) : Bool := i.xferAck == .one

/-- The signals of the master. -/
def opbPins (o : OpbOut) : LogicArray × Logic × Logic × LogicArray × LogicArray := (o.abus, o.select, o.rnw, o.be, o.dbusOut)

end CocotbBus.Spec
