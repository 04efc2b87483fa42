import Verif.Spec.AxiMaster

/-! # Vocabulary for reads given up -/

namespace CocotbBus.Spec

/-- The slave on an AXI4-Lite read channel answers the accepted addresses in order, each at least one edge after it was accepted, with
the word `answer` says and OKAY: whenever a data beat is transferred, it answers the first address not answered yet. -/
def InOrder (c : AxCfg) (answer : AddrReq → LogicArray) (t : List (AddrOut × AxIn)) : Prop :=
  ∀ t' q, t' ++ [q] <+: t → rFire q.2 = true →
    ∃ p, ((arStream c).taken t')[(rBeats t').length]? = some p ∧ q.2.rdata = answer p ∧ respIs q.2.rresp 0

/-- The word a read of `a` should return: the bytes from the address to the end of the bus word. -/
def liteWord (c : AxCfg) (answer : AddrReq → LogicArray) (a : Nat) : LogicArray :=
  memWord (lane (answer ⟨natToBits c.addrW a, none⟩)) (a % c.dataBytes) (c.dataBytes - a % c.dataBytes)

end CocotbBus.Spec
