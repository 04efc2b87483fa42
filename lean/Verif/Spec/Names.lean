import Verif.Model.Names

/-! # Names of the drivers of a testbench (C116) -/

namespace CocotbBus.Spec

/-- A name that ends with an underscore and a number, like that of an element of an array. -/
def LooksIndexed (name : String) : Prop := ∃ (base : String) (i : Int), name = base ++ "_" ++ pyDec i

/-- No two of the objects, each given by the arguments `name` and `array_idx` of its constructor, have the same value of `f`. -/
def AllDifferent {V : Type} (f : Option String → Option Int → V) (objs : List (Option String × Option Int)) : Prop :=
  (objs.map (fun o => f o.1 o.2)).Nodup

end CocotbBus.Spec
