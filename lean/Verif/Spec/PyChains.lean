import Verif.Base
/-
The methods of a block tensor whose name ends with an underscore: they change the tensor they are called on and return it.
-/
namespace QuantiT
namespace Spec

/-- A call of such a method with its arguments: `mul_(x)`, `div_(x)`, `sqrt_()`, `abs_()`, `pow_(x)` (a function of every element), `permute_`,
`transpose_`, `cval_shift_`, `t_`. -/
inductive InPlace (G R : Type) where
  | each (g : R → R)
  | permute (p : List Int)
  | transpose (i j : Int)
  | shift (q : G) (dim : Nat)
  | t

/-- The method changes the elements and not the way they are arranged. -/
def InPlace.IsEach {G R : Type} : InPlace G R → Prop
  | .each _ => True
  | _ => False

/-- The method is `t_`. -/
def InPlace.IsT {G R : Type} : InPlace G R → Prop
  | .t => True
  | _ => False

end Spec
end QuantiT
