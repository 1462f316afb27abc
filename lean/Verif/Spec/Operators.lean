import Verif.Spec.Elementwise
import Mathlib.Algebra.Field.Defs
/-
The binary operators between tensors and numbers.
-/
namespace QuantiT.Spec

/-- The operators `+`, `-`, `*`, `/` and the six comparisons. -/
inductive BinOp where
  | add | sub | mul | div
  | cmp (c : Cmp)
  deriving DecidableEq

/-- What an operator does with two numbers. -/
noncomputable def BinOp.apply {R : Type} [Field R] [LT R] [LE R] : BinOp → R → R → R
  | .add, x, y => x + y
  | .sub, x, y => x - y
  | .mul, x, y => x * y
  | .div, x, y => x / y
  | .cmp c, x, y => truth (c.Holds x y)

/-- `r` has the shape of `t`, is conserving, and its elements are those of `t` with `f` applied wherever `t` stores a block, and zero elsewhere. -/
structure OnStored {G R : Type} [AddCommMonoid G] [Zero R] (f : R → R) (shape : Shape G) (rule : G) (blocks : List (List Nat × Blk R))
    (shape' : Shape G) (rule' : G) (blocks' : List (List Nat × Blk R)) : Prop where
  sameShape : shape' = shape
  sameRule : rule' = rule
  conserving : Conserving shape' rule' blocks'
  stored : ∀ e, Held shape blocks e → entry shape' blocks' e = f (entry shape blocks e)
  elsewhere : ∀ e, ¬ Held shape blocks e → entry shape' blocks' e = 0

end QuantiT.Spec
