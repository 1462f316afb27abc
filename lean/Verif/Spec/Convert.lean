import Verif.Spec.Types
/-
What a conversion of the element type should do.
-/
namespace QuantiT.Spec
open BT TY
variable {G : Type}

/-- `y` is `x` with every entry replaced by `f` of it. -/
structure Retyped (f : ℂ → ℂ) (x y : TT G) : Prop where
  shape : y.t.shape = x.t.shape
  rule : y.t.rule = x.t.rule
  entries : ∀ e, entry y.t.shape y.t.blocks e = f (entry x.t.shape x.t.blocks e)

/-- `y` has the shape, the rule and the entries of `x`, declares the same type and stores the same blocks in the same types. -/
structure SameTyped (x y : TT G) : Prop where
  value : Retyped id x y
  declared : y.opt = x.opt
  keys : y.t.blocks.map Prod.fst = x.t.blocks.map Prod.fst
  stored : ∀ k b, (k, b) ∈ x.t.blocks → y.ty k = x.ty k

/-- Every value of the first type is a value of the second. -/
def Widens : DT → DT → Prop
  | .int _, _ => True
  | .real _, .int _ => False
  | .real _, _ => True
  | .complex _, .complex _ => True
  | .complex _, _ => False

end QuantiT.Spec
