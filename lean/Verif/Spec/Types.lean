import Verif.Model.Types
/-
What the element type of a tensor promises.
-/
namespace QuantiT.Spec
open BT TY
variable {G : Type}

/-- A number is a value of the type; rounding is not considered. -/
def ValueOf : DT → ℂ → Prop
  | .int _, z => ∃ n : ℤ, z = n
  | .real _, z => z.im = 0
  | .complex _, _ => True

/-- Every entry of the tensor is a value of the type it declares. -/
def Declares (x : TT G) : Prop := ∀ e, InRange e (x.t.shape.map dimSize) → ValueOf x.opt (entry x.t.shape x.t.blocks e)

/-- The tensor declares one type and stores every block in it. -/
structure OfType (a : DT) (x : TT G) : Prop where
  declared : x.opt = a
  stored : ∀ k b, (k, b) ∈ x.t.blocks → x.ty k = a
  values : ∀ e, InRange e (x.t.shape.map dimSize) → ValueOf a (entry x.t.shape x.t.blocks e)

/-- Every block is stored in a type that holds its entries. -/
def TypesHold (x : TT G) : Prop := ∀ k b, (k, b) ∈ x.t.blocks → ∀ e, ValueOf (x.ty k) (b.f e)

/-- The dense tensor returned for `x` has the sizes and the entries of `x`. -/
def SameEntries (r : Res (Blk ℂ)) (x : TT G) : Prop :=
  ∃ d, r = .ok d ∧ d.dims = x.t.shape.map dimSize ∧ ∀ e, InRange e (x.t.shape.map dimSize) → d.f e = entry x.t.shape x.t.blocks e

end QuantiT.Spec
