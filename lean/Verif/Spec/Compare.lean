import Verif.Spec.BTensor
import Mathlib.Algebra.Order.Field.Basic
/-
Two tensors are close when all their entries are: the criterion of `torch::allclose` and `numpy.allclose`.
-/
namespace QuantiT
namespace Spec
variable {G K : Type}

/-- `|x - y| ≤ atol + rtol |y|`. -/
def CloseNum [Field K] [LinearOrder K] (rtol atol x y : K) : Prop := |x - y| ≤ atol + rtol * |y|

/-- All entries of two block tensors of the same shape are close. -/
def CloseEntries [Field K] [LinearOrder K] (rtol atol : K) (sh : Shape G) (a b : List (List Nat × Blk K)) : Prop :=
  ∀ e, InRange e (sh.map dimSize) → CloseNum rtol atol (entry sh a e) (entry sh b e)

end Spec
end QuantiT
