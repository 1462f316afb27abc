import Verif.Props.Operators
import Verif.Props.Compare
/-
C120: the quotient of a number by a tensor in C++.
-/
namespace QuantiT
namespace PY
open Spec BT
variable {G R : Type} [AddCommMonoid G] [DecidableEq G] [Field R] [LinearOrder R]

/-- **C120 fails** in C++ for `x / t`, for every number and every tensor that stores a block: undefined behaviour. -/
theorem C120_cpp_div_fails (x : R) (t : BT G R) (h : t.blocks ≠ []) : cppLeft .div x t = some Res.ub :=
  congrArg some (C94_scalar_div_fails x t h)

example : (⟨[[(1, 0)]], 0, [([0], ⟨[1], fun _ => 2⟩)]⟩ : BT ℤ ℚ).blocks ≠ [] := by simp

end PY
end QuantiT
