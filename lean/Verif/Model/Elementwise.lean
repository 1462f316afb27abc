import Verif.Model.Broadcast
import Verif.Spec.Elementwise
import Mathlib.Analysis.SpecialFunctions.Pow.Real
/-
Functions of the elements of block tensors and comparisons, /repo/sources/btensor.cpp:909-976, 1510-1564, 1610-1621, 1693-1748,
3090-3102.

The type of the entries is not modelled: truth values are the numbers 0 and 1.
-/
namespace QuantiT
namespace BT
open Spec
variable {G R : Type}

/-! ### With a number -/

/-- A truth value returned by torch. -/
def bit [Zero R] [One R] (p : Prop) [Decidable p] : R := if p then 1 else 0

section
variable [LinearOrder R] [Zero R] [One R]

/-- `le(Scalar)`, btensor.cpp:911-918. -/
def leNum (t : BT G R) (c : R) : BT G R := mapBlocks (fun x => bit (x ≤ c)) t
/-- `ge(Scalar)`, btensor.cpp:919-926. -/
def geNum (t : BT G R) (c : R) : BT G R := mapBlocks (fun x => bit (x ≥ c)) t
/-- `eq(Scalar)`, btensor.cpp:927-934. -/
def eqNum (t : BT G R) (c : R) : BT G R := mapBlocks (fun x => bit (x = c)) t
/-- `less(Scalar)`, btensor.cpp:935-942. -/
def lessNum (t : BT G R) (c : R) : BT G R := mapBlocks (fun x => bit (x < c)) t
/-- `not_equal(Scalar)`, btensor.cpp:943-951. -/
def neNum (t : BT G R) (c : R) : BT G R := mapBlocks (fun x => bit (x ≠ c)) t
/-- `greater(Scalar)`, btensor.cpp:952-959. -/
def greaterNum (t : BT G R) (c : R) : BT G R := mapBlocks (fun x => bit (x > c)) t

/-- The call of one of the six functions. -/
def cmpNum : Cmp → BT G R → R → BT G R
  | .le => leNum | .ge => geNum | .eq => eqNum | .less => lessNum | .ne => neNum | .greater => greaterNum

/-! ### With a tensor -/

variable [AddCommMonoid G] [DecidableEq G]

/-- `ge(const btensor&)`, btensor.cpp:1693-1699. -/
def geT (a b : BT G R) : Res (BT G R) := broadcastOp (fun x y => bit (x ≥ y)) a b
/-- `le(const btensor&)`, btensor.cpp:1700-1706. -/
def leT (a b : BT G R) : Res (BT G R) := broadcastOp (fun x y => bit (x ≤ y)) a b
/-- `less(const btensor&)`, btensor.cpp:1707-1713. -/
def lessT (a b : BT G R) : Res (BT G R) := broadcastOp (fun x y => bit (x < y)) a b
/-- `greater(const btensor&)`, btensor.cpp:1714-1720. -/
def greaterT (a b : BT G R) : Res (BT G R) := broadcastOp (fun x y => bit (x > y)) a b
/-- `not_equal(const btensor&)`, btensor.cpp:1721-1728. -/
def neT (a b : BT G R) : Res (BT G R) := broadcastOp (fun x y => bit (x ≠ y)) a b
/-- `eq(const btensor&)`, btensor.cpp:1729-1735. -/
def eqT (a b : BT G R) : Res (BT G R) := broadcastOp (fun x y => bit (x = y)) a b

/-- The call of one of the six functions. -/
def cmpT : Cmp → BT G R → BT G R → Res (BT G R)
  | .le => leT | .ge => geT | .eq => eqT | .less => lessT | .ne => neT | .greater => greaterT

end

/-! ### Functions -/

/-- `sqrt()` and `sqrt_()`, btensor.cpp:1511-1530, of a real tensor.  A negative entry gives NaN in the code and 0 here. -/
noncomputable def sqrtT (t : BT G ℝ) : BT G ℝ := mapBlocks Real.sqrt t

/-- `abs()` and `abs_()`, btensor.cpp:1531-1551, of a real tensor. -/
def absT (t : BT G ℝ) : BT G ℝ := mapBlocks (fun x => |x|) t

/-- `pow(Scalar)` and `pow_(Scalar)`, btensor.cpp:1552-1564 and 1610-1621, of a real tensor.  The NaN of a negative base with a
broken exponent and the infinity of zero with a negative exponent are other numbers here. -/
noncomputable def powNum (t : BT G ℝ) (p : ℝ) : BT G ℝ := mapBlocks (fun x => x ^ p) t

/-- `div(Scalar)`, btensor.cpp:966-976. -/
def divNum [Div R] (t : BT G R) (c : R) : BT G R := mapBlocks (fun x => x / c) t

/-- `div_(Scalar)`, btensor.cpp:960-965: every block times the reciprocal. -/
def divNumInPlace [Div R] [Mul R] [One R] (t : BT G R) (c : R) : BT G R := mapBlocks (fun x => x * (1 / c)) t

/-- `div(const btensor&)`, btensor.cpp:1736-1739.  The infinity or NaN of a division by a stored zero is 0 here. -/
def divT [AddCommMonoid G] [DecidableEq G] [Div R] (a b : BT G R) : Res (BT G R) := broadcastOp (· / ·) a b

/-- `pow(const btensor&)`, btensor.cpp:1740-1743, with the restrictions of `powNum`. -/
noncomputable def powT [AddCommMonoid G] [DecidableEq G] (a b : BT G ℝ) : Res (BT G ℝ) := broadcastOp (· ^ ·) a b

/-- `isnan()`, btensor.cpp:3090-3102, `isnan` being the test of one element: the blocks are assigned one by one to a tensor without
blocks. -/
def isnanT (isnan : R → Bool) (t : BT G R) : BT G Nat :=
  ⟨t.shape, t.rule, t.blocks.foldl (fun out kb =>
    FM.indexAssign ⟨[], fun _ => 0⟩ out kb.1 ⟨kb.2.dims, fun o => bit (isnan (kb.2.f o) = true)⟩) []⟩

end BT
end QuantiT
