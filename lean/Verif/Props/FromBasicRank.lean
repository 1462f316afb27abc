import Verif.Props.BTensor
/-
C19: dense tensors of another rank.
-/
namespace QuantiT
namespace BT
open Spec
variable {G R : Type} [AddCommMonoid G] [DecidableEq G] [Zero R]

/-- **C19.**  A dense tensor with more or with fewer dimensions is rejected with `invalid_argument`, whatever the shape, the values and the cutoff. -/
theorem C19_rank (sig : Blk R → Bool) (values : Blk R) (fuel : Nat) (t : BT G R) (h : values.dims.length ≠ t.shape.length) :
    fromBasic sig values fuel t = some (.error (.throw .invalidArgument)) := by
  unfold fromBasic
  rw [if_pos (Ne.symm h)]
  rfl

/-- A vector and a block tensor with two dimensions. -/
example : (⟨[3], fun _ => 1⟩ : Blk ℤ).dims.length ≠ (sparseZeros [[(1, 0), (2, 1)], [(3, 0)]] 0 : BT ℤ ℤ).shape.length := by decide

end BT
end QuantiT
