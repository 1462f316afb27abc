import Verif.Model.BlockTruncate
/-
Eigenvalue decomposition of a block tensor between two groups of its dimensions, /repo/sources/btensor_linalg.cpp:369-389, 820-834.

Same simplifications as Model/Linalg.lean.
-/
namespace QuantiT
namespace BT
open Spec
variable {G R α : Type}

/-- `eigh(tensor, split)`, btensor_linalg.cpp:369-389.  `fac` stands for `torch::linalg::eigh` with the flag for the upper triangle. -/
def eighSplit [AddCommGroup G] [LinearOrder G] [Zero R] (fac : Blk R → Blk R × Blk R) (t : BT G R) (split : Nat) : Res (BT G R × BT G R) := do
  let n := t.shape.length
  let r ← reshape t [split]
  let (d, ru) ← eighFull fac r
  let su ← shapeFrom t (List.replicate (min split n) (-1) ++ List.replicate (n - split) 0)
  let ru' ← shapeFrom ru [0, -1]
  let s ← shapeFromList [su, ru']
  let u ← reshapeAs false ru s
  .ok (d, u)

/-- `eigh(A, split, tol, min_size, max_size, pow)`, btensor_linalg.cpp:820-827: `pw x` is `x^pow`. -/
def eighCutB [AddCommGroup G] [LinearOrder G] [Field α] [LinearOrder α] (fac : Blk α → Blk α × Blk α) (eps : α) (t : BT G α) (split : Nat) (tol : α)
    (minS maxS : Nat) (pw : α → α) : Res (BT G α × BT G α) := do
  let eS ← eighSplit fac t split
  truncateEigh eS maxS minS tol pw eps

/-- `eigh(A, split, tol, pow)`, btensor_linalg.cpp:828-834. -/
def eighTolB [AddCommGroup G] [LinearOrder G] [Field α] [LinearOrder α] (fac : Blk α → Blk α × Blk α) (eps : α) (t : BT G α) (split : Nat) (tol : α)
    (pw : α → α) : Res (BT G α × BT G α) :=
  eighCutB fac eps t split tol 1 (2 ^ 64 - 1) pw

end BT
end QuantiT
