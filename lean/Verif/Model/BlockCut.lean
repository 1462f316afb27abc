import Verif.Model.BlockDmrg
import Verif.Model.BlockTruncate
/-
The block DMRG with the SVD it calls.
-/
namespace QuantiT
namespace BN
open Spec BT
variable {G 𝕜 : Type} [RCLike 𝕜]

/-- `svd(A, split, tol, min_size, max_size, pow)`, btensor_linalg.cpp:805-809.  `fac` is `torch::linalg::svd` of a matrix, whose values are
real; they are truncated as real numbers and then used with the coefficients of the tensor. -/
noncomputable def svdCutB [AddCommGroup G] [LinearOrder G] (fac : Blk 𝕜 → Blk 𝕜 × Blk 𝕜 × Blk 𝕜) (eps : ℝ) (t : BT G 𝕜) (split : Nat)
    (tol : ℝ) (minS maxS : Nat) (pw : ℝ → ℝ) : Res (BT G 𝕜 × BT G 𝕜 × BT G 𝕜) := do
  let f ← svdSplit fac t split
  let r ← truncateSvd (f.1, mapBlocks RCLike.re f.2.1, f.2.2) maxS minS tol pw eps
  .ok (r.1, ofRealB r.2.1, r.2.2)

/-- The block DMRG with `svd(local_state, 2, options.cutoff, options.minimum_bond, options.maximum_bond)` (sources/dmrg.cpp:188; the
power is 2 by default, include/blockTensor/LinearAlgebra.h). -/
noncomputable def cutDmrgB [AddCommGroup G] [LinearOrder G] (late : Bool) (Ws : List (BT G 𝕜)) (fac : Blk 𝕜 → Blk 𝕜 × Blk 𝕜 × Blk 𝕜) (eps cutoff : ℝ)
    (minB maxB : Nat) (s0 : List (BT G 𝕜)) : Spec.Dmrg (BT G 𝕜) (Res (BT G 𝕜)) ℝ :=
  bDmrg late Ws (fun t => svdCutB fac eps t 2 cutoff minB maxB fun x => x ^ 2) s0

end BN
end QuantiT
