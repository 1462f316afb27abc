import Verif.Model.TwoSite
import Verif.Model.SvdDense
/-
The dense DMRG with the SVD it calls.
-/
namespace QuantiT
namespace DM
open Spec
variable {𝕜 : Type} [RCLike 𝕜]

/-- The dense DMRG with `svd(local_state, 2, options.cutoff, options.minimum_bond, options.maximum_bond)` (sources/dmrg.cpp:188; the
power is 2 by default, include/LinearAlgebra.h).  `fac` is `torch::svd` of a matrix. -/
noncomputable def cutDmrg (Ws : List (Blk 𝕜)) (fac : Blk 𝕜 → Blk 𝕜 × Blk 𝕜 × Blk 𝕜) (cutoff : ℝ) (minB maxB : Nat) :
    Spec.Dmrg (Blk 𝕜) (Res (Blk 𝕜)) ℝ :=
  blkDmrgR Ws fun X => LA.svdCut fac X 2 cutoff minB maxB fun x => x ^ 2

/-- The tensors of `svd(A, split)`; for a call that throws, anything. -/
def svdOf (fac : Blk 𝕜 → Blk 𝕜 × Blk 𝕜 × Blk 𝕜) (A : Blk 𝕜) (split : Nat) : Blk 𝕜 × Blk 𝕜 × Blk 𝕜 :=
  match LA.svdDense fac A split with
  | .ok r => r
  | .error _ => (A, A, A)

end DM
end QuantiT
