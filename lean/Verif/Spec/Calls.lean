import Verif.Model.BlockCut
import Verif.Model.EighSplit
/-
What the documentation of `svd` and `eigh` (include/blockTensor/LinearAlgebra.h:38-192, python_binding/linalg.cpp) says a call means.
-/
namespace QuantiT
namespace Spec
open BT BN
variable {G 𝕜 : Type}

/-- What a caller asks for: the decomposition of the matrices made of the last two dimensions, with its flags; that of the tensor seen as a
matrix, the first `split` dimensions being the rows; the same with the smallest values dropped. -/
inductive Asked (F : Type) where
  | batched (flags : F)
  | split (n : Nat)
  | cut (n : Nat) (tol : ℝ) (minS maxS : Nat) (pow : ℝ)

/-- The singular value decomposition that is asked for.  `fac some compute_uv` is the decomposition of a matrix with these flags, `eps` the
machine precision. -/
noncomputable def svdMeant [RCLike 𝕜] [AddCommGroup G] [LinearOrder G] (fac : Bool → Bool → Blk 𝕜 → Blk 𝕜 × Blk 𝕜 × Blk 𝕜) (eps : ℝ) (t : BT G 𝕜) :
    Asked (Bool × Bool) → Res (BT G 𝕜 × BT G 𝕜 × BT G 𝕜)
  | .batched f => svdFull (fac f.1 f.2) t f.1
  | .split n => svdSplit (fac true true) t n
  | .cut n tol minS maxS pow => svdCutB (fac true true) eps t n tol minS maxS fun x => x ^ pow

/-- The eigenvalue decomposition that is asked for.  `fac upper` is that of a hermitian matrix given by one of its triangles. -/
noncomputable def eighMeant [AddCommGroup G] [LinearOrder G] (fac : Bool → Blk ℝ → Blk ℝ × Blk ℝ) (eps : ℝ) (t : BT G ℝ) :
    Asked Bool → Res (BT G ℝ × BT G ℝ)
  | .batched upper => eighFull (fac upper) t
  | .split n => eighSplit (fac false) t n
  | .cut n tol minS maxS pow => eighCutB (fac false) eps t n tol minS maxS fun x => x ^ pow

/-- The largest `size_t`: no limit. -/
def sizeMax : Nat := 2 ^ 64 - 1

end Spec
end QuantiT
