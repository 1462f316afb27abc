import Verif.Model.CutDmrg
import Verif.Model.DmrgDense
import Verif.Model.Stopping
/-
The options of the ground state search, include/dmrg_options.h, and the dense search made with them.
-/
namespace QuantiT
namespace DM
open Spec
variable {𝕜 : Type} [RCLike 𝕜]

/-- `dmrg_options`, include/dmrg_options.h:15-25, without the two flags for gradients. -/
structure Options where
  cutoff : ℝ
  criterion : ℝ
  maxBond : Nat
  minBond : Nat
  maxIt : Nat

namespace Options

/-- `dmrg_options(cutoff, convergence_criterion)`, include/dmrg_options.h:36-40, with the defaults of 28-34. -/
def precision (cutoff criterion : ℝ) : Options := ⟨cutoff, criterion, 2 ^ 64 - 1, 4, 1000⟩

/-- `dmrg_options(max_bond, min_bond, max_iterations)`, include/dmrg_options.h:41-45. -/
noncomputable def limits (maxBond minBond maxIt : Nat) : Options := ⟨1 / 10 ^ 6, 1 / 10 ^ 5, maxBond, minBond, maxIt⟩

/-- `dmrg_options()`, include/dmrg_options.h:52. -/
noncomputable def standard : Options := precision (1 / 10 ^ 6) (1 / 10 ^ 5)

/-- `dmrg_options(cutoff=…, convergence_criterion=…, max_bond=…, min_bond=…, maximum_iterations=…)` of Python, python_binding/algorithm.cpp:30-38:
what is not given has its default. -/
noncomputable def python (cutoff criterion : Option ℝ) (maxBond minBond maxIt : Option Nat) : Options :=
  ⟨cutoff.getD (1 / 10 ^ 6), criterion.getD (1 / 10 ^ 5), maxBond.getD (2 ^ 64 - 1), minBond.getD 4, maxIt.getD 1000⟩

end Options

/-- One two-site update with the options, dmrg.cpp:187. -/
noncomputable def updateWith (opt : Options) (Ws : List (Blk 𝕜)) (fac : Blk 𝕜 → Blk 𝕜 × Blk 𝕜 × Blk 𝕜) : Spec.Dmrg (Blk 𝕜) (Res (Blk 𝕜)) ℝ :=
  cutDmrg Ws fac opt.cutoff opt.minBond opt.maxBond

/-- `dmrg(hamiltonian, in_out_state, options)` for dense tensors, dmrg.cpp:276-330; `move_oc` uses the same SVD of matrices, without
truncation (MPT.cpp:47, 64). -/
noncomputable def dmrgWith (opt : Options) (Ws : List (Blk 𝕜)) (fac : Blk 𝕜 → Blk 𝕜 × Blk 𝕜 × Blk 𝕜) (dflt : Res (Blk 𝕜)) (sites : List (Blk 𝕜)) (oc : Nat) :
    Res (ℝ × List (Blk 𝕜) × Nat × List (Event (Blk 𝕜) ℝ)) :=
  dmrg true (updateWith opt Ws fac) dflt (movedAbs opt.criterion) tooSmall (moveOcDense star (svdOf fac)) energyBefore opt.maxIt sites.length sites oc

end DM
end QuantiT
