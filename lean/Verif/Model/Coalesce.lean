import Verif.Model.BlockCut
import Verif.Model.BlockMps
import Verif.Model.BlockModels
/-
Model of `bMPO::coalesce`, MPT.cpp:154-168.  Same simplifications as Model/BTensor.lean; `fuel` as in Model/BlockNetwork.lean.
-/
namespace QuantiT
namespace BN
open Spec BT
variable {G 𝕜 : Type} [RCLike 𝕜]

/-- One turn of the loop of `bMPO::coalesce`, MPT.cpp:160-165, for the tensor `W` and the next one: what they become.  `svd(tens, 3, cutoff)`
is the overload of btensor_linalg.cpp:810-815: at least one value is kept, at most the largest `size_t`, and the power is 2 by
default (include/blockTensor/LinearAlgebra.h:142).  `fac` stands for the singular value decomposition of dense matrices by torch. -/
noncomputable def coalesceStep [AddCommGroup G] [LinearOrder G] (fuel : Nat) (fac : Blk 𝕜 → Blk 𝕜 × Blk 𝕜 × Blk 𝕜) (eps cutoff : ℝ)
    (W next : BT G 𝕜) : Option (Res (BT G 𝕜 × BT G 𝕜)) :=
  andThen (some (permute W [0, 1, 3, 2])) fun tens =>
  andThen (some (svdCutB fac eps tens 3 cutoff 1 (2 ^ 64 - 1) fun x => x ^ 2)) fun udv =>
  andThen (some (mulInPlace udv.1 udv.2.1)) fun ud =>
  andThen (tensordot fuel (conj star udv.2.2) next [0] [0]) fun next' =>
  andThen (some (permute ud [0, 1, 3, 2])) fun W' =>
  some (.ok (W', next'))

/-- `bMPO::coalesce(cutoff)`, MPT.cpp:154-168.  The iterator `begin() + 1` of an empty chain is past its end: undefined behaviour. -/
noncomputable def coalesceB [AddCommGroup G] [LinearOrder G] (fuel : Nat) (fac : Blk 𝕜 → Blk 𝕜 × Blk 𝕜 × Blk 𝕜) (eps cutoff : ℝ) :
    List (BT G 𝕜) → Option (Res (List (BT G 𝕜)))
  | [] => some Res.ub
  | [W] => some (.ok [W])
  | W :: next :: Ws =>
    andThen (coalesceStep fuel fac eps cutoff W next) fun r =>
    andThen (coalesceB fuel fac eps cutoff (r.2 :: Ws)) fun rest =>
    some (.ok (r.1 :: rest))
  termination_by Ws => Ws.length

/-- `Heisenberg(J, lenght, phys_shape)`, models.cpp:91-99, for real numbers; `coalesce()` has the cutoff 0 by default (include/MPT.h:699). -/
noncomputable def heisenbergB [AddCommGroup G] [LinearOrder G] (fuel : Nat) (fac : Blk ℝ → Blk ℝ × Blk ℝ × Blk ℝ) (eps J : ℝ) (len : Nat)
    (phys : BT G ℝ) : Option (Res (List (BT G ℝ))) :=
  andThen (some (heisenbergBlocks J len phys)) fun H => coalesceB fuel fac eps 0 H

/-- `Hubbard(U, mu, lenght, Phys_shape)`, models.cpp:163-171, for real numbers. -/
noncomputable def hubbardB [AddCommGroup G] [LinearOrder G] (fuel : Nat) (fac : Blk ℝ → Blk ℝ × Blk ℝ × Blk ℝ) (eps U mu : ℝ) (len : Nat)
    (phys : BT G ℝ) : Option (Res (List (BT G ℝ))) :=
  andThen (some (hubbardBlocks U mu len phys)) fun H => coalesceB fuel fac eps 0 H

end BN
end QuantiT
