import Verif.Model.CutDmrg
import Verif.Model.Mps
/-
The dense random MPS of MPT.cpp and the DMRG that starts from it.
-/
namespace QuantiT
namespace DM
open Spec
variable {R : Type}

/-- `t.index({Slice(0, 1), Ellipsis})`, MPT.cpp:382: the first element of the first dimension, kept as a dimension. -/
def chopFirst (t : Blk R) : Blk R := ⟨t.dims.modify 0 (min 1), t.f⟩

/-- `t.index({Ellipsis, Slice(0, 1)})`, MPT.cpp:383, of a tensor with three dimensions. -/
def chopLast (t : Blk R) : Blk R := ⟨t.dims.modify 2 (min 1), t.f⟩

/-- `random_MPS_impl`, MPT.cpp:373-385; `rnd i` are the numbers `torch::rand` drew for site `i`.  The ends of an empty chain are
undefined behaviour. -/
def randomDense (bond : Nat) (ps : List Nat) (rnd : Nat → List Nat → R) : Res (List (Blk R)) := do
  let out : List (Blk R) := ps.zipIdx.map fun p => ⟨[bond, p.1, bond], rnd p.2⟩
  let a ← BT.orUb out[0]?
  let out := out.set 0 (chopFirst a)
  let b ← BT.orUb out[ps.length - 1]?
  .ok (out.set (ps.length - 1) (chopLast b))

/-- `random_MPS(bond_dim, hamil)`, MPT.cpp:464-468. -/
def randomFor (bond : Nat) (Ws : List (Blk R)) (rnd : Nat → List Nat → R) : Res (List (Blk R)) := do
  let ps ← Ws.mapM fun W => BT.orUb W.dims[3]?
  randomDense bond ps rnd

variable {𝕜 : Type} [RCLike 𝕜]

/-- `dmrg(hamiltonian, options, logger)`, dmrg.cpp:119-125 (through 100-107): DMRG of a random chain, whose center is 0 (MPT.h:317).
`dflt`, `above`, `zeroNorm`, `moveOc` and `e0` are those of `dmrg`. -/
noncomputable def dmrgRandom (Ws : List (Blk 𝕜)) (fac : Blk 𝕜 → Blk 𝕜 × Blk 𝕜 × Blk 𝕜) (cutoff : ℝ) (minB maxB : Nat) (dflt : Res (Blk 𝕜))
    (above : ℝ → ℝ → Bool) (zeroNorm : List (Blk 𝕜) → Bool) (moveOc : List (Blk 𝕜) → Nat → Nat → Res (List (Blk 𝕜) × Nat)) (e0 : ℝ)
    (maxIt : Nat) (rnd : Nat → List Nat → 𝕜) : Res (ℝ × List (Blk 𝕜) × Nat × List (Event (Blk 𝕜) ℝ)) := do
  let sites ← randomFor minB Ws rnd
  dmrg true (cutDmrg Ws fac cutoff minB maxB) dflt above zeroNorm moveOc e0 maxIt Ws.length sites 0

end DM
end QuantiT
