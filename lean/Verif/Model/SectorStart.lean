import Verif.Model.RandomMps
import Verif.Model.BlockCut
import Verif.Model.Dmrg
import Verif.Model.Broadcast
/-
The block DMRG that makes its own starting state: `dmrg(hamiltonian, qnum, options, logger)`, sources/dmrg.cpp:109-118, with the random
block MPS for a Hamiltonian, sources/MPT.cpp:423-462 and 481-496.
-/
namespace QuantiT
namespace BN
open Spec BT
variable {G 𝕜 : Type} [RCLike 𝕜]

/-- `out[i] /= sqrt((out[i] * out[i].conj()).sum())`, MPT.cpp:449.  A tensor of norm zero is NaN afterwards in the code and zero here. -/
noncomputable def unitSite [AddCommGroup G] [DecidableEq G] (t : BT G 𝕜) : Res (BT G 𝕜) := do
  let n ← BT.mul t (BT.conj star t)
  broadcastInPlace (· / ·) t (mapBlocks (fun x : 𝕜 => ((√(RCLike.re x) : ℝ) : 𝕜)) (BT.sum n))

/-- `random_bMPS_impl`, MPT.cpp:423-462, with the division of every tensor by its norm, which is done here after the loop over the sites
instead of in it.  `ρ` and `fac` as in `RM.randomImpl`. -/
noncomputable def randomUnit [AddCommGroup G] [LinearOrder G] (dist : G → G → Int) (bond : Nat) (phys : List (BT G 𝕜)) (constraint : G) (nPass : Nat)
    (ρ : Nat → Nat → Nat) (fac : Nat → List Nat → List Nat → List Nat → 𝕜) : Res (List (BT G 𝕜)) := do
  let strings ← (List.range bond).mapM fun j => RM.generate dist (phys.map RM.cvalsOf) constraint nPass (ρ j)
  let out ← RM.siteLoop fac constraint strings 0 phys ⟨[[(1, 0)]], 0, []⟩ (List.replicate bond constraint)
  let out ← out.mapM unitSite
  let back ← BT.orUb out.getLast?
  let back ← BT.basicCreateView back [-1, -1, 0] true
  .ok (out.set (out.length - 1) back)

/-- `random_bMPS(bond_dim, phys_dim_spec, q_num)`, MPT.cpp:503-532, as `RM.randomList`. -/
noncomputable def randomUnitList [AddCommGroup G] [LinearOrder G] (dist : G → G → Int) (bond : Nat) (phys : List (BT G 𝕜)) (constraint : G)
    (ρ : Nat → Nat → Nat) (fac : Nat → List Nat → List Nat → List Nat → 𝕜) : Res (List (BT G 𝕜)) :=
  if phys = [] then Res.throw .invalidArgument
  else
    let ranges := phys.map fun p => (p.shape.headD []).map Prod.snd
    randomUnit dist bond phys constraint (1 + RM.adjacentChanges (ranges.insertionSort (· ≤ ·))) ρ fac

/-- The physical dimension for a tensor of the Hamiltonian, MPT.cpp:491:
`shape_from(hamil[i].shape_from({0, 0, 0, -1})).set_selection_rule_(neutral).inverse_cvals()`. -/
def physFrom [AddCommGroup G] [DecidableEq G] (W : BT G 𝕜) : Res (BT G 𝕜) := do
  let t ← shapeFrom W [0, 0, 0, -1]
  let t ← shapeFromList [t]
  let t ← setRule t 0
  .ok (inverseCvals t)

/-- `random_bMPS(bond_dim, hamil, quantum_number)`, MPT.cpp:481-496, and the `random_MPS` that calls it, 541-546. -/
noncomputable def randomFor [AddCommGroup G] [LinearOrder G] (dist : G → G → Int) (bond : Nat) (Ws : List (BT G 𝕜)) (qnum : G)
    (ρ : Nat → Nat → Nat) (fac : Nat → List Nat → List Nat → List Nat → 𝕜) : Res (List (BT G 𝕜)) := do
  let phys ← Ws.mapM physFrom
  randomUnitList dist bond phys qnum ρ fac

/-- `dmrg(hamiltonian, qnum, options, logger)`, dmrg.cpp:109-118: a random state of `options.minimum_bond` states per bond, its
orthogonality centre on the first site, then `dmrg` as in `cutDmrgB`. -/
noncomputable def coldDmrg [AddCommGroup G] [LinearOrder G] (dist : G → G → Int) (ρ : Nat → Nat → Nat) (rnd : Nat → List Nat → List Nat → List Nat → 𝕜)
    (late : Bool) (fac : Blk 𝕜 → Blk 𝕜 × Blk 𝕜 × Blk 𝕜) (eps cutoff : ℝ) (minB maxB : Nat)
    (dflt : Res (BT G 𝕜)) (above : ℝ → ℝ → Bool) (zeroNorm : List (BT G 𝕜) → Bool)
    (moveOc : List (BT G 𝕜) → Nat → Nat → Res (List (BT G 𝕜) × Nat)) (e0 : ℝ) (maxIt : Nat)
    (Ws : List (BT G 𝕜)) (qnum : G) : Res (ℝ × List (BT G 𝕜) × Nat × List (Event (BT G 𝕜) ℝ)) := do
  let sites ← randomFor dist minB Ws qnum ρ rnd
  DM.dmrg false (cutDmrgB late Ws fac eps cutoff minB maxB sites) dflt above zeroNorm moveOc e0 maxIt Ws.length sites 0

end BN
end QuantiT
