import Verif.Model.Network
import Verif.Model.Dmrg
import Verif.Model.Lanczos
import Verif.Spec.Energy
/-
The dense two-site update of dmrg.cpp with all its tensors: `one_step_lanczos`, `two_sites_update`, the local update of
the sweep, and the DMRG made of them.  Exact arithmetic, over the real or the complex numbers.
-/
namespace QuantiT
namespace DM
open Spec MP
variable {𝕜 : Type} [RCLike 𝕜]

/-- `psi - state * a0` of tensors of the same sizes; torch would broadcast other sizes, which is not modelled. -/
noncomputable def subMul (psi state : Blk 𝕜) (a0 : ℝ) : Res (Blk 𝕜) :=
  if psi.dims ≠ state.dims then Res.throw .runtimeError
  else .ok ⟨psi.dims, fun o => psi.f o - state.f o * (a0 : 𝕜)⟩

/-- `psi /= b` for a number. -/
noncomputable def divBy (psi : Blk 𝕜) (b : ℝ) : Blk 𝕜 := ⟨psi.dims, fun o => psi.f o / (b : 𝕜)⟩

/-- Full contraction of two tensors with four dimensions, `tensordot(x, y, {0, 1, 2, 3}, {0, 1, 2, 3})`, read as a real
number: what is contracted this way is real for a hermitian Hamiltonian. -/
noncomputable def dot4 (x y : Blk 𝕜) : Res ℝ := do
  let r ← tdot x y [0, 1, 2, 3] [0, 1, 2, 3]
  .ok (RCLike.re (r.f []))

open Classical in
/-- `one_step_lanczos_impl`, dmrg.cpp:584-608: the new vector, `a0`, `a1` and `b`. -/
noncomputable def lanczosBlk (state hamil L Rt : Blk 𝕜) : Res (Blk 𝕜 × ℝ × ℝ × ℝ) := do
  let psi ← hamil2site state hamil L Rt
  let a0 ← dot4 psi (conjBlk star state)
  let psi ← subMul psi state a0
  let b2 ← dot4 psi (conjBlk star psi)
  let b := √b2
  let psi := if b ≥ 1e-15 then divBy psi b else psi
  let hp ← hamil2site psi hamil L Rt
  let a1 ← dot4 (conjBlk star psi) hp
  .ok (psi, a0, a1, b)

/-- `two_sites_update_impl`, dmrg.cpp:623-639: energy and new two-site tensor. -/
noncomputable def twoSitesUpdateBlk (state hamil L Rt : Blk 𝕜) : Res (ℝ × Blk 𝕜) := do
  let l ← lanczosBlk state hamil L Rt
  let r ← eig2x2 l.2.1 l.2.2.1 l.2.2.2
  if state.dims ≠ l.1.dims then Res.throw .runtimeError
  else .ok (r.1, ⟨state.dims, fun o => (r.2.1 : 𝕜) * state.f o + (r.2.2 : 𝕜) * l.1.f o⟩)

/-- `d /= sqrt(sum(d.pow(2)))`, dmrg.cpp:189; `d` is real. -/
noncomputable def unitSum (d : Blk 𝕜) : Blk 𝕜 := divBy d (√(∑ o ∈ configs d.dims, RCLike.re (d.f o) ^ 2))

/-- `dmrg_2sites_update::operator()`, dmrg.cpp:163-207, its tensors; `Ws` is `hamil`.  `twosite_hamil[oc]` is computed here
instead of once for all sites.  `svd` is `quantit::svd(local_state, 2, cutoff, minimum_bond, maximum_bond)`.  The unused
`d_r` is left out. -/
noncomputable def blkUpdR (Ws : List (Blk 𝕜)) (svd : Blk 𝕜 → Res (Blk 𝕜 × Blk 𝕜 × Blk 𝕜)) (fwd : Bool) (o : Nat) (le re : Res (Blk 𝕜))
    (a b : Blk 𝕜) : Res (ℝ × Blk 𝕜 × Blk 𝕜) := do
  let loc ← dot1 a b 2 0
  let W1 ← BT.orUb Ws[o]?
  let W2 ← BT.orUb Ws[o + 1]?
  let H2 ← twoSite W1 W2
  let L ← le
  let Rt ← re
  let ep ← twoSitesUpdateBlk loc H2 L Rt
  let f ← svd ep.2
  let d := unitSum f.2.1
  if fwd then
    let vd ← mulLast f.2.2 d
    let nx ← BT.permBlk [2, 0, 1] (conjBlk star vd)
    .ok (ep.1, f.1, nx)
  else
    let ud ← mulLast f.1 d
    let nx ← BT.permBlk [2, 0, 1] (conjBlk star f.2.2)
    .ok (ep.1, ud, nx)

/-- `blkUpdR` with an SVD that never throws. -/
noncomputable def blkUpd (Ws : List (Blk 𝕜)) (svd : Blk 𝕜 → Blk 𝕜 × Blk 𝕜 × Blk 𝕜) : Bool → Nat → Res (Blk 𝕜) → Res (Blk 𝕜) →
    Blk 𝕜 → Blk 𝕜 → Res (ℝ × Blk 𝕜 × Blk 𝕜) :=
  blkUpdR Ws fun X => .ok (svd X)

/-- `compute_left_env(hamil[i], state[i], Env[i - 1])`, dmrg.cpp:399 and 195.  An environment that could not be computed is kept
as its error, which the code would have thrown at once. -/
noncomputable def lenvBlk (Ws : List (Blk 𝕜)) (i : Nat) (A : Blk 𝕜) (e : Res (Blk 𝕜)) : Res (Blk 𝕜) := do
  let L ← e
  let W ← BT.orUb Ws[i]?
  envLeft star W A A L

/-- `compute_right_env(hamil[i], state[i], Env[i + 1])`, dmrg.cpp:406 and 202. -/
noncomputable def renvBlk (Ws : List (Blk 𝕜)) (i : Nat) (A : Blk 𝕜) (e : Res (Blk 𝕜)) : Res (Blk 𝕜) := do
  let Rt ← e
  let W ← BT.orUb Ws[i]?
  envRight star W A Rt

/-- The dense DMRG of the Hamiltonian `Ws` on chains with ends of size one.  The edges are the tensors of ones that
`generate_env` is meant to make (its shapes are computed with undefined behaviour, `C70_default_fails`). -/
noncomputable def blkDmrgR (Ws : List (Blk 𝕜)) (svd : Blk 𝕜 → Res (Blk 𝕜 × Blk 𝕜 × Blk 𝕜)) : Spec.Dmrg (Blk 𝕜) (Res (Blk 𝕜)) ℝ where
  upd := blkUpdR Ws svd
  lenv := lenvBlk Ws
  renv := renvBlk Ws
  edgeL := .ok (onesLike [1, 1, 1])
  edgeR := .ok (onesLike [1, 1, 1])

/-- `blkDmrgR` with an SVD that never throws. -/
noncomputable def blkDmrg (Ws : List (Blk 𝕜)) (svd : Blk 𝕜 → Blk 𝕜 × Blk 𝕜 × Blk 𝕜) : Spec.Dmrg (Blk 𝕜) (Res (Blk 𝕜)) ℝ :=
  blkDmrgR Ws fun X => .ok (svd X)

open Classical in
/-- The zero norm test of `dmrg_impl`, dmrg.cpp:281-283; `contract(state, state)` is the norm by `C69_overlap`. -/
noncomputable def tooSmall (s : List (Blk 𝕜)) : Bool := decide (normSq s = 0 ∨ normSq s < 1e-15)

end DM
end QuantiT
