import Verif.Model.BlockMps
import Verif.Model.Reshape
import Verif.Model.TwoSite
/-
Model of the two-site update of dmrg.cpp for block tensors: `one_step_lanczos`, `eig2x2Mat`, `two_sites_update`, the local
update of the sweep, and the DMRG made of them.  Exact arithmetic, over the real or the complex numbers.

Numbers are block tensors without dimensions, which store one block or none.  `fuel` as in Model/BlockNetwork.lean.
Numbers that may be NaN are `Option ℝ`, `none` for NaN, as in Model/Lanczos.lean.
-/
namespace QuantiT
namespace BN
open Spec BT
variable {G 𝕜 : Type} [RCLike 𝕜]

/-- Sequencing of a step that may throw, inside steps that may also not finish. -/
def andNext {α β : Type} (x : Res α) (f : α → Option (Res β)) : Option (Res β) := andThen (some x) f

/-- `tensordot(x, y, {0, 1, 2, 3}, {0, 1, 2, 3})`, read as a real number: what is contracted this way is real for a
hermitian Hamiltonian. -/
noncomputable def dot4B [AddCommGroup G] [DecidableEq G] (fuel : Nat) (x y : BT G 𝕜) : Option (Res (BT G ℝ)) :=
  andThen (tensordot fuel x y [0, 1, 2, 3] [0, 1, 2, 3]) fun r => some (.ok (mapBlocks RCLike.re r))

/-- A real number among the coefficients. -/
noncomputable def ofRealB (t : BT G ℝ) : BT G 𝕜 := mapBlocks (fun x : ℝ => (x : 𝕜)) t

open Classical in
/-- `one_step_lanczos_impl`, dmrg.cpp:584-608: the new vector, `a0`, `a1` and `b`.  `psi_ip /= b` is done only for `b`
different from zero. -/
noncomputable def lanczosB [AddCommGroup G] [DecidableEq G] (fuel : Nat) (state hamil L Rt : BT G 𝕜) :
    Option (Res (BT G 𝕜 × BT G ℝ × BT G ℝ × BT G ℝ)) :=
  andThen (hamil2site fuel state hamil L Rt) fun psi =>
  andThen (dot4B fuel psi (conj star state)) fun a0 =>
  andNext (mul state (ofRealB a0)) fun sa =>
  andNext (add psi sa (-1)) fun psi =>
  andThen (dot4B fuel psi (conj star psi)) fun b2 =>
  let b := mapBlocks Real.sqrt b2
  andNext (item (mapBlocks (fun x : ℝ => if (1e-15 : ℝ) ≤ |x| then (1 : Nat) else 0) b)) fun nonSingular =>
  andNext (if nonSingular ≠ 0 then broadcastInPlace (· / ·) psi (ofRealB b) else .ok psi) fun psi =>
  andThen (hamil2site fuel psi hamil L Rt) fun hp =>
  andThen (dot4B fuel (conj star psi) hp) fun a1 =>
  some (.ok (psi, a0, a1, b))

/-- A binary operation of numbers that may be NaN. -/
def lift2 (f : ℝ → ℝ → Option ℝ) (x y : Option ℝ) : Option ℝ := do f (← x) (← y)

/-- Numbers that are not NaN. -/
def numB (t : BT G ℝ) : BT G (Option ℝ) := mapBlocks some t

/-- `a + b` for numbers that may be NaN, btensor.cpp:2666-2683. -/
noncomputable def addNan [DecidableEq G] (a b : BT G (Option ℝ)) : Res (BT G (Option ℝ)) := do
  addCheck a b
  let m ← FM.mergeInsert (fun x y => (⟨x.dims, fun o => lift2 (fun u v => some (u + v)) (x.f o) (y.f o)⟩ : Blk (Option ℝ))) id
    a.blocks b.blocks
  .ok { a with blocks := m }

open Classical in
/-- `a == b` of two numbers as one or zero; NaN is different from everything. -/
noncomputable def eqNan (x y : Option ℝ) : Option ℝ :=
  if ∃ v, x = some v ∧ y = some v then some 1 else some 0

/-- `item()` of a number that may be NaN, btensor.cpp:322-331. -/
def itemNan (t : BT G (Option ℝ)) : Res (Option ℝ) := @item G (Option ℝ) ⟨some 0⟩ t

/-- The first part of `eig2x2Mat_impl`, dmrg.cpp:543-561: the energy, both coefficients before their correction, and
`zero_o`.  The conjugation of `b` changes nothing, since it is real and has no dimension. -/
noncomputable def eigCoeffs [AddCommGroup G] [DecidableEq G] (a0 a1 b : BT G ℝ) :
    Res (BT G ℝ × BT G (Option ℝ) × BT G (Option ℝ) × Prop) := do
  let diff ← add a0 a1 (-1)
  let bb ← mul (conj id b) b
  let s ← add (mapBlocks (· ^ 2) diff) (scale 4 bb) 1
  let crit := mapBlocks Real.sqrt s
  let sum ← add a0 a1 1
  let e ← add sum crit (-1)
  let E0 := mapBlocks (· / 2) e
  let delt ← add E0 a1 (-1)
  let q ← broadcastOp (lift2 DM.fdiv) (numB delt) (numB (scale (-1) crit))
  let o := mapBlocks (·.bind DM.fsqrt) q
  let oE ← addNan o (numB E0)
  let eq ← broadcastOp eqNan oE (numB E0)
  let isEq ← itemNan eq
  let ov ← itemNan o
  let bo ← broadcastOp (lift2 fun x y => some (x * y)) (numB b) o
  let n ← broadcastOp (lift2 DM.fdiv) bo (numB delt)
  .ok (E0, o, n, isEq ≠ some 0 ∨ ov = none)

/-- `ones_like` and `zeros_like` of a number that may be NaN. -/
noncomputable def filledLike [AddCommGroup G] [DecidableEq G] (x : ℝ) (fuel : Nat) (t : BT G (Option ℝ)) : Option (Res (BT G (Option ℝ))) :=
  andThen (factoryWrap (fun _ _ _ => x) fuel (sparseZeros t.shape t.rule)) fun r => some (.ok (numB r))

/-- `x.isnan().any().item()`: the tensor that `any` leaves undefined when no block is stored has no item. -/
def nanFound (t : BT G (Option ℝ)) : Res Bool :=
  match BT.any (mapBlocks Option.isNone t) with
  | none => Res.throw .runtimeError
  | some b => .ok b

open Classical in
/-- `eig2x2Mat_impl`, dmrg.cpp:543-572: energy, coefficient of the old state, coefficient of the new vector. -/
noncomputable def eig2x2B [AddCommGroup G] [DecidableEq G] (fuel : Nat) (a0 a1 b : BT G ℝ) :
    Option (Res (BT G ℝ × BT G ℝ × BT G ℝ)) :=
  andNext (eigCoeffs a0 a1 b) fun c =>
  andThen (if c.2.2.2 then filledLike 1 fuel c.2.2.1 else some (.ok c.2.2.1)) fun n =>
  andThen (if c.2.2.2 then filledLike 0 fuel c.2.1 else some (.ok c.2.1)) fun o =>
  andNext (nanFound o) fun bad =>
  if bad then some (Res.throw .logicError)
  else
    andNext (nanFound n) fun bad =>
    if bad then some (Res.throw .logicError)
    else some (.ok (c.1, mapBlocks (·.getD 0) o, mapBlocks (·.getD 0) n))

/-- `two_sites_update_impl`, dmrg.cpp:623-639: energy and new two-site tensor. -/
noncomputable def twoSitesUpdateB [AddCommGroup G] [DecidableEq G] (fuel : Nat) (state hamil L Rt : BT G 𝕜) :
    Option (Res (BT G ℝ × BT G 𝕜)) :=
  andThen (lanczosB fuel state hamil L Rt) fun l =>
  andThen (eig2x2B fuel l.2.1 l.2.2.1 l.2.2.2) fun r =>
  andNext (mul (ofRealB r.2.1) state) fun x =>
  andNext (mul (ofRealB r.2.2) l.1) fun y =>
  andNext (add x y 1) fun u =>
  some (.ok (r.1, u))

/-- `d /= sqrt(sum(d.pow(2)))`, dmrg.cpp:189; `d` is real. -/
noncomputable def unitSumB [AddCommGroup G] (d : BT G 𝕜) : Res (BT G 𝕜) :=
  broadcastInPlace (· / ·) d (mapBlocks (fun x : 𝕜 => ((√(RCLike.re x) : ℝ) : 𝕜)) (BT.sum (mapBlocks (· ^ 2) d)))

/-- `shape_from(unsqueezing_shape, d)`, dmrg.cpp:167-183 and 199: two dimensions of size one before those of `d`. -/
def unsqueezedShape [AddCommGroup G] [DecidableEq G] {R : Type} (d : BT G R) : Res (BT G R) := do
  let p : BT G R := ⟨[[(1, 0)]], 0, []⟩
  let u ← shapeFromList [p, p]
  shapeFromList [u, d]

/-- `dmrg_2sites_update::operator()`, dmrg.cpp:163-207, its tensors; `Ws` is `hamil`.  `twosite_hamil[oc]` is computed here
instead of once for all sites.  `svd` is `quantit::svd(local_state, 2, cutoff, minimum_bond, maximum_bond)`.  The energy
is read as a number.  Blocks are values: that `mul_` changes blocks in place has no other effect here. -/
noncomputable def updB [AddCommGroup G] [DecidableEq G] (Ws : List (BT G 𝕜)) (svd : BT G 𝕜 → Res (BT G 𝕜 × BT G 𝕜 × BT G 𝕜))
    (fuel : Nat) (fwd : Bool) (o : Nat) (le re : Res (BT G 𝕜)) (A B : BT G 𝕜) : Option (Res (ℝ × BT G 𝕜 × BT G 𝕜)) :=
  andThen (tensordot fuel A B [2] [0]) fun loc =>
  andNext (orUb Ws[o]?) fun W1 =>
  andNext (orUb Ws[o + 1]?) fun W2 =>
  andThen (twoSite fuel W1 W2) fun H2 =>
  andNext le fun L =>
  andNext re fun Rt =>
  andThen (twoSitesUpdateB fuel loc H2 L Rt) fun ep =>
  andNext (svd ep.2) fun f =>
  andNext (unitSumB f.2.1) fun d =>
  andNext (item ep.1) fun E =>
  if fwd then
    andNext (mulInPlace f.2.2 d) fun vd =>
    andNext (permute (conj star vd) [2, 0, 1]) fun nx =>
    some (.ok (E, f.1, nx))
  else
    andNext (do reshapeAs false d (← unsqueezedShape d)) fun _ =>
    andNext (mulInPlace f.1 d) fun ud =>
    andNext (permute (conj star f.2.2) [2, 0, 1]) fun nx =>
    some (.ok (E, ud, nx))

open Classical in
/-- The result for every large enough `fuel`; a computation that never finishes counts as undefined behaviour. -/
noncomputable def settle {α : Type} (f : Nat → Option (Res α)) : Res α :=
  if h : ∃ r, ∃ N, ∀ fuel, N ≤ fuel → f fuel = some r then h.choose else Res.ub

/-- `compute_left_env(hamil[i], state[i], Env[i - 1])`, dmrg.cpp:399 and 195.  An environment that could not be computed is kept
as its error, which the code would have thrown at once. -/
noncomputable def lenvB [AddCommGroup G] [DecidableEq G] (Ws : List (BT G 𝕜)) (i : Nat) (A : BT G 𝕜) (e : Res (BT G 𝕜)) : Res (BT G 𝕜) :=
  settle fun fuel => andNext e fun L => andNext (orUb Ws[i]?) fun W => envLeft fuel star W A A L

/-- `compute_right_env(hamil[i], state[i], Env[i + 1])`, dmrg.cpp:406 and 202. -/
noncomputable def renvB [AddCommGroup G] [DecidableEq G] (Ws : List (BT G 𝕜)) (i : Nat) (A : BT G 𝕜) (e : Res (BT G 𝕜)) : Res (BT G 𝕜) :=
  settle fun fuel => andNext e fun Rt => andNext (orUb Ws[i]?) fun W => envRight fuel star W A Rt

/-- The block DMRG of the Hamiltonian `Ws`, with the edges that `generate_env` makes for the chain `s0`. -/
noncomputable def bDmrg [AddCommGroup G] [DecidableEq G] (late : Bool) (Ws : List (BT G 𝕜))
    (svd : BT G 𝕜 → Res (BT G 𝕜 × BT G 𝕜 × BT G 𝕜)) (s0 : List (BT G 𝕜)) : Spec.Dmrg (BT G 𝕜) (Res (BT G 𝕜)) ℝ where
  upd := fun fwd o le re A B => settle fun fuel => updB Ws svd fuel fwd o le re A B
  lenv := lenvB Ws
  renv := renvB Ws
  edgeL := settle fun fuel => andThen (envEdges late fuel Ws s0) fun e => some (.ok e.1)
  edgeR := settle fun fuel => andThen (envEdges late fuel Ws s0) fun e => some (.ok e.2)

end BN
end QuantiT
