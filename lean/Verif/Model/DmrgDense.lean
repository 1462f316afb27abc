import Verif.Model.Mps
import Verif.Model.Dmrg
/-
The dense two-site update of dmrg.cpp with its tensors, and the DMRG made of it.
-/
namespace QuantiT
namespace DM
variable {R E En : Type}

/-- Tensor part of `dmrg_2sites_update::operator()`, dmrg.cpp:186-204, dense.  `solve` is `two_sites_update` with
`twosite_hamil[oc]`, `svd` is `quantit::svd(local_state, 2, cutoff, minimum_bond, maximum_bond)`, `nrm` is the division
of the singular values by their norm.  The unused `d_r` is left out. -/
def denseUpd [Semiring R] (c : R → R) (solve : Nat → E → E → Blk R → En × Blk R)
    (svd : Blk R → Blk R × Blk R × Blk R) (nrm : Blk R → Blk R) (fwd : Bool) (o : Nat) (le re : E) (a b : Blk R) :
    Res (En × Blk R × Blk R) := do
  let loc ← MP.dot1 a b 2 0
  let ep := solve o le re loc
  let (u, d, v) := svd ep.2
  let d := nrm d
  if fwd then
    let vd ← MP.mulLast v d
    let nx ← BT.permBlk [2, 0, 1] (MP.conjBlk c vd)
    .ok (ep.1, u, nx)
  else
    let ud ← MP.mulLast u d
    let nx ← BT.permBlk [2, 0, 1] (MP.conjBlk c v)
    .ok (ep.1, ud, nx)

/-- The dense DMRG: local update above, environments as given. -/
def denseDmrg [Semiring R] (c : R → R) (solve : Nat → E → E → Blk R → En × Blk R)
    (svd : Blk R → Blk R × Blk R × Blk R) (nrm : Blk R → Blk R) (lenv renv : Nat → Blk R → E → E) (edgeL edgeR : E) :
    Spec.Dmrg (Blk R) E En where
  upd := denseUpd c solve svd nrm
  lenv := lenv
  renv := renv
  edgeL := edgeL
  edgeR := edgeR

/-- `in_out_state.move_oc(init_pos)` at the end of `dmrg_impl`, dmrg.cpp:326-328, on a chain whose recorded center is
`i`. -/
def moveOcDense [Semiring R] (c : R → R) (svd : Blk R → Nat → Blk R × Blk R × Blk R) (s : List (Blk R)) (i j : Nat) :
    Res (List (Blk R) × Nat) :=
  (MP.moveOc c svd ⟨s, i⟩ (j : Int)).map fun m => (m.sites, m.oc)

end DM
end QuantiT
