import Verif.Model.BlockModels
/-
Operators with conserved quantities, /repo/sources/operators.cpp:42-58. Same simplifications as Model/BlockModels.lean: the
entries are an ordered field, the eight bit integers of the dense operators are not modelled.
-/
namespace QuantiT
namespace HM
open Spec BT BN
variable {G K : Type}

/-- The lambda of `fermions(shape)` and `pauli(shape)`, operators.cpp:43-47 and 52-56: the rule of the dense operator is
looked up with cutoff 0 (btensor.h:1516), and its blocks are taken over with cutoff 1e-16 (btensor.h:1339). -/
def chargedOp [AddCommGroup G] [DecidableEq G] [Field K] [LinearOrder K] (shape : BT G K) (W : Blk K) : Res (BT G K) := do
  let q ← findSelectionRule (fun x => decide (0 < |x|)) W shape.shape
  let localShape ← setRule shape q
  fromBasicLike (1 / 10 ^ 16) localShape W

/-- `fermions(shape)`, operators.cpp:42-48. -/
def fermionsB [AddCommGroup G] [DecidableEq G] [Field K] [LinearOrder K] (shape : BT G K) :
    Res (BT G K × BT G K × BT G K × BT G K) := do
  let cUp ← chargedOp shape fermiUp
  let cDn ← chargedOp shape fermiDn
  let f ← chargedOp shape fermiF
  let i ← chargedOp shape fermiId
  .ok (cUp, cDn, f, i)

/-- `pauli(shape)`, operators.cpp:50-57. -/
def pauliB [AddCommGroup G] [DecidableEq G] [Field K] [LinearOrder K] (shape : BT G K) :
    Res (BT G K × BT G K × BT G K) := do
  let sz ← chargedOp shape pauliSz
  let lo ← chargedOp shape pauliLo
  let i ← chargedOp shape pauliId
  .ok (sz, lo, i)

end HM
end QuantiT
