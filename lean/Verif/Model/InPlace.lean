import Verif.Model.BTensorOps
import Verif.Model.Failure
import Verif.Model.Mps

/-!
Calls that rearrange a tensor in place, and the constructors that fill a block chain with copies of one tensor.
-/

namespace QuantiT
namespace BT

variable {G R : Type}

/-- `a.swap(b)`, btensor.cpp:884-894, member by member; `rank`, `sections_by_dim`, `sections_sizes` and `c_vals` are together
the `shape` here.  Element types are not modelled. -/
def swapWith (a b : BT G R) : BT G R × BT G R :=
  (⟨b.shape, b.rule, b.blocks⟩, ⟨a.shape, a.rule, a.blocks⟩)

/-- `t.permute_(p)`, btensor.cpp:1803-1808: the permuted tensor is built apart and then swapped with `t`. -/
def permuteIn [AddCommMonoid G] [DecidableEq G] (t : BT G R) (p : List Int) : Outcome G R :=
  guarded t (permute t p) fun new => .done (swapWith t new).1

/-- `t.transpose_(dim0, dim1)`, btensor.cpp:1959-1969: it builds the permutation as `transpose` does, and calls `permute_`. -/
def transposeIn [AddCommMonoid G] [DecidableEq G] (t : BT G R) (dim0 dim1 : Int) : Outcome G R :=
  let n := t.shape.length
  let d0 := if dim0 < 0 then dim0 + n else dim0
  let d1 := if dim1 < 0 then dim1 + n else dim1
  if 0 ≤ d0 ∧ d0 < n ∧ 0 ≤ d1 ∧ d1 < n then
    permuteIn t ((((List.range n).map Int.ofNat).set d0.toNat d1).set d1.toNat d0)
  else .ub

end BT

namespace MP

variable {G : Type}

/-- `bMPS::check_one` (rank 3) and `bMPO::check_one` (rank 4), MPT.cpp:143-152. -/
def bCheckOne [AddCommMonoid G] [DecidableEq G] (rank : Nat) (val : Shape G) : Res Bool :=
  if val.length = rank then productCompat val val 0 2 else .ok false

/-- `bMPS(lenght, val, oc)`, MPT.h:554-562. -/
def mkBMpsFill [AddCommMonoid G] [DecidableEq G] (len : Nat) (val : Shape G) (oc : Nat) : Res Nat := do
  let ok ← bCheckOne 3 val
  if oc ≥ len ∧ oc ≠ 0 then Res.throw .invalidArgument
  else if ¬ ok then Res.throw .invalidArgument
  else .ok oc

/-- `bMPO(size, val)`, MPT.h:659-665. -/
def mkBMpoFill [AddCommMonoid G] [DecidableEq G] (val : Shape G) : Res Unit := do
  let ok ← bCheckOne 4 val
  if ¬ ok then Res.throw .invalidArgument else .ok ()

end MP
end QuantiT
