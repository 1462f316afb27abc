import Verif.Model.BTensorOps
import Verif.Model.FlatMap
import Verif.Spec.Broadcast
/-
Broadcasting operations between block tensors, /repo/sources/btensor.cpp:977-1122, 1194-1297, 1622-1753.

Block indices are taken to be as long as the rank of their tensor.
-/
namespace QuantiT
namespace BT
open Spec
variable {G R : Type}

/-! ### torch -/

/-- Sizes of a broadcast torch operation; `none` when two sizes differ and none of them is one. -/
def bcDims (x y : List Nat) : Option (List Nat) :=
  let n := max x.length y.length
  ((List.replicate (n - x.length) 1 ++ x).zip (List.replicate (n - y.length) 1 ++ y)).mapM fun (p : Nat × Nat) =>
    if p.1 = p.2 then some p.1 else if p.1 = 1 then some p.2 else if p.2 = 1 then some p.1 else none

/-- An entrywise torch operation such as `A.mul(B)`, with its broadcasting. -/
def torchOp (op : R → R → R) (x y : Blk R) : Res (Blk R) :=
  match bcDims x.dims y.dims with
  | none => Res.throw .runtimeError
  | some d => .ok ⟨d, fun o => op (x.f (clip x.dims o)) (y.f (clip y.dims o))⟩

/-- An in place torch operation such as `A.mul_(B)`: the sizes of `A` may not change. -/
def torchOpInPlace (op : R → R → R) (x y : Blk R) : Res (Blk R) := do
  let r ← torchOp op x y
  if r.dims = x.dims then .ok r else Res.throw .runtimeError

/-! ### mul_helpers -/

/-- One section, of size one. -/
def unitDim (d : Dim G) : Bool := decide (d.map Prod.fst = [1])

/-- `comp_mask` of one pair of dimensions, btensor.cpp:997-998. -/
def maskDim (large small : Dim G) : Nat := (if unitDim small then 1 else 0) + 2 * (if unitDim large then 1 else 0)

/-- The charges of one new dimension, btensor.cpp:1037-1065: backward through both ranges, the shorter one stopping at its
first element.  With an empty shorter range the charge before it is read: taken as undefined behaviour. -/
def addCharges [Add G] (long short : Dim G) : Res (Dim G) :=
  match short with
  | [] => if long = [] then .ok [] else Res.ub
  | q :: _ =>
    .ok (List.zipWith (fun s c => (s.1, s.2 + c)) long.reverse
      ((short.map Prod.snd).reverse ++ List.replicate (long.length - short.length) q.2)).reverse

/-- One dimension of `shape_compute`, btensor.cpp:992-1021 and 1035-1066: the mask and the new sections. -/
def shapeDim [Add G] (large small : Dim G) : Res (Nat × Dim G) := do
  let mask := maskDim large small
  if mask = 0 ∧ small.length ≠ large.length then Res.throw .invalidArgument
  else
    let d ← (if large.length > small.length then addCharges large small else addCharges small large : Res (Dim G))
    .ok (mask, d)

/-- `mul_helpers::shape_compute`, btensor.cpp:980-1084: mask, shape and selection rule.  Reading the size of a dimension
without sections for the message of the exception is not modelled. -/
def shapeCompute [Add G] (large small : BT G R) : Res (List Nat × Shape G × G) := do
  let n := large.shape.length - small.shape.length
  let r ← ((large.shape.drop n).zip small.shape).mapM fun p => shapeDim p.1 p.2
  .ok (r.map Prod.fst, large.shape.take n ++ r.map Prod.snd, large.rule + small.rule)

/-- `match_index`, btensor.cpp:1085-1104: the components under no mask agree. -/
def matchIndex (mask a b : List Nat) : Bool :=
  (mask.zip ((a.drop (a.length - mask.length)).zip (b.drop (b.length - mask.length)))).all fun p =>
    decide (p.1 ≠ 0) || decide (p.2.1 = p.2.2)

/-- `out_index`, btensor.cpp:1106-1122; a second index that is longer is read and written out of bounds. -/
def outIndex (large small : List Nat) : Res (List Nat) :=
  let n := large.length - small.length
  if large.length < small.length then Res.ub
  else .ok (large.take n ++ List.zipWith max (large.drop n) small)

/-! ### The operations -/

/-- One pair of blocks of `broadcast_operation`, btensor.cpp:1669-1680. -/
def broadcastStep (op : R → R → R) (thisIsLarge : Bool) (mask : List Nat) (acc : FM (List Nat) (Blk R))
    (ot : (List Nat × Blk R) × List Nat × Blk R) : Res (FM (List Nat) (Blk R)) := do
  let large := if thisIsLarge then ot.2.1 else ot.1.1
  let small := if thisIsLarge then ot.1.1 else ot.2.1
  if matchIndex mask large small then
    let k ← outIndex large small
    let blk ← torchOp op ot.2.2 ot.1.2
    let r ← FM.emplaceHint acc acc.length k blk
    .ok r.1
  else .ok acc

/-- `broadcast_operation`, btensor.cpp:1630-1691, used by `mul`, `div`, `pow` and the comparisons of two tensors.  The type
of the entries is not modelled. -/
def broadcastOp [AddCommMonoid G] [DecidableEq G] (op : R → R → R) (a b : BT G R) : Res (BT G R) := do
  let thisIsLarge := decide (b.shape.length ≤ a.shape.length)
  let large := if thisIsLarge then a else b
  let small := if thisIsLarge then b else a
  let s ← shapeCompute large small
  let bl ← (b.blocks.flatMap fun o => a.blocks.map fun t => (o, t)).foldlM (broadcastStep op thisIsLarge s.1) []
  mkChecked s.2.1 s.2.2 bl

/-- `a.mul(b)`, btensor.cpp:1750-1753. -/
def mul [AddCommMonoid G] [DecidableEq G] [Mul R] (a b : BT G R) : Res (BT G R) := broadcastOp (· * ·) a b

/-- `can_do_inplace`, btensor.cpp:1244-1252: no dimension is of size one in this tensor only. -/
def canInPlace (thisIsLarge : Bool) (mask : List Nat) : Bool :=
  mask.all fun x =>
    let mine := if thisIsLarge then x / 2 % 2 else x % 2
    let its := if thisIsLarge then x % 2 else x / 2 % 2
    !(decide (mine = 1) && !decide (its = 1))

/-- One pair of blocks of `broadcast_operation_`, btensor.cpp:1258-1281.  Blocks are values: the effect of the in place
operation on other tensors that share them is not modelled. -/
def broadcastStepInPlace (op : R → R → R) (inPlace : Bool) (mask : List Nat) (acc : FM (List Nat) (Blk R))
    (ot : (List Nat × Blk R) × List Nat × Blk R) : Res (FM (List Nat) (Blk R)) := do
  if matchIndex mask ot.2.1 ot.1.1 then
    let k ← outIndex ot.2.1 ot.1.1
    let blk ← (if inPlace then torchOpInPlace op ot.2.2 ot.1.2 else torchOp op ot.2.2 ot.1.2 : Res (Blk R))
    let r ← FM.emplaceHint acc acc.length k blk
    .ok r.1
  else .ok acc

/-- `a.broadcast_operation_(b, f, f_)`, btensor.cpp:1204-1291, used by `mul_`: the new value of `a`, which is not checked. -/
def broadcastInPlace [AddCommMonoid G] (op : R → R → R) (a b : BT G R) : Res (BT G R) := do
  let thisIsLarge := decide (b.shape.length ≤ a.shape.length)
  let large := if thisIsLarge then a else b
  let small := if thisIsLarge then b else a
  let s ← shapeCompute large small
  let bl ← (b.blocks.flatMap fun o => a.blocks.map fun t => (o, t)).foldlM
    (broadcastStepInPlace op (canInPlace thisIsLarge s.1) s.1) []
  .ok ⟨s.2.1, s.2.2, bl⟩

/-- `a.mul_(b)`, btensor.cpp:1292-1297. -/
def mulInPlace [AddCommMonoid G] [Mul R] (a b : BT G R) : Res (BT G R) := broadcastInPlace (· * ·) a b

end BT
end QuantiT
