import Verif.Model.View
import Verif.Model.Broadcast
/-
`btensor::bmm` and `btensor::squeeze` — /repo/sources/btensor.cpp:1123-1193, 1304-1497, 2120-2149.
Same simplifications as Model/BTensor.lean.  Block indices are taken to be as long as the rank of their tensor.
-/
namespace QuantiT
namespace BT
open Spec
variable {G R : Type}

/-! ### squeeze -/

/-- `squeeze_(dim)` and `squeeze(dim)`, btensor.cpp:2120-2134.  The number of sections is read without a range check; a
negative number is converted to a huge one. -/
def squeezeAt [AddCommGroup G] [DecidableEq G] (t : BT G R) (dim : Nat) : Res (BT G R) :=
  match t.shape[dim]? with
  | none => Res.ub
  | some d =>
    if unitDim d then basicCreateView t ((List.replicate t.shape.length (-1 : Int)).set dim 0) false else .ok t

/-- `squeeze_()` and `squeeze()`, btensor.cpp:2135-2149; `reshape_as` in its default mode, btensor.h:585. -/
def squeeze [AddCommGroup G] [DecidableEq G] (t : BT G R) : Res (BT G R) := do
  let s ← shapeFrom t (t.shape.map fun d => if unitDim d then (0 : Int) else -1)
  reshapeAs false t s

/-! ### bmm -/

/-- `acc.baddbmm_(A, B)` of torch, on tensors of rank three: adds the products of the matrices of the two batches; throws
when the sizes differ. -/
def baddbmm [Semiring R] (acc a b : Blk R) : Res (Blk R) :=
  match acc.dims, a.dims, b.dims with
  | [l, n, m], [l1, n1, k1], [l2, k2, m2] =>
    if l1 = l ∧ l2 = l ∧ n1 = n ∧ m2 = m ∧ k1 = k2 then
      .ok ⟨[l, n, m], fun o => acc.f o + ((List.range k1).map fun j =>
        a.f [o.getD 0 0, o.getD 1 0, j] * b.f [o.getD 0 0, j, o.getD 2 0]).sum⟩
    else Res.throw .runtimeError
  | _, _, _ => Res.throw .runtimeError

/-- `check_bmm_compatibility`, btensor.cpp:1123-1193.  The sizes of the batch dimensions are compared as one packed list;
with no section in the last dimension a charge that does not exist is read. -/
def bmmCheck [AddCommMonoid G] [DecidableEq G] (a b : Shape G) : Res Unit :=
  if a.length ≠ b.length then Res.throw .invalidArgument
  else if a.length < 2 then Res.throw .invalidArgument
  else if secCounts (a.take (a.length - 2)) ≠ secCounts (b.take (b.length - 2)) then Res.throw .invalidArgument
  else if (a.take (a.length - 2)).flatten.map Prod.fst ≠ (b.take (b.length - 2)).flatten.map Prod.fst then
    Res.throw .invalidArgument
  else
    match a[a.length - 1]?, b[a.length - 2]? with
    | some d, some d' =>
      if d.length ≠ d'.length then Res.throw .invalidArgument
      else if d.map Prod.fst ≠ d'.map Prod.fst then Res.throw .invalidArgument
      else if d = [] then Res.ub
      else if (d.zip d').all (fun ss => decide (ss.1.2 + ss.2.2 = 0)) then .ok ()
      else Res.throw .invalidArgument
    | _, _ => Res.ub

/-- A block index with its last two components exchanged. -/
def swapLast (k : List Nat) : List Nat := headKey 2 k ++ [k.getD (k.length - 1) 0, k.getD (k.length - 2) 0]

/-- `mat_blocks` after the sort, btensor.cpp:1331-1359: sorted by the batch components, then by the last component, then by
the one before.  The list is kept with the last two components of every index exchanged, so that this is the usual order;
what the loops read at `rank - 1` is then the component before the last, and what they read at `rank - 2` the last one. -/
def bmmSort (bl : FM (List Nat) (Blk R)) : FM (List Nat) (Blk R) := sortKeys (bl.map fun kb => (swapLast kb.1, kb.2))

/-- The loop that looks for two equal batches, btensor.cpp:1400-1409: what is left of both lists, nothing when there is none. -/
def bmmAdvance : Nat → FM (List Nat) (Blk R) → FM (List Nat) (Blk R) → FM (List Nat) (Blk R) × FM (List Nat) (Blk R)
  | n + 1, a :: as, b :: bs =>
    if headKey 2 a.1 = headKey 2 b.1 then (a :: as, b :: bs)
    else if headKey 2 a.1 < headKey 2 b.1 then bmmAdvance n as (b :: bs)
    else bmmAdvance n (a :: as) bs
  | _, _, _ => ([], [])

/-- One product, btensor.cpp:1459-1471: both blocks are seen as batches of matrices and their products are added. -/
def bmmProd [Semiring R] (lead : Nat) (acc a b : Blk R) : Res (Blk R) := do
  let a' ← reshapeBlk [lead, a.dims.getD (a.dims.length - 2) 0, a.dims.getD (a.dims.length - 1) 0] a
  let b' ← reshapeBlk [lead, b.dims.getD (b.dims.length - 2) 0, b.dims.getD (b.dims.length - 1) 0] b
  baddbmm acc a' b'

/-- The loop over a row of the first operand and a column of the second, btensor.cpp:1455-1482. -/
def bmmAcc [Semiring R] (lead : Nat) : Nat → Blk R → FM (List Nat) (Blk R) → FM (List Nat) (Blk R) → Res (Blk R)
  | n + 1, acc, a :: as, b :: bs =>
    if tailKey 1 a.1 = tailKey 1 b.1 then do
      let acc' ← bmmProd lead acc a.2 b.2
      bmmAcc lead n acc' as bs
    else if tailKey 1 a.1 < tailKey 1 b.1 then bmmAcc lead n acc as (b :: bs)
    else bmmAcc lead n acc (a :: as) bs
  | _, acc, _, _ => .ok acc

/-- A row and a column, btensor.cpp:1426-1486: look for the first match, make a block of zeros there, add the products, give
the block its sizes. -/
def bmmCell [AddCommMonoid G] [DecidableEq G] [Semiring R] (out : BT G R) (row col : FM (List Nat) (Blk R)) : Res (BT G R) :=
  match findMatch 1 (row.length + col.length) row col with
  | (a :: as, b :: bs) => do
    let idx := headKey 1 a.1 ++ tailKey 1 (headKey 1 b.1)
    let sz ← blockSizes out idx
    let lead := (sz.take (sz.length - 2)).prod
    let zero : Blk R := ⟨[lead, sz.getD (sz.length - 2) 0, sz.getD (sz.length - 1) 0], fun _ => 0⟩
    let out ← blockAssign out idx zero
    let v ← bmmAcc lead (as.length + bs.length + 2) zero (a :: as) (b :: bs)
    let v ← reshapeBlk sz v
    blockAssign out idx v
  | _ => .ok out

/-- The loop over the columns of a batch of the second operand, btensor.cpp:1415-1489. -/
def bmmCols [AddCommMonoid G] [DecidableEq G] [Semiring R] (batch : List Nat) (row : FM (List Nat) (Blk R)) :
    Nat → BT G R → FM (List Nat) (Blk R) → Res (BT G R)
  | n + 1, out, b :: bs =>
    if headKey 2 b.1 = batch then do
      let out' ← bmmCell out row ((b :: bs).takeWhile fun e => decide (headKey 1 e.1 = headKey 1 b.1))
      bmmCols batch row n out' ((b :: bs).dropWhile fun e => decide (headKey 1 e.1 = headKey 1 b.1))
    else .ok out
  | _, out, [] => .ok out
  | 0, _, _ => Res.ub

/-- The loop over the rows of the first operand, btensor.cpp:1397-1494.  Each round removes a block of the first operand, so
one more round than it has blocks is enough; `ub` marks an exhausted bound. -/
def bmmRows [AddCommMonoid G] [DecidableEq G] [Semiring R] :
    Nat → BT G R → FM (List Nat) (Blk R) → FM (List Nat) (Blk R) → Res (BT G R)
  | n + 1, out, as, bs =>
    match bmmAdvance (as.length + bs.length) as bs with
    | (a :: as', b :: bs') => do
      let row := (a :: as').takeWhile fun e => decide (headKey 1 e.1 = headKey 1 a.1)
      let out' ← bmmCols (headKey 2 b.1) row (b :: bs').length out (b :: bs')
      bmmRows n out' ((a :: as').dropWhile fun e => decide (headKey 1 e.1 = headKey 1 a.1)) (b :: bs')
    | _ => .ok out
  | 0, _, _, _ => Res.ub

/-- The empty result, btensor.cpp:1317-1330 and 1361: the batch dimensions with the charges of both operands, the rows of
the first one, the columns of the second one. -/
def bmmShape [AddCommGroup G] [DecidableEq G] (a b : BT G R) : Res (BT G R) := do
  let n := a.shape.length - 2
  let batch := List.replicate n (-1 : Int) ++ [0, 0]
  let ba ← shapeFrom a batch
  let bb ← shapeFrom b batch
  let s ← shapeCompute bb ba
  let row ← shapeFrom a (List.replicate n (0 : Int) ++ [-1, 0])
  let col ← shapeFrom b (List.replicate n (0 : Int) ++ [0, -1])
  let out ← shapeFromList [⟨s.2.1, 0, []⟩, row, col]
  .ok { out with rule := a.rule + b.rule }

/-- `bmm` for operands that are not both matrices, btensor.cpp:1316-1496. -/
def bmmBatch [AddCommGroup G] [DecidableEq G] [Semiring R] (a b : BT G R) : Res (BT G R) := do
  bmmCheck a.shape b.shape
  let out ← bmmShape a b
  bmmRows (a.blocks.length + 1) out a.blocks (bmmSort b.blocks)

/-- `a.bmm(b)`, btensor.cpp:1304-1497: two matrices get one more dimension, of one element without charge, which is removed
from the result. -/
def bmm [AddCommGroup G] [DecidableEq G] [Semiring R] (a b : BT G R) : Res (BT G R) :=
  if a.shape.length = 2 ∧ b.shape.length = 2 then do
    let sa ← shapeFromList [⟨[[(1, 0)]], 0, []⟩, a]
    let a' ← reshapeAs false a sa
    let sb ← shapeFromList [⟨[[(1, 0)]], 0, []⟩, b]
    let b' ← reshapeAs false b sb
    let r ← bmmBatch a' b'
    squeezeAt r 0
  else bmmBatch a b

end BT
end QuantiT
