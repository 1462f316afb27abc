import Verif.Spec.Compare
import Verif.Model.Broadcast
import Mathlib.Algebra.Order.Ring.Abs
/-
Comparison of block tensors, and operations with a number — /repo/sources/btensor.cpp:1602-1609, 2223-2228,
2413-2419, 2544-2590, 3159-3166.
-/
namespace QuantiT
namespace BT
open Spec
variable {G K R : Type}

/-- `torch::allclose(x, y, rtol, atol)` with its broadcasting; not-a-number is not modelled. -/
def blkClose [Field K] [LinearOrder K] (rtol atol : K) (x y : Blk K) : Res Bool :=
  match bcDims x.dims y.dims with
  | none => Res.throw .runtimeError
  | some d => .ok ((allIdx d).all fun o =>
      decide (|x.f (clip x.dims o) - y.f (clip y.dims o)| ≤ atol + rtol * |y.f (clip y.dims o)|))

/-- `torch::zeros_like(x)`. -/
def zerosBlk [Zero R] (x : Blk R) : Blk R := ⟨x.dims, fun _ => 0⟩

/-- `btensor::test_same_shape`, btensor.cpp:2223-2228: the packed lists of charges and sizes are compared, not how they are
divided among the dimensions. -/
def sameShape [DecidableEq G] (a b : BT G R) : Bool :=
  decide (a.shape.flatten.map Prod.snd = b.shape.flatten.map Prod.snd ∧ a.rule = b.rule ∧
    a.shape.flatten.map Prod.fst = b.shape.flatten.map Prod.fst)

/-- The three loops of `allclose`, btensor.cpp:2548-2588, left at the first blocks that are not close.  Every round uses up a
block. -/
def closeLoop [Field K] [LinearOrder K] (rtol atol : K) : Nat → FM (List Nat) (Blk K) → FM (List Nat) (Blk K) → Res Bool
  | n + 1, a :: as, b :: bs =>
    if a.1 < b.1 then do
      let c ← blkClose rtol atol a.2 (zerosBlk a.2)
      if c then closeLoop rtol atol n as (b :: bs) else .ok false
    else if b.1 < a.1 then do
      let c ← blkClose rtol atol b.2 (zerosBlk b.2)
      if c then closeLoop rtol atol n (a :: as) bs else .ok false
    else do
      let c ← blkClose rtol atol a.2 b.2
      if c then closeLoop rtol atol n as bs else .ok false
  | n + 1, a :: as, [] => do
    let c ← blkClose rtol atol a.2 (zerosBlk a.2)
    if c then closeLoop rtol atol n as [] else .ok false
  | n + 1, [], b :: bs => do
    let c ← blkClose rtol atol b.2 (zerosBlk b.2)
    if c then closeLoop rtol atol n [] bs else .ok false
  | _, _, _ => .ok true

/-- `allclose(a, b, rtol, atol)`, btensor.cpp:2544-2590. -/
def allclose [DecidableEq G] [Field K] [LinearOrder K] (rtol atol : K) (a b : BT G K) : Res Bool :=
  if sameShape a b then closeLoop rtol atol (a.blocks.length + b.blocks.length) a.blocks b.blocks else .ok false

/-- `full_like(t, c)`, btensor.cpp:2413-2419. -/
def fullLike [AddCommMonoid G] [DecidableEq G] [Zero R] (c : R) (fuel : Nat) (t : BT G R) : Option (Res (BT G R)) :=
  factoryWrap (fun _ _ _ => c) fuel (sparseZeros t.shape t.rule)

/-- `t.add(c, alpha)` and `t.add_(c, alpha)`, btensor.cpp:1602-1609: the first adds `t` to the full tensor, the second the full
tensor to `t`. -/
def addScalar [AddCommMonoid G] [DecidableEq G] [Semiring R] (c alpha : R) (fuel : Nat) (t : BT G R) : Option (Res (BT G R)) :=
  (fullLike (c * alpha) fuel t).map fun r => do add (← r) t 1
@[inherit_doc addScalar]
def addScalarIn [AddCommMonoid G] [DecidableEq G] [Semiring R] (c alpha : R) (fuel : Nat) (t : BT G R) : Option (Res (BT G R)) :=
  (fullLike (c * alpha) fuel t).map fun r => do add t (← r) 1

/-- `std::transform(src.begin(), src.end(), dst.begin(), f)`: assigns to the elements of `dst`, which must be as many. -/
def transformInto {α β : Type} (f : α → β) : List α → List β → Res (List β)
  | [], ds => .ok ds
  | _ :: _, [] => Res.ub
  | s :: ss, _ :: ds => do
    let r ← transformInto f ss ds
    .ok (f s :: r)

/-- `c / t`, btensor.cpp:3159-3166: `reserve_space_` leaves the list of blocks empty. -/
def scalarDiv [Field K] (c : K) (t : BT G K) : Res (BT G K) := do
  let m ← transformInto (fun e : List Nat × Blk K => (e.1, (⟨e.2.dims, fun o => c / e.2.f o⟩ : Blk K))) t.blocks
    (sparseZeros t.shape t.rule : BT G K).blocks
  .ok ⟨t.shape, t.rule, m⟩

end BT
end QuantiT
