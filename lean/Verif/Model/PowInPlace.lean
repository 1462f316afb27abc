import Verif.Model.Failure
import Mathlib.Analysis.SpecialFunctions.Pow.Real
/-
`pow_` of two block tensors, /repo/sources/btensor.cpp:1744-1749.

`broadcast_operation_(other, f, f_)` expects the operation that makes a new block first and the one that works in place second
(btensor.cpp:1194-1203, as `mul_` and `div_` pass them, 1292-1303).  `pow_` passes them the other way round.
-/
namespace QuantiT
namespace BT
open Spec
variable {G R : Type}

/-- The loops of `broadcast_operation_`, btensor.cpp:1258-1281, when every pair of blocks that match is handed to an operation that
changes the block of this tensor and returns it.  The new list then holds blocks of this tensor, several times the same one if it
matches several times: `out` gives their positions. -/
def sharedLoop (op : R → R → R) (mask : List Nat) (t : BT G R) (out : FM (List Nat) Nat) :
    List ((List Nat × Blk R) × Nat) → (BT G R → FM (List Nat) Nat → Outcome G R) → Outcome G R
  | [], next => next t out
  | (o, i) :: l, next =>
    match t.blocks[i]? with
    | none => .ub
    | some x =>
      if matchIndex mask x.1 o.1 then
        guarded t (outIndex x.1 o.1) fun k =>
        guarded t (torchOpInPlace op x.2 o.2) fun blk =>
        guarded { t with blocks := t.blocks.set i (x.1, blk) } (FM.emplaceHint out out.length k i) fun r =>
        sharedLoop op mask { t with blocks := t.blocks.set i (x.1, blk) } r.1 l next
      else sharedLoop op mask t out l next

/-- The blocks at the positions in the new list, as they are at the end; a position outside of the list does not occur. -/
def resolve (bs : FM (List Nat) (Blk R)) (out : FM (List Nat) Nat) : FM (List Nat) (Blk R) :=
  out.filterMap fun p => (bs[p.2]?).map fun x => (p.1, x.2)

/-- `a.broadcast_operation_(b, f, f_)`, btensor.cpp:1204-1291, called with the in place operation for `f` and the other one for
`f_`: new blocks are made where it could be done in place, and where it cannot be the blocks of `a` are changed. -/
def swappedIn [AddCommMonoid G] (op : R → R → R) (a b : BT G R) : Outcome G R :=
  let thisIsLarge := decide (b.shape.length ≤ a.shape.length)
  let large := if thisIsLarge then a else b
  let small := if thisIsLarge then b else a
  guarded a (shapeCompute large small) fun s =>
    let pairs := b.blocks.flatMap fun o => (List.range a.blocks.length).map fun i => (o, i)
    if canInPlace thisIsLarge s.1 then
      broadcastLoopT op false s.1 a [] pairs fun bl => .done ⟨s.2.1, s.2.2, bl⟩
    else
      sharedLoop op s.1 a [] pairs fun t out => .done ⟨s.2.1, s.2.2, resolve t.blocks out⟩

/-- `a.pow_(b)`, btensor.cpp:1744-1749, of real tensors, with the restrictions of `powNum`. -/
noncomputable def powIn [AddCommMonoid G] (a b : BT G ℝ) : Outcome G ℝ := swappedIn (· ^ ·) a b

end BT
end QuantiT
