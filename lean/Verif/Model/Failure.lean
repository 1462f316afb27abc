import Verif.Model.Broadcast
import Verif.Model.View
/-
What the modifying operations of block tensors leave behind when an exception passes through them, /repo/sources/btensor.cpp
and /repo/include/blockTensor/flat_map.h.
-/
namespace QuantiT
namespace FM
variable {K V : Type _} [LinearOrder K]

/-- What ends a merge early: undefined behaviour, or an exception from the collision functor, with the memory of the
container at that moment. -/
inductive Stop (K V : Type _) where
  | ub
  | threw (c : Cells K V)

/-- A step that cannot throw, only be undefined. -/
def lift {α : Type _} : Res α → Except (Stop K V) α
  | .ok a => .ok a
  | .error _ => .error .ub

/-- Part A of an iteration of the merge, flat_map.h:379-396, with a collision functor that throws where `f` is `none`: the
element has been moved to its new place, and keeps its value. -/
def mergePartAT (f : V → V → Option V) (g : V → V) (src : FM K V) (s : MState K V) : Except (Stop K V) (MState K V) := do
  let top ← lift (readCell s.cells (s.look - 1))
  let S := src.take s.last
  let la := lowerBound S top.1
  match S[la]? with
  | none => .ok ⟨s.cells, la, s.look, s.mte⟩
  | some e =>
    if top.1 < e.1 then do
      let moved := S.drop la
      let cells1 ← lift (copyBackward s.cells (moved.map fun e => (e.1, g e.2)) s.mte)
      .ok ⟨cells1, la, s.look, s.mte - moved.length⟩
    else do
      let moved := S.drop (la + 1)
      let cells1 ← lift (copyBackward s.cells (moved.map fun e => (e.1, g e.2)) s.mte)
      let mte' := s.mte - moved.length - 1
      let look' := s.look - 1
      let x ← lift (readCell cells1 look')
      let c' := if mte' ≠ look' then (cells1.set look' none).set mte' (some x) else cells1
      let y ← lift (readCell c' mte')
      match f y.2 e.2 with
      | none => .error (.threw c')
      | some w => .ok ⟨c'.set mte' (some (y.1, w)), la, look', mte'⟩

/-- Part B of an iteration, flat_map.h:400-416, likewise. -/
def mergePartBT (f : V → V → Option V) (src : FM K V) (s : MState K V) : Except (Stop K V) (MState K V) :=
  match src[s.last - 1]? with
  | none => .error .ub
  | some key => do
    let own ← lift (readRange s.cells 0 s.look)
    let lb := lowerBound own key.1
    let cells3 ← lift (if s.mte ≠ s.look then moveBackward s.cells lb s.look s.mte else .ok s.cells : Res (Cells K V))
    let mte3 := s.mte - (s.look - lb)
    let cell ← lift (readCell cells3 mte3)
    if key.1 < cell.1 then .ok ⟨cells3, s.last, lb, mte3⟩
    else
      match f cell.2 key.2 with
      | none => .error (.threw cells3)
      | some w => .ok ⟨cells3.set mte3 (some (cell.1, w)), s.last - 1, lb, mte3⟩

/-- The merge loop, flat_map.h:376-417. -/
def mergeLoopT (f : V → V → Option V) (g : V → V) (src : FM K V) : Nat → MState K V → Except (Stop K V) (MState K V)
  | 0, _ => .error .ub
  | fuel + 1, s =>
    if s.look ≠ 0 ∧ s.last ≠ 0 then do
      let s1 ← mergePartAT f g src s
      if s1.last = 0 then .ok s1
      else do
        let s2 ← mergePartBT f src s1
        mergeLoopT f g src fuel s2
    else .ok s

/-- `insert(first, last, collision, nocollision)` for a sorted range, flat_map.h:350-425, with a collision functor that may
throw.  `nocollision` and the growth of the content are taken not to throw. -/
def mergeInsertT (f : V → V → Option V) (g : V → V) (m src : FM K V) : Except (Stop K V) (FM K V) := do
  let n1 := countNew m src 0 src.length
  let s0 : MState K V := ⟨m.map some ++ List.replicate n1 none, src.length, m.length, m.length + n1⟩
  let s ← mergeLoopT f g src (m.length + src.length + 1) s0
  if s.last = 0 ∨ s.mte = s.last then do
    let c1 ← lift (copyBackward s.cells (src.take s.last) s.mte)
    let c2 ← lift (applyNoCollision g c1 s.mte)
    lift (readRange c2 0 c2.length)
  else .error .ub

end FM

namespace BT
open Spec
variable {G R : Type}

/-- A tensor after an exception: its shape and rule, and the memory of its list of blocks, where a cell may have been emptied
by a move or not been filled yet. -/
structure Wreck (G R : Type) where
  shape : Shape G
  rule : G
  cells : FM.Cells (List Nat) (Blk R)

/-- The memory of a tensor that nothing happened to. -/
def intact (t : BT G R) : Wreck G R := ⟨t.shape, t.rule, t.blocks.map some⟩

/-- The outcome of a modifying call: the new value of the tensor, an exception and what the tensor then is, or undefined
behaviour. -/
inductive Outcome (G R : Type) where
  | done (t : BT G R)
  | threw (e : Exn) (w : Wreck G R)
  | ub

/-- A part of a call on `t` that does not touch `t`. -/
def guarded {α : Type} (t : BT G R) (r : Res α) (next : α → Outcome G R) : Outcome G R :=
  match r with
  | .ok a => next a
  | .error (.throw e) => .threw e (intact t)
  | .error .ub => .ub

/-! ### Addition -/

/-- `a.add_(b, alpha)` of torch: `b` is broadcast to the sizes of `a`, and where it cannot be the call throws with `a` as it
was. -/
def addBlkT [Semiring R] (alpha : R) (a b : Blk R) : Option (Blk R) :=
  if bcDims a.dims b.dims = some a.dims then
    some ⟨a.dims, fun o => a.f o + alpha * b.f (if a.dims = b.dims then o else clip b.dims o)⟩
  else none

/-- `a.add_(b, alpha)`, btensor.cpp:2717-2730. -/
def addIn [DecidableEq G] [Semiring R] (a b : BT G R) (alpha : R) : Outcome G R :=
  guarded a (addCheck a b) fun _ =>
    match FM.mergeInsertT (addBlkT alpha) (scaleBlk alpha) a.blocks b.blocks with
    | .ok m => .done { a with blocks := m }
    | .error (.threw c) => .threw .runtimeError ⟨a.shape, a.rule, c⟩
    | .error .ub => .ub

/-! ### Writing a slice -/

/-- The loop of `impl_basic_index_put_`, btensor.cpp:727-747, one block after the other; the new block of zeros is in the list
when the write into it throws. -/
def putLoopT [Zero R] (f : List (Option Nat)) (el : List (Option Int)) (t : BT G R) : List (List Nat × Blk R) → Outcome G R
  | [] => .done t
  | kb :: l =>
    guarded t (outputIndex f kb.1) fun k =>
    guarded t (if FM.contains t.blocks k then .ok t.blocks else do
      let sz ← blockSizes t k
      .ok (FM.insert t.blocks k ⟨sz, fun _ => 0⟩).1 : Res (FM (List Nat) (Blk R))) fun bl =>
    guarded { t with blocks := bl } (do
      let old ← FM.at? bl k
      indexPutEl old el kb.2) fun new =>
    putLoopT f el { t with blocks := bl.set (FM.find bl k) (k, new) } l

/-- `t.basic_index_put_(dims, value)`, btensor.cpp:750-762. -/
def indexPutIn [AddCommGroup G] [DecidableEq G] [Zero R] (t : BT G R) (dims : List Int) (value : BT G R) : Outcome G R :=
  guarded t (shapeFrom t dims) fun reduced =>
  guarded t (addCheck reduced value) fun _ =>
    let fe := toBlockBasis t.shape dims
    putLoopT (fe.map Prod.fst) (fe.map Prod.snd) t value.blocks

/-! ### Multiplication -/

/-- The loops of `broadcast_operation_`, btensor.cpp:1258-1281, over the pairs of a block of the argument and the position of a
block of this tensor.  `cur` is the list of blocks of this tensor, which the in place operation changes; `out` is the new list. -/
def broadcastLoopT (op : R → R → R) (inPlace : Bool) (mask : List Nat) (t : BT G R) (out : FM (List Nat) (Blk R)) :
    List ((List Nat × Blk R) × Nat) → (FM (List Nat) (Blk R) → Outcome G R) → Outcome G R
  | [], next => next out
  | (o, i) :: l, next =>
    match t.blocks[i]? with
    | none => .ub
    | some x =>
      if matchIndex mask x.1 o.1 then
        guarded t (outIndex x.1 o.1) fun k =>
        guarded t (if inPlace then torchOpInPlace op x.2 o.2 else torchOp op x.2 o.2 : Res (Blk R)) fun blk =>
        guarded t (FM.emplaceHint out out.length k blk) fun r =>
        broadcastLoopT op inPlace mask (if inPlace then { t with blocks := t.blocks.set i (x.1, blk) } else t) r.1 l next
      else broadcastLoopT op inPlace mask t out l next

/-- `a.broadcast_operation_(b, f, f_)`, btensor.cpp:1204-1291.  The members are assigned after the loops. -/
def broadcastIn [AddCommMonoid G] (op : R → R → R) (a b : BT G R) : Outcome G R :=
  let thisIsLarge := decide (b.shape.length ≤ a.shape.length)
  let large := if thisIsLarge then a else b
  let small := if thisIsLarge then b else a
  guarded a (shapeCompute large small) fun s =>
    broadcastLoopT op (canInPlace thisIsLarge s.1) s.1 a []
      (b.blocks.flatMap fun o => (List.range a.blocks.length).map fun i => (o, i)) fun bl => .done ⟨s.2.1, s.2.2, bl⟩

/-- `a.mul_(b)`, btensor.cpp:1292-1297. -/
def mulIn [AddCommMonoid G] [Mul R] (a b : BT G R) : Outcome G R := broadcastIn (· * ·) a b

end BT
end QuantiT
