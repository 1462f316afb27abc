import Verif.Model.Linalg
import Verif.Model.Truncate
import Mathlib.Data.List.Sort
/-
Truncation of the factorisations of block tensors, /repo/sources/btensor_linalg.cpp:536-836.

Same simplifications as Model/BTensor.lean and Model/Truncate.lean.  The values of `d` are an ordered field `α`, the other
tensors have any coefficients.  The tensor `d` has one dimension (the assertion of line 663); the tensors to truncate have at least one, so that
`back()` of a block index (lines 697, 711, 718, 748) exists.
-/
namespace QuantiT
namespace BT
open Spec
variable {G R α β : Type}

/-- The entries of a block of one dimension. -/
def blkList (b : Blk α) : List α := (List.range (b.dims.getD 0 0)).map fun i => b.f [i]

/-- The vector `vd` before it is sorted, btensor_linalg.cpp:665-675. -/
def allValues (d : BT G α) : List α := d.blocks.flatMap fun kb => blkList kb.2

/-- `smallest_value`, btensor_linalg.cpp:677-682; `eps` is the machine precision of the element type. -/
def keepAbove [Field α] [LinearOrder α] (d : BT G α) (maxS minS : Nat) (tol : α) (pw : α → α) (eps : α) : Res α := do
  let v := (allValues d).insertionSort (· ≥ ·)
  let w : LA.Rows α := ⟨v.length, [v]⟩
  let last ← LA.computeLastIndex w tol pw minS maxS
  let c ← w.col last
  .ok (c.headD 0 - 2 * c.headD 0 * eps)

/-- `lower_bound`, btensor_linalg.cpp:548-558: the first index with a value that is not greater. -/
def lowerBound [LinearOrder α] (b : Blk α) (val : α) : Nat := ((blkList b).takeWhile fun x => decide (val < x)).length

/-- `swap(*U_dest, *U_src)`, btensor_linalg.cpp:698-701, unless the positions are equal or `U_dest` is the end. -/
def swapAt (l : List β) (d s : Nat) : List β :=
  if d ≠ s then
    match l[d]?, l[s]? with
    | some y, some z => (l.set d z).set s y
    | _, _ => l
  else l

/-- The loop of `remove_unit_blocks`, btensor_linalg.cpp:693-704, positions instead of iterators: `bad` is the comparison of
line 697.  The loop ends after at most as many steps as there are blocks. -/
def removeLoop (bad : β → Bool) : Nat → List β → Nat → Nat → List β × Nat × Nat
  | 0, l, s, d => (l, s, d)
  | fuel + 1, l, s, d =>
    match l[d]? with
    | none => (l, s, d)
    | some x =>
      let d := if bad x then d + 1 else d
      removeLoop bad fuel (swapAt l d s) (s + 1) (if d < l.length then d + 1 else d)

/-- `remove_unit_blocks`, btensor_linalg.cpp:689-708; the list is resized to `size - distance(U_src, U_dest)`. -/
def removeBlocks (bad : β → Bool) (l : List β) : List β :=
  let r := removeLoop bad l.length l 0 0
  r.1.take (r.1.length - (r.2.2 - r.2.1))

/-- `sections_sizes[p] = n` on the packed array of all sections; `none` out of range. -/
def setPacked : Shape G → Nat → Nat → Option (Shape G)
  | [], _, _ => none
  | d :: s, p, n =>
    match d[p]? with
    | some x => some (d.set p (n, x.2) :: s)
    | none => (setPacked s (p - d.length) n).map (d :: ·)

/-- A block index ends with `j`. -/
def endsWith (j : Nat) (k : List Nat) : Bool := decide (k.getLast? = some j)

/-- `Ub.index({Ellipsis, Slice(0, n)})`. -/
def colsTo (b : Blk R) (n : Nat) : Blk R := indexSlices b ((b.dims.map fun n => (0, n)).set (b.dims.length - 1) (0, n))

/-- `trunc_unit_block`, btensor_linalg.cpp:709-722; `nd` is the number of sections of `d`.  An index before the first section
is undefined behaviour. -/
def truncBlocks (nd j n : Nat) (u : BT G R) : Res (BT G R) :=
  let tot := u.shape.flatten.length
  if tot < nd - j then Res.ub
  else match setPacked u.shape (tot - (nd - j)) n with
    | none => Res.ub
    | some sh => .ok ⟨sh, u.rule, u.blocks.map fun kb => if endsWith j kb.1 then (kb.1, colsTo kb.2 n) else kb⟩

/-- One turn of the loop over the blocks of `d`, btensor_linalg.cpp:725-752; state: sections of `d`, blocks of `d` kept, the
other tensors. -/
def truncStep [LinearOrder α] (thr : α) (nd : Nat) (st : Shape G × FM (List Nat) (Blk α) × List (BT G R))
    (kb : List Nat × Blk α) : Res (Shape G × FM (List Nat) (Blk α) × List (BT G R)) := do
  let n := lowerBound kb.2 thr
  let j := kb.1.getLastD 0
  if n = 0 then
    .ok (st.1, st.2.1, st.2.2.map fun u => ⟨u.shape, u.rule, removeBlocks (fun kb => endsWith j kb.1) u.blocks⟩)
  else
    match setPacked st.1 j n with
    | none => Res.ub
    | some sh => do
      let us ← st.2.2.mapM (truncBlocks nd j n)
      .ok (sh, (kb.1, indexSlices kb.2 [(0, n)]) :: st.2.1, us)

/-- `truncate_impl`, btensor_linalg.cpp:657-755. -/
def truncateImpl [Field α] [LinearOrder α] (d : BT G α) (us : List (BT G R)) (maxS minS : Nat) (tol : α) (pw : α → α) (eps : α) :
    Res (BT G α × List (BT G R)) := do
  let thr ← keepAbove d maxS minS tol pw eps
  let st ← d.blocks.reverse.foldlM (truncStep thr d.shape.flatten.length) (d.shape, [], us)
  .ok (⟨st.1, d.rule, st.2.1⟩, st.2.2)

/-- `truncate(tuple<U, d, V>)`, btensor_linalg.cpp:768-775. -/
def truncateSvd [Field α] [LinearOrder α] (udv : BT G R × BT G α × BT G R) (maxS minS : Nat) (tol : α) (pw : α → α) (eps : α) :
    Res (BT G R × BT G α × BT G R) := do
  let r ← truncateImpl udv.2.1 [udv.1, udv.2.2] maxS minS tol pw eps
  match r.2 with
  | [u, v] => .ok (u, r.1, v)
  | _ => Res.ub

/-- A tensor after `std::move`, btensor.h:143-149: the lists are empty.  The selection rule, which is not read any more, is
left as it was. -/
def movedFrom (t : BT G R) : BT G R := ⟨[], t.rule, []⟩

/-- `truncate(tuple<e, S>)`, btensor_linalg.cpp:786-792: the tuple of unitaries is built by moving from the eigenvalues, which
are then read through the reference `d`. -/
def truncateEigh [Field α] [LinearOrder α] (eS : BT G α × BT G α) (maxS minS : Nat) (tol : α) (pw : α → α) (eps : α) :
    Res (BT G α × BT G α) := do
  let r ← truncateImpl (movedFrom eS.1) [eS.1] maxS minS tol pw eps
  match r.2 with
  | [u] => .ok (r.1, u)
  | _ => Res.ub

end BT
end QuantiT
