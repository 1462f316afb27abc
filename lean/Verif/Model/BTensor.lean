import Verif.Base
import Verif.Spec.BTensor
import Verif.Model.FlatMap
/-
`btensor` — /repo/include/blockTensor/btensor.h, /repo/sources/btensor.cpp.

Simplifications, everywhere in this file:
* a `torch::Tensor` is a value (`Blk R`): sizes and entries in an arbitrary coefficient type, no storage
  sharing, dtype, device or rounding;
* `any_quantity` values of one kind form an abelian group `G` (established in Props/Quantity.lean for the
  quantities the library ships), written additively (the code's `+=`/`*`);
* `sections_by_dim`, `sections_sizes` and `c_vals` (btensor.h:822-836) — packed arrays — are kept as one
  list of sections per dimension (`Shape G`).  The accessors that read the packed arrays without a range
  check are modelled on the packed array (`List.flatten`), so that an index beyond a dimension reads what
  the code reads;
* indices and sizes are natural numbers; 64-bit wrap-around is not modelled.
-/
namespace QuantiT

/-- `class btensor`, btensor.h:114, 820-836. -/
structure BT (G R : Type) where
  shape : Shape G
  rule : G
  blocks : FM (List Nat) (Blk R)

namespace BT
variable {G R : Type}

/-- `torch::Tensor()`: an undefined tensor, which reports one dimension of size 0. -/
def undef [Zero R] : Blk R := ⟨[0], fun _ => 0⟩

/-- `sections_by_dim`, btensor.h:826. -/
def secCounts (shape : Shape G) : List Nat := shape.map List.length

/-- `sizes()`, btensor.cpp:312-321. -/
def sizes (shape : Shape G) : List Nat := shape.map fun d => (d.map Prod.fst).foldl (· + ·) 0

/-- The values a `block_prop_view` runs over, btensor.h:1101-1200: the value iterator advances by
`sections_by_dim` and is read at `+ block_index` without a range check, so an index beyond the sections of
its dimension reads the packed array further on.  An index of the wrong length never meets `end()`. -/
def blockProps : Shape G → List Nat → Res (List (Nat × G))
  | [], [] => .ok []
  | d :: ds, b :: bs =>
    match ((d :: ds).flatten)[b]? with
    | none => Res.ub
    | some s => do
      let r ← blockProps ds bs
      .ok (s :: r)
  | _, _ => Res.ub

/-- `block_conservation_rule_test`, btensor.cpp:363-372. -/
def conserves [AddCommMonoid G] [DecidableEq G] (t : BT G R) (idx : List Nat) : Res Bool := do
  let q ← blockProps t.shape idx
  .ok (decide ((q.map Prod.snd).foldl (· + ·) 0 = t.rule))

/-- `block_sizes`, btensor.cpp:477-481. -/
def blockSizes (t : BT G R) (idx : List Nat) : Res (List Nat) := do
  let q ← blockProps t.shape idx
  .ok (q.map Prod.fst)

/-- `block(index)`, btensor.cpp:385-397, as an access: the tensor afterwards and the position of the block
referred to.  The exception for an index of the wrong length is constructed but not thrown (388). -/
def block [AddCommMonoid G] [DecidableEq G] [Zero R] (t : BT G R) (idx : List Nat) : Res (BT G R × Nat) := do
  let ok ← conserves t idx
  if ok then
    let (m, i) := FM.index undef t.blocks idx
    .ok ({ t with blocks := m }, i)
  else Res.throw .invalidArgument

/-- `t.block(index) = v`. -/
def blockAssign [AddCommMonoid G] [DecidableEq G] [Zero R] (t : BT G R) (idx : List Nat) (v : Blk R) :
    Res (BT G R) := do
  let ok ← conserves t idx
  if ok then .ok { t with blocks := FM.indexAssign undef t.blocks idx v }
  else Res.throw .invalidArgument

/-- `block_at(index)`, btensor.cpp:373. -/
def blockAt (t : BT G R) (idx : List Nat) : Res (Blk R) := FM.at? t.blocks idx

/-- `block_increment`, btensor.cpp:154-168, and `increment_index_left`, btensor.cpp:220-230, on an index
as long as the list of section counts. -/
def incr : List Nat → List Nat → Bool → List Nat
  | n :: ns, i :: is, add =>
    let stay := decide (i + 1 < n) || !add
    (if stay then i + (if add then 1 else 0) else 0) :: incr ns is (add && !stay)
  | _, is, _ => is

/-- `increment_index_right`, btensor.cpp:201-211: the same walk from the last component. -/
def incrRight (ns is : List Nat) : List Nat := (incr ns.reverse is.reverse true).reverse

/-- `btensor(vec_list, rule, options)` / `sparse_zeros`, btensor.cpp:332-348: no block. -/
def sparseZeros (shape : Shape G) (rule : G) : BT G R := ⟨shape, rule, []⟩

section fill
variable [AddCommMonoid G] [DecidableEq G] [Zero R]

/-- Body of the loops of `factory_wrap` (btensor.cpp:2346-2351) and `from_basic_impl` (2513-2527): when the
index is allowed, `mk index sizes` says which block is stored, if any. -/
def fillOnce (mk : List Nat → List Nat → Res (Option (Blk R))) (t : BT G R) (idx : List Nat) :
    Res (BT G R) := do
  let ok ← conserves t idx
  if ok then
    let sz ← blockSizes t idx
    let b? ← mk idx sz
    match b? with
    | none => .ok t
    | some b => blockAssign t idx b
  else .ok t

/-- The do-while loop around it; `none` means still running after that many rounds. -/
def fillLoop (mk : List Nat → List Nat → Res (Option (Blk R))) :
    Nat → BT G R → List Nat → Option (Res (BT G R))
  | 0, _, _ => none
  | n + 1, t, idx =>
    match fillOnce mk t idx with
    | .error e => some (.error e)
    | .ok t' =>
      let idx' := incr (secCounts t.shape) idx true
      if idx'.any (· ≠ 0) then fillLoop mk n t' idx' else some (.ok t')

/-- `factory_wrap`, btensor.cpp:2339-2353, for a factory whose result has the requested sizes; its entries
may depend on anything (`rand`), here on the block index. -/
def factoryWrap (fac : List Nat → List Nat → List Nat → R) (fuel : Nat) (t : BT G R) : Option (Res (BT G R)) :=
  fillLoop (fun idx sz => .ok (some ⟨sz, fac idx sz⟩)) fuel t (List.replicate t.shape.length 0)

end fill

/-! ### Element positions -/

/-- One dimension of `element_index_decompose`, btensor.cpp:3144-3154. -/
def decompose1 : Dim G → Nat → Nat × Nat
  | [], e => (0, e)
  | s :: d, e => if s.1 ≤ e then let p := decompose1 d (e - s.1); (p.1 + 1, p.2) else (0, e)

/-- `element_index_decompose`, btensor.cpp:3134-3158.  Reads one component per dimension; the range
assertion (3143) is inactive in a release build. -/
def decompose : Shape G → List Nat → Res (List Nat × List Nat)
  | [], _ => .ok ([], [])
  | d :: ds, e :: es => do
    let p := decompose1 d e
    let q ← decompose ds es
    .ok (p.1 :: q.1, p.2 :: q.2)
  | _ :: _, [] => Res.ub

/-- The scan of `element_conserved_qtt`, btensor.cpp:95-104. -/
def scanQtt : Dim G → Nat → Res G
  | [], _ => Res.throw .runtimeError
  | s :: d, e => if s.1 ≤ e then scanQtt d (e - s.1) else .ok s.2

/-- `element_conserved_qtt(dim, element)`, btensor.cpp:86-105; `sizes()[dim]` is not range checked. -/
def elementQtt (shape : Shape G) (dim e : Nat) : Res G :=
  match shape[dim]? with
  | none => Res.ub
  | some d => if (d.map Prod.fst).foldl (· + ·) 0 ≤ e then Res.throw .invalidArgument else scanQtt d e

/-! ### Dense tensors -/

/-- `full_slice`, btensor.cpp:2472-2491: begin and end of the slice of every dimension. -/
def fullSlice : Shape G → List Nat → Res (List (Nat × Nat))
  | [], _ => .ok []
  | d :: ds, b :: bs =>
    match d[b]? with
    | none => Res.throw .invalidArgument
    | some s => do
      let ori := ((d.take b).map Prod.fst).foldl (· + ·) 0
      let r ← fullSlice ds bs
      .ok ((ori, ori + s.1) :: r)
  | _ :: _, [] => Res.ub

/-- A multi-index lies inside a list of slices. -/
def inSlices : List (Nat × Nat) → List Nat → Bool
  | [], [] => true
  | s :: ss, e :: es => decide (s.1 ≤ e) && decide (e < s.2) && inSlices ss es
  | _, _ => false

/-- `out.index_put_(slices, tens)`: assignment of a region.  Broadcasting is not modelled: the sizes must
agree. -/
def indexPut (out : Blk R) (sl : List (Nat × Nat)) (tens : Blk R) : Res (Blk R) :=
  if tens.dims = sl.map (fun s => s.2 - s.1) then
    .ok ⟨out.dims, fun e => if inSlices sl e then tens.f (List.zipWith (fun x s => x - s.1) e sl) else out.f e⟩
  else Res.throw .runtimeError

/-- `values.index(slices)`: slices are clamped to the tensor. -/
def indexSlices (v : Blk R) (sl : List (Nat × Nat)) : Blk R :=
  ⟨List.zipWith (fun n s => min s.2 n - min s.1 n) v.dims sl,
   fun o => v.f (List.zipWith (fun x s => s.1 + x) o sl)⟩

/-- `to_dense()`, btensor.cpp:2492-2504. -/
def toDense [Zero R] (t : BT G R) : Res (Blk R) :=
  t.blocks.foldlM (fun out kb => do
    let sl ← fullSlice t.shape kb.1
    indexPut out sl kb.2) ⟨sizes t.shape, fun _ => 0⟩

/-- `from_basic_impl`, btensor.cpp:2506-2529.  `sig b` is the test that the norm of block `b` exceeds the
cutoff. -/
def fromBasic [AddCommMonoid G] [DecidableEq G] [Zero R] (sig : Blk R → Bool) (values : Blk R) (fuel : Nat)
    (t : BT G R) : Option (Res (BT G R)) :=
  if t.shape.length ≠ values.dims.length then some (Res.throw .invalidArgument)
  else
    fillLoop (fun idx _ => do
      let sl ← fullSlice t.shape idx
      let b := indexSlices values sl
      .ok (if sig b then some b else none)) fuel t (List.replicate t.shape.length 0)

end BT
end QuantiT
