import Verif.Model.BTensor
import Mathlib.Data.List.Sort
import Mathlib.Algebra.Ring.Defs
/-
Operations of `btensor` that rearrange, combine or relabel blocks — /repo/sources/btensor.cpp.
Same simplifications as Model/BTensor.lean.
-/
namespace QuantiT
namespace BT
open Spec
variable {G R : Type}

/-- `std::sort` of a content vector by key (flat_map.h:739).  With pairwise different keys, which is
how it is used here, there is only one sorted arrangement. -/
def sortKeys (l : FM (List Nat) (Blk R)) : FM (List Nat) (Blk R) := l.insertionSort (fun a b => a.1 ≤ b.1)

/-- Turn a read that does not exist into undefined behaviour. -/
def orUb {α : Type} : Option α → Res α
  | some a => .ok a
  | none => Res.ub

/-! ### Construction from parts -/

/-- The per-component part of `check_tensor`, btensor.cpp:421-434: reads sections like `blockProps` (packed,
unchecked) and reports whether every component is within its dimension and the length is the rank. -/
def checkIndex : Shape G → List Nat → Res (Bool × List (Nat × G))
  | ds, [] => .ok (ds.isEmpty, [])
  | [], _ :: _ => Res.ub
  | d :: ds, b :: bs =>
    match ((d :: ds).flatten)[b]? with
    | none => Res.ub
    | some s => do
      let r ← checkIndex ds bs
      .ok (decide (b < d.length) && r.1, s :: r.2)

/-- `check_tensor` for one block, btensor.cpp:418-465.  The sizes are compared at `ind[i]` for `i < rank`
when the block has the rank of the tensor, which runs off a shorter index. -/
def checkBlock [AddCommMonoid G] [DecidableEq G] (shape : Shape G) (rule : G) (kb : List Nat × Blk R) :
    Res Bool := do
  let r ← checkIndex shape kb.1
  if kb.2.dims.length ≠ shape.length then .ok false
  else if kb.1.length < shape.length then Res.ub
  else .ok (r.1 && decide ((r.2.map Prod.snd).foldl (· + ·) 0 = rule) && decide (kb.2.dims = r.2.map Prod.fst))

/-- `btensor(rank, blocks, sections_by_dim, sections_sizes, c_vals, rule, options)`, btensor.cpp:300-311, for
packed arrays that agree with each other. -/
def mkChecked [AddCommMonoid G] [DecidableEq G] (shape : Shape G) (rule : G) (blocks : FM (List Nat) (Blk R)) :
    Res (BT G R) := do
  let oks ← blocks.mapM (checkBlock shape rule)
  if oks.all id then .ok ⟨shape, rule, blocks⟩ else Res.throw .invalidArgument

/-! ### Permutation of dimensions -/

/-- The inverse rearrangement of `gather p`. -/
def ungather (p o : List Nat) : List Nat := (List.range p.length).map fun j => o.getD (p.idxOf j) 0

/-- `tensor.permute(p)` of torch: throws unless `p` is a permutation of the dimensions. -/
def permBlk (p : List Nat) (b : Blk R) : Res (Blk R) :=
  match gather p b.dims with
  | some d => if p.Nodup ∧ p.length = b.dims.length then .ok ⟨d, fun o => b.f (ungather p o)⟩
    else Res.throw .runtimeError
  | none => Res.throw .runtimeError

/-- Normalisation of the permutation, btensor.cpp:1760-1764: negative entries get the rank added; a list
that is too short is padded with zeros (the length assertion is inactive in a release build), one that is
too long is written past the end, and an entry that is still out of range is used as an index. -/
def normDims (rank : Nat) (inp : List Int) : Res (List Nat) :=
  if rank < inp.length then Res.ub
  else (inp ++ List.replicate (rank - inp.length) 0).mapM fun (x : Int) =>
    let y : Int := if x < 0 then x + rank else x
    if 0 ≤ y ∧ y < rank then .ok y.toNat else Res.ub

/-- `permute(p)`, btensor.cpp:1754-1801.  The packed charges and sizes are gathered dimension by dimension
into arrays of the old total length (C07): more sections is a write past the end, fewer is caught by the
constructor. -/
def permute [AddCommMonoid G] [DecidableEq G] (t : BT G R) (inp : List Int) : Res (BT G R) := do
  let p ← normDims t.shape.length inp
  let sh ← orUb (gather p t.shape)
  let bl ← t.blocks.mapM fun kb => do
    let k ← orUb (gather p kb.1)
    let b ← permBlk p kb.2
    .ok (k, b)
  if t.shape.flatten.length < sh.flatten.length then Res.ub
  else if sh.flatten.length < t.shape.flatten.length then Res.throw .invalidArgument
  else mkChecked sh t.rule (sortKeys bl)

/-- `transpose(dim0, dim1)`, btensor.cpp:1948-1957; an index out of range is a write outside the list. -/
def transpose [AddCommMonoid G] [DecidableEq G] (t : BT G R) (dim0 dim1 : Int) : Res (BT G R) :=
  let n := t.shape.length
  let d0 := if dim0 < 0 then dim0 + n else dim0
  let d1 := if dim1 < 0 then dim1 + n else dim1
  if 0 ≤ d0 ∧ d0 < n ∧ 0 ≤ d1 ∧ d1 < n then
    permute t ((((List.range n).map Int.ofNat).set d0.toNat d1).set d1.toNat d0)
  else Res.ub

/-! ### Addition -/

/-- `add_tensor_check`, btensor.cpp:2230-2238: compares the packed charges, the rule and the packed sizes,
but not how the sections are divided among dimensions. -/
def addCheck [DecidableEq G] (a b : BT G R) : Res Unit :=
  if ¬ a.shape.flatten.map Prod.snd = b.shape.flatten.map Prod.snd then Res.throw .invalidArgument
  else if ¬ a.rule = b.rule then Res.throw .invalidArgument
  else if ¬ a.shape.flatten.map Prod.fst = b.shape.flatten.map Prod.fst then Res.throw .invalidArgument
  else .ok ()

/-- `a.add_(b, alpha)` on two tensors of equal sizes.  Unequal sizes (torch broadcasts or throws) are not
modelled; blocks of conserving tensors of equal shape at equal indices have equal sizes. -/
def addBlk [Semiring R] (alpha : R) (a b : Blk R) : Blk R := ⟨a.dims, fun o => a.f o + alpha * b.f o⟩

/-- `x.mul(alpha)`. -/
def scaleBlk [Semiring R] (alpha : R) (x : Blk R) : Blk R := ⟨x.dims, fun o => alpha * x.f o⟩

/-- `add(const btensor&, alpha)`, btensor.cpp:2666-2683, and `add_`, 2713-2726. -/
def add [DecidableEq G] [Semiring R] (a b : BT G R) (alpha : R) : Res (BT G R) := do
  addCheck a b
  let m ← FM.mergeInsert (addBlk alpha) (scaleBlk alpha) a.blocks b.blocks
  .ok { a with blocks := m }

/-- `mul(Scalar)` and `mul_(Scalar)`, btensor.cpp:895-908. -/
def scale [Semiring R] (c : R) (t : BT G R) : BT G R :=
  { t with blocks := t.blocks.map fun kb => (kb.1, scaleBlk c kb.2) }

/-- Elementwise unary operations through `new_block_list_apply_to_all_blocks` (btensor.cpp:909-970,
2157-2160): applied to the stored blocks only. -/
def mapBlocks {S : Type} (g : R → S) (t : BT G R) : BT G S :=
  ⟨t.shape, t.rule, t.blocks.map fun kb => (kb.1, ⟨kb.2.dims, fun o => g (kb.2.f o)⟩)⟩

/-! ### Charges -/

/-- `inverse_cvals_`, btensor.cpp:2164-2172. -/
def inverseCvals [AddCommGroup G] (t : BT G R) : BT G R :=
  { t with shape := t.shape.map (List.map fun s => (s.1, -s.2)), rule := -t.rule }

/-- `conj()`, btensor.cpp:2156; `c` is the conjugation of coefficients. -/
def conj [AddCommGroup G] (c : R → R) (t : BT G R) : BT G R := inverseCvals (mapBlocks c t)

/-- `shift_impl`, btensor.cpp:2214-2221; `section_conserved_qtt_range` throws on a bad dimension
(negative dimensions convert to huge ones). -/
def shiftImpl [AddCommGroup G] (shape : Shape G) (shift : G) (dim : Nat) : Res (Shape G) :=
  match shape[dim]? with
  | none => Res.throw .invalidArgument
  | some d => .ok (shape.set dim (d.map fun s => (s.1, s.2 + shift)))

/-- `cval_shift_(shift, dim)`, btensor.cpp:2180-2185: `selection_rule.value *= shift.inverse()`. -/
def cvalShift [AddCommGroup G] (t : BT G R) (shift : G) (dim : Nat) : Res (BT G R) := do
  let sh ← shiftImpl t.shape shift dim
  .ok { t with shape := sh, rule := t.rule + -shift }

/-- `non_conserving_cval_shift_`, btensor.cpp:2187-2193. -/
def nonConservingCvalShift [AddCommGroup G] (t : BT G R) (shift : G) (dim : Nat) : Res (BT G R) :=
  if t.blocks.length ≠ 0 then Res.throw .logicError
  else do
    let sh ← shiftImpl t.shape shift dim
    .ok { t with shape := sh }

/-- `shift_selection_rule_`, btensor.cpp:2195-2201. -/
def shiftRule [AddCommGroup G] (t : BT G R) (shift : G) : Res (BT G R) :=
  if t.blocks.length ≠ 0 then Res.throw .logicError else .ok { t with rule := t.rule + shift }

/-- `set_selection_rule_`, btensor.cpp:2202-2208. -/
def setRule (t : BT G R) (value : G) : Res (BT G R) :=
  if t.blocks.length ≠ 0 then Res.throw .logicError else .ok { t with rule := value }

/-- `neutral_shape_`, btensor.cpp:770-780. -/
def neutralShape [AddCommGroup G] (t : BT G R) : Res (BT G R) :=
  if t.blocks.length ≠ 0 then Res.throw .logicError
  else .ok { t with shape := t.shape.map (List.map fun s => (s.1, 0)), rule := 0 }

/-! ### Reductions -/

/-- All multi-indices of a block, in row-major order. -/
def allIdx : List Nat → List (List Nat)
  | [] => [[]]
  | n :: ns => (List.range n).flatMap fun i => (allIdx ns).map (i :: ·)

/-- `sum()`, btensor.cpp:1499-1509: a rank 0 tensor with the same rule and one block. -/
def sum [AddCommMonoid R] (t : BT G R) : BT G R :=
  ⟨[], t.rule, [([], ⟨[], fun _ => (t.blocks.map fun kb => ((allIdx kb.2.dims).map kb.2.f).sum).sum⟩)]⟩

/-- `torch::Tensor::item()`: throws unless there is exactly one element. -/
def itemBlk (b : Blk R) : Res R :=
  if b.dims.prod = 1 then .ok (b.f (List.replicate b.dims.length 0)) else Res.throw .runtimeError

/-- `item()`, btensor.cpp:322-331. -/
def item [Zero R] (t : BT G R) : Res R :=
  match t.blocks with
  | [] => .ok 0
  | [kb] => itemBlk kb.2
  | _ => Res.throw .logicError

/-- `block.any()` of torch on a boolean tensor. -/
def blkAny (b : Blk Bool) : Bool := (allIdx b.dims).any b.f

/-- The loop of `any()`, btensor.cpp:3109-3113: `out &= block.any()` while `out` is false. -/
def anyLoop : FM (List Nat) (Blk Bool) → Bool → Bool
  | [], out => out
  | kb :: rest, out => if out then out else anyLoop rest (out && blkAny kb.2)

/-- `any()`, btensor.cpp:3102-3115, on a boolean tensor; `none` is the undefined tensor returned when no
block is stored. -/
def any (t : BT G Bool) : Option Bool :=
  match t.blocks with
  | [] => none
  | kb :: rest => some (anyLoop (kb :: rest) (blkAny kb.2))

/-- `anynan()`, btensor.cpp:3116-3127, `isnan` being the elementwise test. -/
def anynan (isnan : R → Bool) (t : BT G R) : Bool :=
  go t.blocks false
where
  go : FM (List Nat) (Blk R) → Bool → Bool
  | [], out => out
  | kb :: rest, out =>
    let out := out || (allIdx kb.2.dims).any (fun o => isnan (kb.2.f o))
    if out then out else go rest out

end BT
end QuantiT
