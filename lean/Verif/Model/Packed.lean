import Verif.Model.BTensorOps
/-
The packed description of the dimensions of a block tensor and what reads it, /repo/sources/btensor.cpp:59-190, 231-362, 398-475,
/repo/include/blockTensor/btensor.h:820-836, 1101-1220.

Model/BTensor.lean keeps one list of sections per dimension; here the three arrays of the class are kept as they are, so that
the two can be compared.
-/
namespace QuantiT
namespace PK
open Spec BT
variable {G R : Type}

/-- `rank`, `sections_by_dim`, `sections_sizes` and `c_vals`, btensor.h:822-836. -/
structure Packed (G : Type) where
  rank : Nat
  byDim : List Nat
  sizes : List Nat
  cvals : List G

/-- `vec_list_t`, btensor.h:118-120: sizes and charges of the sections of every dimension. -/
abbrev VecList (G : Type) := List (List (Nat × G))

/-! ### Construction -/

/-- `block_shapes_from_struct_list`, btensor.cpp:261-270: one assignment per dimension to an array of `rank` numbers. -/
def shapesFromList (list : VecList G) (rank : Nat) : Res (List Nat) :=
  (List.range rank).foldlM (fun out i => do
    let d ← orUb list[i]?
    if i < out.length then .ok (out.set i d.length) else Res.ub) (List.replicate rank 0)

/-- The two loops of `block_sizes_from_struct_list` and `c_vals_from_struct_list`, btensor.cpp:274-283 and 288-297: values
written at increasing positions. -/
def writeFrom {α : Type} : List α → Nat → List α → Res (List α)
  | [], _, out => .ok out
  | x :: xs, i, out => if i < out.length then writeFrom xs (i + 1) (out.set i x) else Res.ub

/-- `block_sizes_from_struct_list`, btensor.cpp:271-284. -/
def sizesFromList (list : VecList G) (byDim : List Nat) : Res (List Nat) :=
  writeFrom (list.flatMap fun d => d.map Prod.fst) 0 (List.replicate byDim.sum 0)

/-- `c_vals_from_struct_list`, btensor.cpp:285-299, for charges of one type (C98 is about the others). -/
def cvalsFromList [Zero G] (list : VecList G) (size : Nat) : Res (List G) :=
  writeFrom (list.flatMap fun d => d.map Prod.snd) 0 (List.replicate size 0)

/-- The members set by `btensor(vec_list, rule, options)` and `btensor(vec_list, rule, num_blocks, options)`, btensor.cpp:332-362. -/
def build [Zero G] (list : VecList G) : Res (Packed G) := do
  let byDim ← shapesFromList list list.length
  let sizes ← sizesFromList list byDim
  let cvals ← cvalsFromList list sizes.length
  .ok ⟨list.length, byDim, sizes, cvals⟩

/-! ### Queries -/

/-- `std::reduce(sections_by_dim.begin(), sections_by_dim.begin() + index, 0)`; the sum wraps around in the code, not here. -/
def origin (p : Packed G) (index : Nat) : Res Nat :=
  if index ≤ p.byDim.length then .ok (p.byDim.take index).sum else Res.ub

/-- `throw_on_bad_arg_blocks(index, block, rank, sections_sizes[index])`, btensor.cpp:59-66, called in debug builds only.  The
second exception is constructed and not thrown. -/
def debugCheck (debug : Bool) (p : Packed G) (index : Nat) : Res Unit :=
  if debug then do
    let _ ← orUb p.sizes[index]?
    if p.rank ≤ index then Res.throw .invalidArgument else .ok ()
  else .ok ()

/-- `section_number(dim)`, btensor.h:283. -/
def sectionNumber (p : Packed G) (dim : Nat) : Res Nat := orUb p.byDim[dim]?

/-- `section_size(index, block)`, btensor.cpp:68-76.  The assertion is taken as part of the check. -/
def sectionSize (debug : Bool) (p : Packed G) (index block : Nat) : Res Nat := do
  debugCheck debug p index
  let ori ← origin p index
  orUb p.sizes[ori + block]?

/-- `section_conserved_qtt(index, block)`, btensor.cpp:78-85. -/
def sectionQtt (debug : Bool) (p : Packed G) (index block : Nat) : Res G := do
  debugCheck debug p index
  let ori ← origin p index
  orUb p.cvals[ori + block]?

/-- `section_size_cqtt(index, block)`, btensor.cpp:127-134. -/
def sectionSizeCqtt (debug : Bool) (p : Packed G) (index block : Nat) : Res (Nat × G) := do
  debugCheck debug p index
  let ori ← origin p index
  let s ← orUb p.sizes[ori + block]?
  let q ← orUb p.cvals[ori + block]?
  .ok (s, q)

/-- The values between `begin() + ori` and `begin() + ori + n`. -/
def slice {α : Type} (l : List α) (ori n : Nat) : Res (List α) :=
  if ori + n ≤ l.length then .ok ((l.drop ori).take n) else Res.ub

/-- `section_sizes(dim)`, btensor.cpp:135-140. -/
def sectionSizes (p : Packed G) (dim : Nat) : Res (List Nat) := do
  let ori ← origin p dim
  let n ← orUb p.byDim[dim]?
  slice p.sizes ori n

/-- `section_cqtts(dim)`, btensor.cpp:141-146. -/
def sectionCqtts (p : Packed G) (dim : Nat) : Res (List G) := do
  let ori ← origin p dim
  let n ← orUb p.byDim[dim]?
  slice p.cvals ori n

/-- `section_sizes_cqtts(dim)`, btensor.cpp:147-153. -/
def sectionSizesCqtts (p : Packed G) (dim : Nat) : Res (List Nat × List G) := do
  let s ← sectionSizes p dim
  let q ← sectionCqtts p dim
  .ok (s, q)

/-- `section_conserved_qtt_range(index)`, btensor.cpp:106-125, const and not. -/
def sectionQttRange (p : Packed G) (index : Nat) : Res (List G) :=
  if p.rank ≤ index then Res.throw .invalidArgument else sectionCqtts p index

/-- `sizes()`, btensor.cpp:312-321. -/
def sizesOf (p : Packed G) : Res (List Nat) :=
  (List.range p.rank).mapM fun i => do
    let s ← sectionSizes p i
    .ok (s.foldl (· + ·) 0)

/-- The loop of `element_conserved_qtt`, btensor.cpp:95-104: both ranges are walked together, the charges deciding the end. -/
def scanPacked : List G → List Nat → Nat → Res G
  | [], _, _ => Res.throw .runtimeError
  | _ :: _, [], _ => Res.ub
  | q :: qs, s :: ss, e => if s ≤ e then scanPacked qs ss (e - s) else .ok q

/-- `element_conserved_qtt(dim, element)`, btensor.cpp:86-105. -/
def elementQttP (p : Packed G) (dim element : Nat) : Res G := do
  let sz ← sizesOf p
  let n ← orUb sz[dim]?
  if n ≤ element then Res.throw .invalidArgument
  else
    let qs ← sectionQttRange p dim
    let ss ← sectionSizes p dim
    scanPacked qs ss element

/-- A `block_prop_view`, btensor.h:1101-1220, over the values `vals`: the position `pos` moves on by `sections_by_dim`, and is read
at `+ block_index`.  The end is met when all three iterators are at their ends. -/
def propsFrom {α : Type} (vals : List α) : List Nat → List Nat → Nat → Res (List α)
  | [], [], pos => if pos = vals.length then .ok [] else Res.ub
  | n :: ns, b :: bs, pos => do
    let v ← orUb vals[pos + b]?
    let r ← propsFrom vals ns bs (pos + n)
    .ok (v :: r)
  | _, _, _ => Res.ub

/-- `block_quantities(index)`, btensor.cpp:467-470. -/
def blockQuantities (p : Packed G) (idx : List Nat) : Res (List G) := propsFrom p.cvals p.byDim idx 0

/-- `block_sizes(index)`, btensor.cpp:475-479. -/
def blockSizesP (p : Packed G) (idx : List Nat) : Res (List Nat) := propsFrom p.sizes p.byDim idx 0

/-! ### Checks -/

/-- The components of one block index in `check_tensor`, btensor.cpp:424-434: whether every one is below the number of sections,
and the charges, which are read in any case. -/
def checkComps (p : Packed G) : Nat → List Nat → Res (Bool × List G)
  | _, [] => .ok (true, [])
  | i, b :: bs => do
    let n ← orUb p.byDim[i]?
    let q ← sectionQtt false p i b
    let r ← checkComps p (i + 1) bs
    .ok (decide (b < n) && r.1, q :: r.2)

/-- The sizes of one block in `check_tensor`, btensor.cpp:448-453, for a block with as many dimensions as the tensor. -/
def checkSizes (p : Packed G) : Nat → List Nat → List Nat → Res Bool
  | _, [], _ => .ok true
  | _, _ :: _, [] => Res.ub
  | i, s :: ss, b :: bs => do
    let n ← sectionSize false p i b
    let r ← checkSizes p (i + 1) ss bs
    .ok (decide (n = s) && r)

/-- One block in `check_tensor`, btensor.cpp:418-463. -/
def checkOne [AddCommMonoid G] [DecidableEq G] (p : Packed G) (rule : G) (kb : List Nat × Blk R) : Res Bool := do
  let c ← checkComps p 0 kb.1
  let good := decide (kb.1.length = p.rank) && c.1 && decide (c.2.foldl (· + ·) 0 = rule)
  if kb.2.dims.length ≠ p.rank then .ok false
  else do
    let s ← checkSizes p 0 kb.2.dims kb.1
    .ok (good && s)

/-- `check_tensor`, btensor.cpp:404-465, release build: whether the message is empty.  The charges are not counted. -/
def checkTensor [AddCommMonoid G] [DecidableEq G] (p : Packed G) (rule : G) (blocks : FM (List Nat) (Blk R)) : Res Bool := do
  let header := decide (p.rank = p.byDim.length) && decide (p.byDim.sum = p.sizes.length)
  let oks ← blocks.mapM (checkOne p rule)
  .ok (header && oks.all id)

/-- `btensor(rank, blocks, sections_by_dim, sections_sizes, c_vals, rule, options)`, btensor.cpp:300-311. -/
def mkParts [AddCommMonoid G] [DecidableEq G] (p : Packed G) (rule : G) (blocks : FM (List Nat) (Blk R)) :
    Res (Packed G × G × FM (List Nat) (Blk R)) := do
  let ok ← checkTensor p rule blocks
  if ok then .ok (p, rule, blocks) else Res.throw .invalidArgument

/-! ### Counting blocks -/

/-- The loop of `btensor_compute_max_size`, btensor.cpp:178-188. -/
def countLoop [AddCommMonoid G] [DecidableEq G] (p : Packed G) (rule : G) : Nat → List Nat → Nat → Res Nat
  | 0, _, n => .ok n
  | k + 1, idx, n => do
    let qs ← blockQuantities p idx
    countLoop p rule k (incr p.byDim idx true) (n + if qs.foldl (· + ·) 0 = rule then 1 else 0)

/-- `btensor_compute_max_size(tensor, max)`, btensor.cpp:169-190. -/
def maxSize [AddCommMonoid G] [DecidableEq G] (p : Packed G) (rule : G) (max : Nat) : Res Nat :=
  if p.rank = 0 then .ok 1
  else countLoop p rule (min max p.byDim.prod) (List.replicate p.rank 0) 0

/-- The charges of one block in `tensor_list_size_guess`, btensor.cpp:250-253. -/
def listCharge [AddCommMonoid G] (list : VecList G) : List Nat → List Nat → G → Res G
  | [], _, q => .ok q
  | j :: js, idx, q => do
    let d ← orUb list[j]?
    let b ← orUb idx[j]?
    let s ← orUb d[b]?
    listCharge list js idx (q + s.2)

/-- The loop of `tensor_list_size_guess`, btensor.cpp:247-258. -/
def guessLoop [AddCommMonoid G] [DecidableEq G] (list : VecList G) (rule : G) (byDim : List Nat) : Nat → List Nat → Nat → Res Nat
  | 0, _, n => .ok n
  | k + 1, idx, n => do
    let q ← listCharge list (List.range list.length) idx 0
    let n' := n + if q = rule then 1 else 0
    if n' = 50 then .ok n' else guessLoop list rule byDim k (incr byDim idx true) n'

/-- `tensor_list_size_guess(list, rule, rank, sections_by_dims)`, btensor.cpp:231-260, called by the constructor (337). -/
def sizeGuess [AddCommMonoid G] [DecidableEq G] (list : VecList G) (rule : G) (byDim : List Nat) : Res Nat :=
  guessLoop list rule byDim byDim.prod (List.replicate list.length 0) 0

end PK
end QuantiT
