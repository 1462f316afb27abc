import Verif.Model.BlockCut
import Mathlib.Analysis.Complex.Basic
import Mathlib.Algebra.Order.Floor.Ring
/-
Element types of block tensors: which type a tensor declares (`options()`), which type its blocks are stored in, and what is
lost where torch converts from one to the other.

The values are complex numbers.  Rounding and overflow are not modelled: a short and a long type of the same kind hold the
same values.  Half precision, unsigned and boolean types are left out, and so are quantised ones.
-/
namespace QuantiT
namespace TY
open BT
variable {G : Type}

/-- The element types: integers, real and complex numbers, of the shorter or the longer kind (`kInt`/`kLong`,
`kFloat`/`kDouble`, `kComplexFloat`/`kComplexDouble`). -/
inductive DT where
  | int (long : Bool)
  | real (long : Bool)
  | complex (long : Bool)
  deriving DecidableEq

/-- `c10::promote_types`, called at btensor.cpp:51-57. -/
def promote : DT → DT → DT
  | .int a, .int b => .int (a || b)
  | .int _, t => t
  | t, .int _ => t
  | .real a, .real b => .real (a || b)
  | .real a, .complex b => .complex (a || b)
  | .complex a, .real b => .complex (a || b)
  | .complex a, .complex b => .complex (a || b)

/-- The type torch gives the product of a tensor with at least one dimension and a number: that of the tensor, unless the number
is of a higher kind.  `dflt` is the type of `torch::get_default_dtype()`, long or short. -/
def withNumber (dflt : Bool) : DT → DT → DT
  | .int _, .real _ => .real dflt
  | .int _, .complex _ => .complex dflt
  | .real l, .complex _ => .complex l
  | t, _ => t

/-- The type of a true division: integers give the default type. -/
def divided (dflt : Bool) : DT → DT
  | .int _ => .real dflt
  | t => t

/-- Rounding towards zero. -/
noncomputable def trunc (x : ℝ) : ℝ := if 0 ≤ x then (⌊x⌋ : ℝ) else (⌈x⌉ : ℝ)

/-- `copy_` of a value into a tensor of a type: the imaginary part is dropped (torch warns once) and a number written to an
integer is cut. -/
noncomputable def cast : DT → ℂ → ℂ
  | .int _, z => ((trunc z.re : ℝ) : ℂ)
  | .real _, z => ((z.re : ℝ) : ℂ)
  | .complex _, z => z

/-- A value of the type is a complex number or not. -/
def isComplex : DT → Bool
  | .complex _ => true
  | _ => false

/-- A number of the first type can be stored in place into a tensor of the second (`c10::canCast`). -/
def canCast : DT → DT → Bool
  | .complex _, .complex _ => true
  | .complex _, _ => false
  | .real _, .int _ => false
  | _, _ => true

/-- A block tensor with its declared type (`_options`, include/blockTensor/btensor.h) and the type of each stored block. -/
structure TT (G : Type) where
  t : BT G ℂ
  opt : DT
  ty : List Nat → DT

/-- `to_dense()`, btensor.cpp:2491-2503: the blocks are written into zeros of the declared type. -/
noncomputable def toDenseT (x : TT G) : Res (Blk ℂ) := toDense (mapBlocks (cast x.opt) x.t)

/-- `from_basic_tensor(shape, rule, values, cutoff, opt)`, btensor.cpp:2506-2536: the blocks are parts of `values` and keep their
type `vt`, the tensor declares the type of the options. -/
def fromBasicT [AddCommMonoid G] [DecidableEq G] (sig : Blk ℂ → Bool) (values : Blk ℂ) (vt : DT) (fuel : Nat) (shape : Shape G)
    (rule : G) (opt : DT) : Option (Res (TT G)) :=
  match fromBasic sig values fuel (sparseZeros shape rule) with
  | none => none
  | some (.error e) => some (.error e)
  | some (.ok t) => some (.ok ⟨t, opt, fun _ => vt⟩)

/-- `mul(Scalar)`, btensor.cpp:900-910, for a tensor with at least one dimension. -/
noncomputable def mulNumT (dflt : Bool) (x : TT G) (c : ℂ) (ct : DT) : TT G :=
  ⟨mapBlocks (· * c) x.t, promote x.opt ct, fun k => withNumber dflt (x.ty k) ct⟩

/-- `div(Scalar)`, btensor.cpp:966-976, for a tensor with at least one dimension and a number that is not zero. -/
noncomputable def divNumT (dflt : Bool) (x : TT G) (c : ℂ) (ct : DT) : TT G :=
  ⟨mapBlocks (· / c) x.t, promote x.opt ct, fun k => divided dflt (withNumber dflt (x.ty k) ct)⟩

/-- `add(const btensor &, 1)`, btensor.cpp:2666-2683.  A block of both is added in place to that of the first, which throws if
its type cannot hold the sum; a block of the second keeps its type.  The result declares the type of its first block. -/
noncomputable def addT [DecidableEq G] (x y : TT G) : Res (TT G) := do
  let r ← BT.add x.t y.t 1
  let own := fun k => x.t.blocks.any fun kb => decide (kb.1 = k)
  if y.t.blocks.any fun kb => own kb.1 && !canCast (promote (x.ty kb.1) (y.ty kb.1)) (x.ty kb.1) then Res.throw .runtimeError
  else
    let ty := fun k => if own k then x.ty k else y.ty k
    .ok ⟨r, (match r.blocks with | [] => x.opt | kb :: _ => ty kb.1), ty⟩

/-- Some blocks of different types are multiplied by `tensordot`: their indices agree in the contracted dimensions. -/
def mixes (x y : TT G) (da db : List Nat) : Bool :=
  x.t.blocks.any fun a => y.t.blocks.any fun b =>
    decide (da.map (fun i => a.1.getD i 0) = db.map (fun i => b.1.getD i 0)) && !decide (x.ty a.1 = y.ty b.1)

/-- `tensordot`, btensor.cpp:1971-2119: `torch::mm` and `addmm_` throw for matrices of different types (2081, 2089).  All the
blocks of a result have the type of the blocks they are made of; `ty` gives that of the first block of the left tensor. -/
noncomputable def tensordotT [AddCommMonoid G] [DecidableEq G] (fuel : Nat) (x y : TT G) (da db : List Nat) : Option (Res (TT G)) :=
  match tensordot fuel x.t y.t da db with
  | none => none
  | some (.error e) => some (.error e)
  | some (.ok r) =>
    if mixes x y da db then some (Res.throw .runtimeError)
    else some (.ok ⟨r, promote x.opt y.opt, fun _ => match x.t.blocks with | [] => x.opt | kb :: _ => x.ty kb.1⟩)

/-! ### Factorisations -/

/-- `svd(tensor, some)`, btensor_linalg.cpp:390-502.  `compact_dense_single` makes matrices of the default type
(`torch::zeros(tensor_size)`, 134) and writes the blocks into them (142), which converts every entry; nothing else reads the
entries of the tensor. -/
noncomputable def svdFullT [AddCommGroup G] [LinearOrder G] (dflt : Bool) (fac : Blk ℂ → Blk ℂ × Blk ℂ × Blk ℂ) (t : BT G ℂ) (some_ : Bool) :
    Res (BT G ℂ × BT G ℂ × BT G ℂ) := svdFull fac (mapBlocks (cast (.real dflt)) t) some_

/-- `svd(tensor, split)`, btensor_linalg.cpp:503-534, as `BT.svdSplit`.  The shapes of the factors are made from that of the tensor
and of a bond of the default type, so that the factors declare the promoted type (`tensor_product_shape`, btensor.cpp:1943). -/
noncomputable def svdT [AddCommGroup G] [LinearOrder G] (dflt : Bool) (fac : Blk ℂ → Blk ℂ × Blk ℂ × Blk ℂ) (x : TT G) (split : Nat) :
    Res (TT G × TT G × TT G) := do
  let t := x.t
  let n := t.shape.length
  let r ← reshape t [split]
  let (ru, d, rv) ← svdFullT dflt fac r true
  let su ← shapeFrom t (List.replicate split (-1) ++ List.replicate (n - split) 0)
  let ru' ← shapeFrom ru [0, -1]
  let u ← shapeFromList [su, ru']
  let u ← reshapeAs false ru u
  let sv ← shapeFrom t (List.replicate split 0 ++ List.replicate (n - split) (-1))
  let rv' ← shapeFrom rv [0, -1]
  let v ← shapeFromList [inverseCvals sv, rv']
  let v ← reshapeAs false rv v
  let o := promote x.opt (.real dflt)
  .ok (⟨u, o, fun _ => .real dflt⟩, ⟨d, o, fun _ => .real dflt⟩, ⟨v, o, fun _ => .real dflt⟩)

/-- `epsilon(d.options().dtype())`, btensor_linalg.cpp:589-611, 680: throws for complex types. -/
def epsilonOf (eps : Bool → ℝ) : DT → Res ℝ
  | .int _ => .ok 0
  | .real l => .ok (eps l)
  | .complex _ => Res.throw .invalidArgument

/-- `svd(A, split, tol, min, max, pow)`, btensor_linalg.cpp:768-818.  The last index is computed before the precision is asked
for, which is left out: it does not throw for a tensor that has singular values. -/
noncomputable def svdCutT [AddCommGroup G] [LinearOrder G] (dflt : Bool) (fac : Blk ℂ → Blk ℂ × Blk ℂ × Blk ℂ) (eps : Bool → ℝ) (x : TT G)
    (split : Nat) (tol : ℝ) (minS maxS : Nat) (pw : ℝ → ℝ) : Res (TT G × TT G × TT G) := do
  let f ← svdT dflt fac x split
  let e ← epsilonOf eps f.2.1.opt
  let r ← truncateSvd (f.1.t, mapBlocks RCLike.re f.2.1.t, f.2.2.t) maxS minS tol pw e
  .ok (⟨r.1, f.1.opt, f.1.ty⟩, ⟨BN.ofRealB r.2.1, f.2.1.opt, f.2.1.ty⟩, ⟨r.2.2, f.2.2.opt, f.2.2.ty⟩)

/-- `eigh(tensor, upper)`, btensor_linalg.cpp:294-368; the matrices are made by the same function. -/
noncomputable def eighFullT [AddCommGroup G] [LinearOrder G] (dflt : Bool) (fac : Blk ℂ → Blk ℂ × Blk ℂ) (t : BT G ℂ) : Res (BT G ℂ × BT G ℂ) :=
  eighFull fac (mapBlocks (cast (.real dflt)) t)

end TY
end QuantiT
