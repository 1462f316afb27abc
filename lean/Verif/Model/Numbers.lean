import Verif.Model.Types
/-
Tensors filled with a number and sums of a tensor and a number, with the element types — /repo/sources/btensor.cpp:1569-1609,
2338-2353, 2405-2419, products and quotients in place, 895-899 and 960-965, and /repo/include/blockTensor/btensor.h:617-622, 987-992.

As in `Model/Types`, numbers are exact: 64-bit overflow and rounding of the product of two numbers are not modelled, a boolean
counts as 0 or 1.
-/
namespace QuantiT
namespace TY
open BT
variable {G : Type}

open Classical in
/-- The value `torch::full(size, c, options)` writes for options of a type (btensor.cpp:2410, 2417): a number with an imaginary
part cannot be converted to a real type (`Scalar::to`), a fraction is cut. -/
noncomputable def fillValue (a : DT) (c : ℂ) : Res ℂ :=
  if c.im = 0 ∨ isComplex a = true then .ok (cast a c) else Res.throw .runtimeError

/-- `full_like(t, c, opt)`, btensor.cpp:2413-2419 with `sparse_zeros_like`, btensor.h:987-992: the type is that of the options if
they name one, that declared by `t` otherwise; the type of the number does not count.  With `full(shape, rule, c, opt)`
(btensor.cpp:2405-2412) `t` is a tensor without blocks. -/
noncomputable def fullLikeT [AddCommMonoid G] [DecidableEq G] (opt : Option DT) (c : ℂ) (fuel : Nat) (x : TT G) : Option (Res (TT G)) :=
  let a := opt.getD x.opt
  let mk : List Nat → List Nat → Res (Option (Blk ℂ)) := fun _ sz => do
    let v ← fillValue a c
    .ok (some ⟨sz, fun _ => v⟩)
  (fillLoop mk fuel (sparseZeros x.t.shape x.t.rule) (List.replicate x.t.shape.length 0)).map fun r => do
    let t ← r
    .ok ⟨t, a, fun _ => a⟩

/-- `add_(const btensor &)`, btensor.cpp:2718-2730, and `add_(btensor &&)`, 2734-2752, as `addT`; the declared type stays. -/
noncomputable def addInT [DecidableEq G] (x y : TT G) : Res (TT G) := do
  let r ← addT x y
  .ok ⟨r.t, x.opt, r.ty⟩

/-- `Scalar_mul`, btensor.cpp:1585-1601, with `detail_mul`, 1568-1584. -/
noncomputable def numMul (c alpha : ℂ) : ℂ := c * alpha

/-- `t.add(c, alpha)`, btensor.cpp:1602-1605. -/
noncomputable def addNumT [AddCommMonoid G] [DecidableEq G] (c alpha : ℂ) (fuel : Nat) (x : TT G) : Option (Res (TT G)) :=
  (fullLikeT none (numMul c alpha) fuel x).map fun r => do addInT (← r) x

/-- `t.add_(c, alpha)`, btensor.cpp:1606-1609. -/
noncomputable def addNumInT [AddCommMonoid G] [DecidableEq G] (c alpha : ℂ) (fuel : Nat) (x : TT G) : Option (Res (TT G)) :=
  (fullLikeT none (numMul c alpha) fuel x).map fun r => do addInT x (← r)

/-- `t.sub(c, alpha)` and `t.subtract(c, alpha)`, btensor.h:617, 621. -/
noncomputable def subNumT [AddCommMonoid G] [DecidableEq G] (c alpha : ℂ) (fuel : Nat) (x : TT G) : Option (Res (TT G)) :=
  addNumT c (-alpha) fuel x

/-- `t.sub_(c, alpha)` and `t.subtract_(c, alpha)`, btensor.h:618, 622. -/
noncomputable def subNumInT [AddCommMonoid G] [DecidableEq G] (c alpha : ℂ) (fuel : Nat) (x : TT G) : Option (Res (TT G)) :=
  addNumInT c (-alpha) fuel x

/-! ### In place -/

/-- `apply_to_all_blocks` with `mul_` of a number or of a tensor without dimensions, of type `nt` (btensor.cpp:897, 963): block after
block; torch throws at a block whose type cannot hold the product.  The blocks after the call, and whether it came to its end. -/
noncomputable def mulBlocksIn (dflt : Bool) (ty : List Nat → DT) (nt : DT) (v : ℂ) :
    List (List Nat × Blk ℂ) → List (List Nat × Blk ℂ) × Bool
  | [] => ([], true)
  | (k, b) :: l =>
    if canCast (withNumber dflt (ty k) nt) (ty k) then
      ((k, ⟨b.dims, fun o => b.f o * v⟩) :: (mulBlocksIn dflt ty nt v l).1, (mulBlocksIn dflt ty nt v l).2)
    else ((k, b) :: l, false)

/-- `t.mul_(c)`, btensor.cpp:895-899, for a number of type `ct`: the tensor after the call, and the exception if there is one.  The
declared type is not touched. -/
noncomputable def mulNumInT (dflt : Bool) (x : TT G) (c : ℂ) (ct : DT) : TT G × Option Exn :=
  (⟨⟨x.t.shape, x.t.rule, (mulBlocksIn dflt x.ty ct c x.t.blocks).1⟩, x.opt, x.ty⟩,
    if (mulBlocksIn dflt x.ty ct c x.t.blocks).2 then none else some .runtimeError)

/-- `t.div_(c)`, btensor.cpp:960-965, for a number that is not zero: the number is converted to the declared type, every block is multiplied
by its reciprocal, whose type is that of a division. -/
noncomputable def divNumInT (dflt : Bool) (x : TT G) (c : ℂ) : TT G × Option Exn :=
  match fillValue x.opt c with
  | .error _ => (x, some .runtimeError)
  | .ok v =>
    (⟨⟨x.t.shape, x.t.rule, (mulBlocksIn dflt x.ty (divided dflt x.opt) (1 / v) x.t.blocks).1⟩, x.opt, x.ty⟩,
      if (mulBlocksIn dflt x.ty (divided dflt x.opt) (1 / v) x.t.blocks).2 then none else some .runtimeError)

end TY
end QuantiT
