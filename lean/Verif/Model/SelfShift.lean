import Verif.Model.BTensorOps
/-
Charges handed to a tensor by reference, /repo/sources/btensor.cpp:2174-2222: `any_quantity_cref` is a reference
(include/Conserved/Composite/cquantity.h:32), and `section_conserved_qtt` (btensor.cpp:78-85), `element_conserved_qtt` (86-106)
and the selection rule hand out references into the tensor.
-/
namespace QuantiT
namespace BT
variable {G R : Type}

/-- What a reference to a charge refers to: a charge outside the tensor, the charge of a section of the tensor, or its
selection rule. -/
inductive Ref (G : Type) where
  | ext (q : G)
  | sec (dim s : Nat)
  | rule

/-- The charge seen through a reference; a section that does not exist is read out of bounds. -/
def Ref.read (shape : Shape G) (rule : G) : Ref G → Res G
  | .ext q => .ok q
  | .sec d s =>
    match (shape.getD d [])[s]? with
    | some x => .ok x.2
    | none => Res.ub
  | .rule => .ok rule

/-- The loop of `shift_impl`, btensor.cpp:2215-2222: `*c_vals_it *= shift` on sections `s`, `s + 1`, … of dimension `dim`, reading
the reference each time.  `n` is the number of sections left. -/
def shiftLoopRef [AddCommGroup G] (rule : G) (ref : Ref G) (dim : Nat) : Nat → Nat → Shape G → Res (Shape G)
  | 0, _, shape => .ok shape
  | n + 1, s, shape => do
    let q ← ref.read shape rule
    match (shape.getD dim [])[s]? with
    | none => Res.ub
    | some x => shiftLoopRef rule ref dim n (s + 1) (shape.set dim ((shape.getD dim []).set s (x.1, x.2 + q)))

/-- `shift_impl(shift, dim)`, btensor.cpp:2215-2222, through a reference. -/
def shiftImplRef [AddCommGroup G] (shape : Shape G) (rule : G) (ref : Ref G) (dim : Nat) : Res (Shape G) :=
  match shape[dim]? with
  | none => Res.throw .invalidArgument
  | some d => shiftLoopRef rule ref dim d.length 0 shape

/-- `cval_shift_(shift, dim)`, btensor.cpp:2180-2185, through a reference: it is read again for the selection rule. -/
def cvalShiftRef [AddCommGroup G] (t : BT G R) (ref : Ref G) (dim : Nat) : Res (BT G R) := do
  let sh ← shiftImplRef t.shape t.rule ref dim
  let q ← ref.read sh t.rule
  .ok { t with shape := sh, rule := t.rule + -q }

/-- `cval_shift(shift, dim)`, btensor.cpp:2174-2178: the copy is shifted, the reference is to this tensor. -/
def cvalShiftCopyRef [AddCommGroup G] (t : BT G R) (ref : Ref G) (dim : Nat) : Res (BT G R) := do
  let q ← ref.read t.shape t.rule
  cvalShift t q dim

/-- `non_conserving_cval_shift_`, btensor.cpp:2187-2193, through a reference. -/
def nonConservingCvalShiftRef [AddCommGroup G] (t : BT G R) (ref : Ref G) (dim : Nat) : Res (BT G R) :=
  if t.blocks.length ≠ 0 then Res.throw .logicError
  else do
    let sh ← shiftImplRef t.shape t.rule ref dim
    .ok { t with shape := sh }

end BT
end QuantiT
