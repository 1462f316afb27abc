import Verif.Model.Models
import Verif.Model.Types
import Verif.Spec.Mps
/-
The dense Hamiltonians of models.cpp for couplings of any element type.  The operators of operators.cpp are tensors of 8-bit integers;
the coupling is a tensor without dimensions of any type, or a Python number.

Values of real and complex types are exact (TY).  Integer types wrap around.  Unsigned, boolean and half precision couplings are left
out.
-/
namespace QuantiT
namespace HM
open Spec
variable {R : Type}

/-- A tensor without dimensions: an integer of the given number of bits, a real or a complex number. -/
inductive Num where
  | int (bits : Nat) (n : Int)
  | real (x : ℝ)
  | complex (z : ℂ)

/-- The number. -/
noncomputable def Num.value : Num → ℂ
  | .int _ n => n
  | .real x => x
  | .complex z => z

/-- A Python number: `Cast_Scalars<c10::Scalar>::cast`, python_binding/utilities.h:167-179, and the `torch::full({}, J)` of
python_binding/operators.cpp:30-36, which makes integers of 64 bits of integers, and real and complex tensors of the others.  Booleans
are left out. -/
inductive PyNum where
  | int (n : Int)
  | float (x : ℝ)
  | complex (z : ℂ)

@[inherit_doc PyNum]
def PyNum.toTensor : PyNum → Num
  | .int n => .int 64 n
  | .float x => .real x
  | .complex z => .complex z

/-- An integer of `bits` bits, two's complement. -/
def wrapInt (bits : Nat) (n : Int) : Int := Int.bmod n (2 ^ bits)

/-- A tensor with dimensions: of 8-bit integers, or of real or complex numbers. -/
inductive Tens where
  | i8 (b : Blk Int)
  | num (b : Blk ℂ)

/-- The entries as complex numbers. -/
def Tens.values : Tens → Blk ℂ
  | .i8 b => ⟨b.dims, fun o => (b.f o : ℂ)⟩
  | .num b => b

/-- `-J`. -/
def Num.neg : Num → Num
  | .int bits n => .int bits (wrapInt bits (-n))
  | .real x => .real (-x)
  | .complex z => .complex (-z)

/-- `J / 4.0`: integers give the default type. -/
noncomputable def Num.quarter : Num → Num
  | .int _ n => .real ((n : ℝ) / 4)
  | .real x => .real (x / 4)
  | .complex z => .complex (z / 4)

/-- `2 * J`. -/
noncomputable def Num.twice : Num → Num
  | .int bits n => .int bits (wrapInt bits (2 * n))
  | .real x => .real (2 * x)
  | .complex z => .complex (2 * z)

/-- `c * x` of a tensor without dimensions and a tensor of 8-bit integers: a tensor without dimensions decides the type of the result
only if it is of a higher kind, so that an integer is first converted to 8 bits (`at::result_type`). -/
def mulNum (c : Num) (x : Blk Int) : Tens :=
  match c with
  | .int _ n => .i8 ⟨x.dims, fun o => wrapInt 8 (wrapInt 8 n * x.f o)⟩
  | .real r => .num ⟨x.dims, fun o => (r : ℂ) * (x.f o : ℂ)⟩
  | .complex z => .num ⟨x.dims, fun o => z * (x.f o : ℂ)⟩

/-- `x - y` of tensors of the same sizes. -/
def subT : Tens → Tens → Tens
  | .i8 x, .i8 y => .i8 ⟨x.dims, fun o => wrapInt 8 (x.f o - y.f o)⟩
  | x, y => .num ⟨x.values.dims, fun o => x.values.f o - y.values.f o⟩

/-- `index_put_` of slices converts the entries as `copy_` does.  Into a real tensor: the imaginary part is dropped. -/
noncomputable def storeReal (x : Tens) : Blk ℂ := ⟨x.values.dims, fun o => TY.cast (.real false) (x.values.f o)⟩

open Classical in
/-- Into a tensor of 8-bit integers: real numbers are cut; what does not fit is undefined behaviour. -/
noncomputable def storeByte : Tens → Res (Blk ℂ)
  | .i8 b => .ok (Tens.i8 b).values
  | .num b =>
    if ∀ o, InRange o b.dims → -128 ≤ TY.trunc (b.f o).re ∧ TY.trunc (b.f o).re ≤ 127 then
      .ok ⟨b.dims, fun o => TY.cast (.int false) (b.f o)⟩
    else Res.ub

/-- Conversion to the type of `local_tens`: the default type, 8-bit integers when the coupling is no floating point number
(`is_floating_point()` is false of complex numbers), models.cpp:43-45. -/
noncomputable def storeFor (J : Num) (x : Tens) : Res (Blk ℂ) :=
  match J with
  | .real _ => .ok (storeReal x)
  | _ => storeByte x

/-- The local tensor of `details::Heisenberg_impl`, models.cpp:43-58, as `heisenbergTensor`. -/
noncomputable def heisenbergTensorT (J : Num) : Res (Blk ℂ) := do
  let lo : Blk Int := pauliLo
  let hi := tr lo
  let a ← storeFor J (mulNum J.twice hi)
  let b ← storeFor J (mulNum J.twice lo)
  let c ← storeFor J (mulNum J pauliSz)
  let W : Blk ℂ := zeros [5, 2, 5, 2]
  let W := putOp 0 0 (Tens.i8 pauliId).values W
  let W := putOp 1 0 (Tens.i8 lo).values W
  let W := putOp 2 0 (Tens.i8 hi).values W
  let W := putOp 3 0 (Tens.i8 pauliSz).values W
  let W := putOp 4 0 (zeros [2, 2]) W
  let W := putOp 4 1 a W
  let W := putOp 4 2 b W
  let W := putOp 4 3 c W
  .ok (putOp 4 4 (Tens.i8 pauliId).values W)

/-- `Heisenberg(J, lenght)`, models.cpp:38-68. -/
noncomputable def heisenbergT (J : Num) (len : Nat) : Res (List (Blk ℂ)) := do
  let W ← heisenbergTensorT J.neg.quarter
  edges len W 5

/-- The on-site term of `Hubbard(U, mu, lenght)`, models.cpp:126-129.  The products of operators are 8-bit integers too, between -1
and 2. -/
def hubbardLocalT (U mu : Num) : Tens :=
  let nUp : Blk Int := matmul 4 (tr fermiUp) fermiUp
  let nDn : Blk Int := matmul 4 (tr fermiDn) fermiDn
  subT (mulNum U (matmul 4 nUp nDn)) (mulNum mu (addB nUp nDn))

/-- `Hubbard(U, mu, lenght)`, models.cpp:118-147, as `hubbard`; `local_tens` is real. -/
noncomputable def hubbardT (U mu : Num) (len : Nat) : Res (List (Blk ℂ)) :=
  let W : Blk ℂ := zeros [6, 4, 6, 4]
  let W := putOp 0 0 fermiId W
  let W := putOp 1 0 fermiUp W
  let W := putOp 2 0 fermiDn W
  let W := putOp 3 0 (tr fermiUp) W
  let W := putOp 4 0 (tr fermiDn) W
  let W := putOp 5 0 (storeReal (hubbardLocalT U mu)) W
  let W := putOp 5 1 (matmul 4 (tr fermiUp) fermiF) W
  let W := putOp 5 2 (matmul 4 (tr fermiDn) fermiF) W
  let W := putOp 5 3 (matmul 4 fermiF fermiUp) W
  let W := putOp 5 4 (matmul 4 fermiF fermiDn) W
  let W := putOp 5 5 fermiId W
  edges len W 6

end HM
end QuantiT
