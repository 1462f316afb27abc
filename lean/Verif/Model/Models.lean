import Verif.Model.Mps
import Mathlib.Algebra.Field.Defs
/-
Model of operators.cpp and of the dense Hamiltonians of models.cpp.

Tensor entries are elements of a ring; the integer types of the operators and the conversion to the floating type are
not modelled.  `U`, `mu`, `J` are rank 0 tensors: their rank check is not modelled.
-/
namespace QuantiT
namespace HM
variable {R : Type}

/-- `torch::zeros(dims)`. -/
def zeros [Zero R] (dims : List Nat) : Blk R := ⟨dims, fun _ => 0⟩

/-- `Acc[i][j] = v`. -/
def put (i j : Nat) (v : R) (T : Blk R) : Blk R := ⟨T.dims, fun o => if o = [i, j] then v else T.f o⟩

/-- `pauli()`, operators.cpp:59-88: `Sx, iSy, Sz, lo, id`. -/
def pauliSx [Ring R] : Blk R := put 0 1 1 (put 1 0 1 (zeros [2, 2]))
def pauliISy [Ring R] : Blk R := put 0 1 (-(-1)) (put 1 0 (-1) (zeros [2, 2]))
def pauliSz [Ring R] : Blk R := put 0 0 (-(-1)) (put 1 1 (-1) (zeros [2, 2]))
def pauliLo [Ring R] : Blk R := put 0 1 1 (zeros [2, 2])
def pauliId [Ring R] : Blk R := put 0 0 1 (put 1 1 1 (zeros [2, 2]))

/-- `fermions()`, operators.cpp:21-40: `c_up, c_dn, F, id`. -/
def fermiUp [Ring R] : Blk R := put 2 3 1 (put 0 1 1 (zeros [4, 4]))
def fermiDn [Ring R] : Blk R := put 1 3 (-1) (put 0 2 1 (zeros [4, 4]))
def fermiF [Ring R] : Blk R := put 1 1 (-1) (put 2 2 (-1) (put 0 0 1 (put 3 3 1 (zeros [4, 4]))))
def fermiId [Ring R] : Blk R := put 0 0 1 (put 1 1 1 (put 2 2 1 (put 3 3 1 (zeros [4, 4]))))

/-- `x.t()` of a matrix; `conj` of the real operators does nothing. -/
def tr (x : Blk R) : Blk R := ⟨x.dims.reverse, fun o => x.f o.reverse⟩

/-- `torch::matmul` of two `n` by `n` matrices. -/
def matmul [Semiring R] (n : Nat) (x y : Blk R) : Blk R :=
  ⟨[n, n], fun o => ∑ k ∈ Finset.range n, x.f [o.getD 0 0, k] * y.f [k, o.getD 1 0]⟩

/-- Entrywise operations. -/
def addB [Add R] (x y : Blk R) : Blk R := ⟨x.dims, fun o => x.f o + y.f o⟩
def subB [Sub R] (x y : Blk R) : Blk R := ⟨x.dims, fun o => x.f o - y.f o⟩
def mulS [Mul R] (c : R) (x : Blk R) : Blk R := ⟨x.dims, fun o => c * x.f o⟩

/-- `T.index_put_({a, Slice(), b, Slice()}, op)`. -/
def putOp (a b : Nat) (op : Blk R) (T : Blk R) : Blk R :=
  ⟨T.dims, fun o => if o.getD 0 0 = a ∧ o.getD 2 0 = b then op.f [o.getD 1 0, o.getD 3 0] else T.f o⟩

/-- `T.index` with `Slice(start, stop)` on dimension `dim` and full slices elsewhere; the slice lies inside. -/
def narrow (dim start stop : Nat) (T : Blk R) : Blk R :=
  ⟨T.dims.set dim (stop - start), fun o => T.f (o.set dim (o.getD dim 0 + start))⟩

/-- `MPO out(lenght, local_tens)` followed by the two edge slices, models.cpp:60-62 and 143-145.  `out[0]` of an empty
chain is undefined behaviour. -/
def edges (len : Nat) (W : Blk R) (rows : Nat) : Res (List (Blk R)) := do
  let _ ← MP.mkMpoFill W.dims
  if len = 0 then Res.ub
  else
    let out := List.replicate len W
    let out := out.modify 0 (narrow 0 (rows - 1) rows)
    .ok (out.modify (len - 1) (narrow 2 0 1))

/-- The local tensor of `details::Heisenberg_impl`, models.cpp:43-58. -/
def heisenbergTensor [Ring R] (J : R) : Blk R :=
  let lo := pauliLo
  let hi := tr lo
  let W := zeros [5, 2, 5, 2]
  let W := putOp 0 0 pauliId W
  let W := putOp 1 0 lo W
  let W := putOp 2 0 hi W
  let W := putOp 3 0 pauliSz W
  let W := putOp 4 0 (zeros [2, 2]) W
  let W := putOp 4 1 (mulS (2 * J) hi) W
  let W := putOp 4 2 (mulS (2 * J) lo) W
  let W := putOp 4 3 (mulS J pauliSz) W
  putOp 4 4 pauliId W

/-- `details::Heisenberg_impl`, models.cpp:38-64. -/
def heisenbergImpl [Ring R] (J : R) (len : Nat) : Res (List (Blk R)) := edges len (heisenbergTensor J) 5

/-- `Heisenberg(J, lenght)`, models.cpp:65-68. -/
def heisenberg [Field R] (J : R) (len : Nat) : Res (List (Blk R)) := heisenbergImpl (-J / 4) len

/-- The local tensor of `Hubbard(U, mu, lenght)`, models.cpp:125-142. -/
def hubbardTensor [Ring R] (U mu : R) : Blk R :=
  let nUp := matmul 4 (tr fermiUp) fermiUp
  let nDn := matmul 4 (tr fermiDn) fermiDn
  let loc := subB (mulS U (matmul 4 nUp nDn)) (mulS mu (addB nUp nDn))
  let W := zeros [6, 4, 6, 4]
  let W := putOp 0 0 fermiId W
  let W := putOp 1 0 fermiUp W
  let W := putOp 2 0 fermiDn W
  let W := putOp 3 0 (tr fermiUp) W
  let W := putOp 4 0 (tr fermiDn) W
  let W := putOp 5 0 loc W
  let W := putOp 5 1 (matmul 4 (tr fermiUp) fermiF) W
  let W := putOp 5 2 (matmul 4 (tr fermiDn) fermiF) W
  let W := putOp 5 3 (matmul 4 fermiF fermiUp) W
  let W := putOp 5 4 (matmul 4 fermiF fermiDn) W
  putOp 5 5 fermiId W

/-- `Hubbard(U, mu, lenght)`, models.cpp:118-147. -/
def hubbard [Ring R] (U mu : R) (len : Nat) : Res (List (Blk R)) := edges len (hubbardTensor U mu) 6

end HM
end QuantiT
