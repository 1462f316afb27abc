import Verif.Model.Truncate
import Verif.Model.Tensordot
import Mathlib.Analysis.RCLike.Basic
/-
Decompositions of dense tensors cut in two groups of dimensions (sources/LinearAlgebra.cpp:77-160), with their tensors.

`fac` stands for `torch::svd` (or `torch::linalg::eigh`) of a matrix.  Exact arithmetic, over the real or the complex
numbers: the values are a real tensor in torch, here a tensor of `𝕜` with real entries.
-/
namespace QuantiT
namespace LA
open Spec BT
variable {𝕜 : Type} [RCLike 𝕜]

/-- `t.index({Ellipsis, Slice(None, k)})` on a whole tensor: the first `k` along the last dimension; a negative `k` counts
from the end.  (Used at sources/LinearAlgebra.cpp:83,102.) -/
def sliceLast {R : Type} (t : Blk R) (k : Int) : Blk R :=
  let n := t.dims.getLastD 0
  ⟨t.dims.dropLast ++ [if k < 0 then (k + n).toNat else min k.toNat n], t.f⟩

/-- The values as `compute_last_index` sees them: a tensor with one dimension is one row. -/
noncomputable def valueRows (d : Blk 𝕜) : Rows ℝ :=
  let n := d.dims.getLastD 0
  ⟨n, [(List.range n).map fun k => RCLike.re (d.f [k])]⟩

/-- `svd(A, split)`: the dimensions before `split` are the rows, the others the columns; `A_dim.slice` throws when `split` is
beyond the rank. (sources/LinearAlgebra.cpp:105-119) -/
def svdDense {R : Type} (fac : Blk R → Blk R × Blk R × Blk R) (A : Blk R) (split : Nat) : Res (Blk R × Blk R × Blk R) :=
  if A.dims.length < split then Res.throw .runtimeError
  else do
    let left := A.dims.take split
    let right := A.dims.drop split
    let rA ← reshapeBlk [left.prod, right.prod] A
    let (u, d, v) := fac rA
    let u ← reshapeBlk (left ++ d.dims) u
    let v ← reshapeBlk (right ++ d.dims) v
    .ok (u, d, v)

/-- `truncate(u, d, v, tol, min_size, max_size, pow)` on the tensors of a decomposition; `pw x` is `x^pow`.
(sources/LinearAlgebra.cpp:77-84,92-96) -/
noncomputable def truncateDense (u d v : Blk 𝕜) (tol : ℝ) (minS maxS : Nat) (pw : ℝ → ℝ) : Res (Blk 𝕜 × Blk 𝕜 × Blk 𝕜) := do
  let last ← computeLastIndex (valueRows d) tol pw minS maxS
  .ok (sliceLast u (last + 1), sliceLast d (last + 1), sliceLast v (last + 1))

/-- `svd(A, split, tol, min_size, max_size, pow)`. (sources/LinearAlgebra.cpp:129-132) -/
noncomputable def svdCut (fac : Blk 𝕜 → Blk 𝕜 × Blk 𝕜 × Blk 𝕜) (A : Blk 𝕜) (split : Nat) (tol : ℝ) (minS maxS : Nat) (pw : ℝ → ℝ) :
    Res (Blk 𝕜 × Blk 𝕜 × Blk 𝕜) := do
  let (u, d, v) ← svdDense fac A split
  truncateDense u d v tol minS maxS pw

/-- `svd(A, split, tol, pow)`: no limits on the number of values. (sources/LinearAlgebra.cpp:122-127) -/
noncomputable def svdTol (fac : Blk 𝕜 → Blk 𝕜 × Blk 𝕜 × Blk 𝕜) (A : Blk 𝕜) (split : Nat) (tol : ℝ) (pw : ℝ → ℝ) :
    Res (Blk 𝕜 × Blk 𝕜 × Blk 𝕜) :=
  svdCut fac A split tol 1 (2 ^ 64 - 1) pw

/-- `eigh(A, split)`: throws for a matrix that is not square. (sources/LinearAlgebra.cpp:135-148) -/
def eighDense {R : Type} (fac : Blk R → Blk R × Blk R) (A : Blk R) (split : Nat) : Res (Blk R × Blk R) :=
  if A.dims.length < split then Res.throw .runtimeError
  else
    let left := A.dims.take split
    let right := A.dims.drop split
    if left.prod ≠ right.prod then Res.throw .invalidArgument
    else do
      let rA ← reshapeBlk [left.prod, right.prod] A
      let (d, u) := fac rA
      let u ← reshapeBlk (left ++ d.dims) u
      .ok (d, u)

/-- The eigenvectors as `compute_last_index` sees them: absolute values, one row for every index of the rows of the matrix. -/
noncomputable def vectorRows (u : Blk 𝕜) : Rows ℝ :=
  let n := u.dims.getLastD 0
  ⟨n, (List.range u.dims.dropLast.prod).map fun r => (List.range n).map fun k => ‖u.f (unflat u.dims.dropLast r ++ [k])‖⟩

/-- `eigh(A, split, tol, min_size, max_size, pow)`: the pair `(d, u)` is given to the version of `truncate` for pairs, which calls the one
for two tensors as `(u, d)`, where the first is the one whose entries are summed and comes back second.
(sources/LinearAlgebra.cpp:87-91,98-103,157-160) -/
noncomputable def eighCut (fac : Blk 𝕜 → Blk 𝕜 × Blk 𝕜) (A : Blk 𝕜) (split : Nat) (tol : ℝ) (minS maxS : Nat) (pw : ℝ → ℝ) : Res (Blk 𝕜 × Blk 𝕜) := do
  let (d, u) ← eighDense fac A split
  let last ← computeLastIndex (vectorRows u) tol pw minS maxS
  .ok (sliceLast d (last + 1), sliceLast u (last + 1))

/-- `eigh(A, split, tol, pow)`: no limits on the number of values. (sources/LinearAlgebra.cpp:150-155) -/
noncomputable def eighTol (fac : Blk 𝕜 → Blk 𝕜 × Blk 𝕜) (A : Blk 𝕜) (split : Nat) (tol : ℝ) (pw : ℝ → ℝ) : Res (Blk 𝕜 × Blk 𝕜) :=
  eighCut fac A split tol 1 (2 ^ 64 - 1) pw

end LA
end QuantiT
