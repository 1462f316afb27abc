import Verif.Spec.SvdDense
/-
What the eigenvalue decomposition of a hermitian tensor should be, and what is assumed of the routine for matrices.
-/
namespace QuantiT
namespace Spec
open Finset
variable {𝕜 : Type} [RCLike 𝕜]

/-- The hermitian matrix with the lower triangle of `m`; the diagonal of a hermitian matrix is real. -/
noncomputable def lowerHerm (m : Blk 𝕜) (r c : Nat) : 𝕜 :=
  if c < r then m.f [r, c] else if r < c then star (m.f [c, r]) else ((RCLike.re (m.f [r, r]) : ℝ) : 𝕜)

/-- A routine for the eigenvalues and eigenvectors `(d, u)` of hermitian matrices does its job.  It reads the lower triangle only (`"L"` of
`torch::linalg::eigh`). -/
structure DenseEigh (fac : Blk 𝕜 → Blk 𝕜 × Blk 𝕜) : Prop where
  sizes : ∀ m n, m.dims = [n, n] → (fac m).1.dims = [n] ∧ (fac m).2.dims = [n, n]
  values : ∀ m n, m.dims = [n, n] → ∃ σ : Nat → ℝ, (∀ j k, j ≤ k → k < n → σ j ≤ σ k) ∧ ∀ k, k < n → (fac m).1.f [k] = (σ k : 𝕜)
  ortho : ∀ m n, m.dims = [n, n] → ∀ a b, a < n → b < n → ∑ r ∈ range n, star ((fac m).2.f [r, a]) * (fac m).2.f [r, b] = if a = b then 1 else 0
  product : ∀ m n, m.dims = [n, n] → ∀ r c, r < n → c < n →
    lowerHerm m r c = ∑ k ∈ range n, (fac m).2.f [r, k] * (fac m).1.f [k] * star ((fac m).2.f [c, k])

/-- A tensor of sizes `ds` and `ds` that is hermitian as a matrix. -/
def HermitianTensor (A : Blk 𝕜) (ds : List Nat) : Prop := ∀ e f, InRange e ds → InRange f ds → A.f (e ++ f) = star (A.f (f ++ e))

end Spec
end QuantiT
