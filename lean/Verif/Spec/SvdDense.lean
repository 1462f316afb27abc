import Verif.Spec.Linalg
import Verif.Spec.Network
import Mathlib.Analysis.RCLike.Basic
/-
What the (truncated) singular value decomposition of a tensor should be.  The dimensions of the tensor are cut in two groups:
`left` are the rows, `right` the columns.
-/
namespace QuantiT
namespace Spec
open Finset
variable {𝕜 : Type} [RCLike 𝕜]

/-- A routine for the SVD `(u, d, v)` of matrices does its job: `u · diag d · v†` is the matrix, the columns of `u` and of `v` are
orthonormal, the values are real, at least zero and in decreasing order. -/
structure DenseSvd (fac : Blk 𝕜 → Blk 𝕜 × Blk 𝕜 × Blk 𝕜) : Prop where
  sizes : SvdSizes fac
  product : SvdProduct fac
  ortho : SvdOrtho fac
  values : ∀ m nr nc, m.dims = [nr, nc] → ∃ σ : Nat → ℝ, Antitone σ ∧ (∀ k, 0 ≤ σ k) ∧ ∀ k, k < min nr nc → (fac m).2.1.f [k] = (σ k : 𝕜)

/-- A tensor of sizes `ds` and `k` is made of `k` orthonormal columns. -/
structure OrthoColumns (u : Blk 𝕜) (ds : List Nat) (k : Nat) : Prop where
  dims : u.dims = ds ++ [k]
  ortho : ∀ a b, a < k → b < k → ∑ e ∈ configs ds, star (u.f (e ++ [a])) * u.f (e ++ [b]) = if a = b then 1 else 0

/-- `∑ x[e, m] · y[f, m]` over `m < k`: a sum of `k` products of a column and a row. -/
def terms (x y : List Nat → Nat → 𝕜) (k : Nat) (e f : List Nat) : 𝕜 := ∑ m ∈ range k, x e m * y f m

/-- `∑ u[e, m] · d[m] · conj v[f, m]` over `m < k`. -/
def svdTerms (u d v : Blk 𝕜) (k : Nat) (e f : List Nat) : 𝕜 := ∑ m ∈ range k, u.f (e ++ [m]) * d.f [m] * star (v.f (f ++ [m]))

/-- Square of the distance between a tensor and another one given by its entries. -/
noncomputable def distSq (A : Blk 𝕜) (left right : List Nat) (B : List Nat → List Nat → 𝕜) : ℝ :=
  ∑ e ∈ configs left, ∑ f ∈ configs right, ‖A.f (e ++ f) - B e f‖ ^ 2

/-- `∑ |A|²`. -/
noncomputable def sizeSq (A : Blk 𝕜) (left right : List Nat) : ℝ := distSq A left right fun _ _ => 0

end Spec
end QuantiT
