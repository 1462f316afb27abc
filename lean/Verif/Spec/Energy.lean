import Verif.Spec.Network
import Mathlib.Analysis.RCLike.Basic
/-
Energy and norm of the state that a chain stands for, over the real or the complex numbers.  The chains have ends of
size one.
-/
namespace QuantiT
namespace Spec
open Finset
variable {𝕜 : Type} [RCLike 𝕜]

/-- `⟨Ψ|Ψ⟩ = ∑ |Ψ(σ)|²` over all configurations. -/
noncomputable def normSq (s : List (Blk 𝕜)) : ℝ := ∑ σ ∈ configs (phys s), ‖amp s σ 0 0‖ ^ 2

/-- `⟨Ψ|O|Ψ⟩ = ∑ Ψ(σ) · O(τ, σ) · conj Ψ(τ)` over all configurations, its real part. -/
noncomputable def energy (Ws s : List (Blk 𝕜)) : ℝ := RCLike.re (sandwich s Ws s 0 0 0 0 0 0)

/-- Both ends of a chain have size one. -/
def Closed (s : List (Blk 𝕜)) : Prop := leftEnd s = 1 ∧ rightEnd s = 1

/-- The operator of an MPO is hermitian on configurations of the given sizes. -/
def HermitianOp (Ws : List (Blk 𝕜)) (ds : List Nat) : Prop :=
  ∀ σ ∈ configs ds, ∀ τ ∈ configs ds, opEntry Ws σ τ 0 0 = star (opEntry Ws τ σ 0 0)

/-- `lo` is a lower bound of the spectrum of the operator: `lo · ⟨v|v⟩ ≤ ⟨v|O|v⟩` for every vector `v`. -/
def BoundedBelow (Ws : List (Blk 𝕜)) (ds : List Nat) (lo : ℝ) : Prop :=
  ∀ v : List Nat → 𝕜, lo * ∑ σ ∈ configs ds, ‖v σ‖ ^ 2
    ≤ RCLike.re (∑ σ ∈ configs ds, ∑ τ ∈ configs ds, v σ * opEntry Ws τ σ 0 0 * star (v τ))

/-- Sites left of the pair `o`, `o + 1` are left-orthonormal, sites right of it are right-orthonormal. -/
def PairCanonical (s : List (Blk 𝕜)) (o : Nat) : Prop :=
  (∀ i A, s[i]? = some A → i < o → LeftOrth A) ∧ (∀ i A, s[i]? = some A → o + 1 < i → RightOrth A)

/-- `svd(X, 2)` without truncation, of a tensor of sizes `[l, s, t, r]`, gave `u`, `d`, `v`: `X = u · diag d · v†`, `d` is
real and the columns of `u` and of `v` are orthonormal. -/
structure SvdPair (X u d v : Blk 𝕜) (l s t r k : Nat) : Prop where
  udims : u.dims = [l, s, k]
  ddims : d.dims = [k]
  vdims : v.dims = [t, r, k]
  real : ∀ m, m < k → star (d.f [m]) = d.f [m]
  uorth : ∀ a b, a < k → b < k →
    ∑ i ∈ range l, ∑ c ∈ range s, star (u.f [i, c, a]) * u.f [i, c, b] = if a = b then 1 else 0
  vorth : ∀ a b, a < k → b < k →
    ∑ c ∈ range t, ∑ j ∈ range r, star (v.f [c, j, a]) * v.f [c, j, b] = if a = b then 1 else 0
  prod : ∀ i c c' j, i < l → c < s → c' < t → j < r →
    X.f [i, c, c', j] = ∑ m ∈ range k, u.f [i, c, m] * d.f [m] * star (v.f [c', j, m])

end Spec
end QuantiT
