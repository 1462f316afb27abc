import Verif.Spec.Energy
/-
What a DMRG update that truncates the new bond should give: the chain of a given bond closest to the state that the
eigensolver found.  The chains have ends of size one.
-/
namespace QuantiT
namespace Spec
open Finset
variable {𝕜 : Type} [RCLike 𝕜]

/-- `hi` is an upper bound of the spectrum of the operator: `⟨v|O|v⟩ ≤ hi · ⟨v|v⟩` for every vector `v`. -/
def BoundedAbove (Ws : List (Blk 𝕜)) (ds : List Nat) (hi : ℝ) : Prop :=
  ∀ v : List Nat → 𝕜, RCLike.re (∑ σ ∈ configs ds, ∑ τ ∈ configs ds, v σ * opEntry Ws τ σ 0 0 * star (v τ))
    ≤ hi * ∑ σ ∈ configs ds, ‖v σ‖ ^ 2

/-- `⟨v|v⟩`. -/
noncomputable def vecNormSq (ds : List Nat) (v : List Nat → 𝕜) : ℝ := ∑ σ ∈ configs ds, ‖v σ‖ ^ 2

/-- `⟨v|O|v⟩`, its real part. -/
noncomputable def vecEnergy (Ws : List (Blk 𝕜)) (ds : List Nat) (v : List Nat → 𝕜) : ℝ :=
  RCLike.re (∑ σ ∈ configs ds, ∑ τ ∈ configs ds, v σ * opEntry Ws τ σ 0 0 * star (v τ))

/-- `⟨v|Ψ⟩` for the state `Ψ` of a chain. -/
noncomputable def vecOverlap (ds : List Nat) (v : List Nat → 𝕜) (s : List (Blk 𝕜)) : 𝕜 := ∑ σ ∈ configs ds, amp s σ 0 0 * star (v σ)

/-- Size of the bond right of the site `o`. -/
def bondAt (s : List (Blk 𝕜)) (o : Nat) : Nat := ((s[o]?.map Blk.dims).getD []).getD 2 0

/-- The chain `s` with other tensors at the sites `o` and `o + 1`. -/
def withPair (s : List (Blk 𝕜)) (o : Nat) (A B : Blk 𝕜) : List (Blk 𝕜) := (s.set o A).set (o + 1) B

/-- Two tensors that can replace the sites `o` and `o + 1` of `s`, with a bond of size `k` between them. -/
def PairFits (s : List (Blk 𝕜)) (o : Nat) (A B : Blk 𝕜) (k : Nat) : Prop :=
  ∃ A0 B0 n i m j n', s[o]? = some A0 ∧ s[o + 1]? = some B0 ∧ A0.dims = [n, i, m] ∧ B0.dims = [m, j, n'] ∧
    A.dims = [n, i, k] ∧ B.dims = [k, j, n']

/-- `s'` is the chain `s` with new tensors at the sites `o` and `o + 1` made by truncating the normalised state `v`.  `w` is the weight
lost, `1 - |⟨v|s'⟩|²`; it is at most `cutoff²` unless the bond has the largest size allowed; no other normalised chain that
differs from `s` at these sites only, with a bond not larger, has a larger overlap with `v`; and with a smaller bond, but not
smaller than `minB`, every such chain loses more than `cutoff²`.  The bond is not larger than what two sites can need, and not
smaller than `minB` unless that is. -/
structure Truncation (ds : List Nat) (v : List Nat → 𝕜) (s s' : List (Blk 𝕜)) (o : Nat) (cutoff : ℝ) (minB maxB : Nat) (w : ℝ) : Prop where
  norm : vecNormSq ds v = 1
  pair : ∃ A B, s' = withPair s o A B ∧ PairFits s o A B (bondAt s' o)
  limit : 1 ≤ bondAt s' o ∧ bondAt s' o ≤ max minB maxB
  needed : ∀ A B, s[o]? = some A → s[o + 1]? = some B → bondAt s' o ≤ min (A.dims.take 2).prod (B.dims.drop 1).prod ∧
    min minB (min (A.dims.take 2).prod (B.dims.drop 1).prod) ≤ bondAt s' o
  lost : 0 ≤ w ∧ w < 1 ∧ ‖vecOverlap ds v s'‖ ^ 2 = 1 - w
  small : bondAt s' o < maxB → w ≤ cutoff ^ 2
  best : ∀ A B k, PairFits s o A B k → k ≤ bondAt s' o → normSq (withPair s o A B) = 1 → ‖vecOverlap ds v (withPair s o A B)‖ ^ 2 ≤ 1 - w
  fewest : ∀ A B k, PairFits s o A B k → minB ≤ k → k < bondAt s' o → normSq (withPair s o A B) = 1 →
    ‖vecOverlap ds v (withPair s o A B)‖ ^ 2 < 1 - cutoff ^ 2

end Spec
end QuantiT
