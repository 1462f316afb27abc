import Verif.Spec.Energy
/-
Canonical form of chains whose bonds may have unused elements.  The truncation of block tensors can leave elements in a bond for
which a neighbouring site is zero everywhere; apart from those, the sites are orthonormal as in a canonical chain.
-/
namespace QuantiT
namespace Spec
open Finset
variable {𝕜 : Type} [RCLike 𝕜]

/-- The site is zero at the element `k` of its right bond. -/
def ZeroCol (A : Blk 𝕜) (k : Nat) : Prop :=
  ∀ i c, i < A.dims.getD 0 0 → c < A.dims.getD 1 0 → A.f [i, c, k] = 0

/-- The site is zero at the element `k` of its left bond. -/
def ZeroRow (A : Blk 𝕜) (k : Nat) : Prop :=
  ∀ c j, c < A.dims.getD 1 0 → j < A.dims.getD 2 0 → A.f [k, c, j] = 0

/-- Like `LeftOrth`, but columns may be zero. -/
structure LeftSemi (A : Blk 𝕜) : Prop where
  orth : ∀ a b, a < A.dims.getD 2 0 → b < A.dims.getD 2 0 → a ≠ b →
    ∑ i ∈ range (A.dims.getD 0 0), ∑ s ∈ range (A.dims.getD 1 0), star (A.f [i, s, a]) * A.f [i, s, b] = 0
  norm : ∀ a, a < A.dims.getD 2 0 → ZeroCol A a ∨
    ∑ i ∈ range (A.dims.getD 0 0), ∑ s ∈ range (A.dims.getD 1 0), star (A.f [i, s, a]) * A.f [i, s, a] = 1

/-- Like `RightOrth`, but rows may be zero. -/
structure RightSemi (A : Blk 𝕜) : Prop where
  orth : ∀ a b, a < A.dims.getD 0 0 → b < A.dims.getD 0 0 → a ≠ b →
    ∑ s ∈ range (A.dims.getD 1 0), ∑ j ∈ range (A.dims.getD 2 0), A.f [a, s, j] * star (A.f [b, s, j]) = 0
  norm : ∀ a, a < A.dims.getD 0 0 → ZeroRow A a ∨
    ∑ s ∈ range (A.dims.getD 1 0), ∑ j ∈ range (A.dims.getD 2 0), A.f [a, s, j] * star (A.f [a, s, j]) = 1

/-- The chain would be canonical around `oc` without the unused elements of its bonds: sites before `oc` have orthonormal or zero
columns, sites after it have orthonormal or zero rows, and towards `oc` the next site is zero where one of those is. -/
structure SemiCanonical (sites : List (Blk 𝕜)) (oc : Nat) : Prop where
  left : ∀ (i : Nat) A, sites[i]? = some A → i < oc → LeftSemi A
  right : ∀ (i : Nat) A, sites[i]? = some A → oc < i → RightSemi A
  skipLeft : ∀ (i : Nat) A B, sites[i]? = some A → sites[i + 1]? = some B → i < oc → ∀ k, k < A.dims.getD 2 0 → ZeroCol A k → ZeroRow B k
  skipRight : ∀ (i : Nat) A B, sites[i]? = some A → sites[i + 1]? = some B → oc ≤ i → ∀ k, k < B.dims.getD 0 0 → ZeroRow B k → ZeroCol A k

/-- The same around the pair of sites `o`, `o + 1`. -/
structure PairSemi (sites : List (Blk 𝕜)) (o : Nat) : Prop where
  left : ∀ (i : Nat) A, sites[i]? = some A → i < o → LeftSemi A
  right : ∀ (i : Nat) A, sites[i]? = some A → o + 1 < i → RightSemi A
  skipLeft : ∀ (i : Nat) A B, sites[i]? = some A → sites[i + 1]? = some B → i < o → ∀ k, k < A.dims.getD 2 0 → ZeroCol A k → ZeroRow B k
  skipRight : ∀ (i : Nat) A B, sites[i]? = some A → sites[i + 1]? = some B → o + 1 ≤ i → ∀ k, k < B.dims.getD 0 0 → ZeroRow B k → ZeroCol A k

/-- Number of elements of the bond right of site `o` at which the site is not zero. -/
noncomputable def usedBond (sites : List (Blk 𝕜)) (o : Nat) : Nat :=
  open Classical in
  match sites[o]? with
  | some A => ((range (A.dims.getD 2 0)).filter fun k => ¬ ZeroCol A k).card
  | none => 0

end Spec
end QuantiT
