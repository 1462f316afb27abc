import Verif.Spec.BTensor
import Mathlib.Algebra.BigOperators.Group.Finset.Basic
import Mathlib.Algebra.Star.Basic
/-
What a dense matrix product state stands for.

A site is a tensor with three dimensions: left bond, physical index, right bond.  The amplitude of a choice of
physical indices, between a left and a right end of the chain, is the product of the matrices they select.
-/
namespace QuantiT
namespace Spec
open Finset
variable {R : Type}

/-- Sizes of the tensors of a chain: every tensor has the given rank, and the third dimension of each equals
the first dimension of the next. -/
def Linked (rank : Nat) (sizes : List (List Nat)) : Prop :=
  (∀ s ∈ sizes, s.length = rank) ∧
  ∀ i s s', sizes[i]? = some s → sizes[i + 1]? = some s' → s[2]? = s'[0]?

/-- Amplitude: `∑ A₁[l, c₁, k₁] · A₂[k₁, c₂, k₂] ⋯ Aₙ[kₙ₋₁, cₙ, r]` over the bonds `k`. -/
def amp [Semiring R] : List (Blk R) → List Nat → Nat → Nat → R
  | A :: As, c :: cs, l, r => ∑ k ∈ range (A.dims.getD 2 0), A.f [l, c, k] * amp As cs k r
  | _, _, l, r => if l = r then 1 else 0

/-- `∑ conj(A[i, s, a]) · A[i, s, b]` is the identity in `a`, `b`. -/
def LeftOrth [Semiring R] [StarRing R] (A : Blk R) : Prop :=
  ∀ a b, a < A.dims.getD 2 0 → b < A.dims.getD 2 0 →
    ∑ i ∈ range (A.dims.getD 0 0), ∑ s ∈ range (A.dims.getD 1 0), star (A.f [i, s, a]) * A.f [i, s, b]
      = if a = b then 1 else 0

/-- `∑ A[a, s, j] · conj(A[b, s, j])` is the identity in `a`, `b`. -/
def RightOrth [Semiring R] [StarRing R] (A : Blk R) : Prop :=
  ∀ a b, a < A.dims.getD 0 0 → b < A.dims.getD 0 0 →
    ∑ s ∈ range (A.dims.getD 1 0), ∑ j ∈ range (A.dims.getD 2 0), A.f [a, s, j] * star (A.f [b, s, j])
      = if a = b then 1 else 0

/-- All sites before `oc` are left-orthonormal and all sites after it are right-orthonormal. -/
def Canonical [Semiring R] [StarRing R] (sites : List (Blk R)) (oc : Nat) : Prop :=
  (∀ i A, sites[i]? = some A → i < oc → LeftOrth A) ∧
  (∀ i A, sites[i]? = some A → oc < i → RightOrth A)

/-- `svd(A, 2)` of a tensor of sizes `[l, s, r]` gave `u`, `d`, `v`: `A = u · diag d · v†`, `d` is real, and the
columns of `u` are orthonormal. -/
structure SvdRight [Semiring R] [StarRing R] (A u d v : Blk R) (l s r k : Nat) : Prop where
  udims : u.dims = [l, s, k]
  ddims : d.dims = [k]
  vdims : v.dims = [r, k]
  real : ∀ m, m < k → star (d.f [m]) = d.f [m]
  prod : ∀ i c j, i < l → c < s → j < r →
    A.f [i, c, j] = ∑ m ∈ range k, u.f [i, c, m] * d.f [m] * star (v.f [j, m])
  orth : ∀ a b, a < k → b < k →
    ∑ i ∈ range l, ∑ c ∈ range s, star (u.f [i, c, a]) * u.f [i, c, b] = if a = b then 1 else 0

/-- `svd(A, 1)` of a tensor of sizes `[l, s, r]` gave `u`, `d`, `v`: `A = u · diag d · v†`, and the columns of
`v` are orthonormal. -/
structure SvdLeft [Semiring R] [StarRing R] (A u d v : Blk R) (l s r k : Nat) : Prop where
  udims : u.dims = [l, k]
  ddims : d.dims = [k]
  vdims : v.dims = [s, r, k]
  prod : ∀ i c j, i < l → c < s → j < r →
    A.f [i, c, j] = ∑ m ∈ range k, u.f [i, m] * d.f [m] * star (v.f [c, j, m])
  orth : ∀ a b, a < k → b < k →
    ∑ c ∈ range s, ∑ j ∈ range r, star (v.f [c, j, a]) * v.f [c, j, b] = if a = b then 1 else 0

/-- An SVD routine does its job on every tensor with three dimensions. -/
structure SvdOk [Semiring R] [StarRing R] (svd : Blk R → Nat → Blk R × Blk R × Blk R) : Prop where
  right : ∀ A l s r, A.dims = [l, s, r] →
    ∃ k, SvdRight A (svd A 2).1 (svd A 2).2.1 (svd A 2).2.2 l s r k
  left : ∀ A l s r, A.dims = [l, s, r] →
    ∃ k, SvdLeft A (svd A 1).1 (svd A 1).2.1 (svd A 1).2.2 l s r k

end Spec
end QuantiT

namespace QuantiT
namespace Spec
variable {R : Type}

/-- Neighbouring tensors of a block chain fit, charges only: same number of sections on the shared bond, and
opposite charges. -/
def ChargeLinked {G : Type} [AddCommMonoid G] (rank : Nat) (chain : List (Shape G)) : Prop :=
  (∀ s ∈ chain, s.length = rank) ∧
  ∀ i s s', chain[i]? = some s → chain[i + 1]? = some s' →
    List.Forall₂ (fun (x y : Nat × G) => x.2 + y.2 = 0) (s.getD 2 []) (s'.getD 0 [])

/-- Size of the left end of a chain. -/
def leftEnd (s : List (Blk R)) : Nat := match s.head? with
  | some A => A.dims.getD 0 0
  | none => 0

/-- Size of the right end of a chain. -/
def rightEnd (s : List (Blk R)) : Nat := match s.getLast? with
  | some A => A.dims.getD 2 0
  | none => 0

/-- Sizes of the physical indices of a chain. -/
def phys (s : List (Blk R)) : List Nat := s.map fun A => A.dims.getD 1 0

/-- Two chains represent the same state: same physical indices, same ends, same amplitudes. -/
structure SameState [Semiring R] (s s' : List (Blk R)) : Prop where
  phys : phys s' = phys s
  left : leftEnd s' = leftEnd s
  right : rightEnd s' = rightEnd s
  amp : ∀ cs l r, InRange cs (Spec.phys s) → l < leftEnd s → r < rightEnd s → amp s' cs l r = amp s cs l r

end Spec
end QuantiT
