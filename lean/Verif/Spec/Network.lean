import Verif.Spec.Mps
import Verif.Spec.Mpo
/-
What contractions of chains stand for: sums over configurations of the physical indices.
-/
namespace QuantiT
namespace Spec
open Finset
variable {R : Type}

/-- All multi-indices of the given sizes, as a set. -/
def configs (ds : List Nat) : Finset (List Nat) := (indices ds).toFinset

/-- Entry of the operator of an MPO between the row indices `τ` and the column indices `σ`, from bond `w` on the left to
bond `w'` on the right. -/
def opEntry [Semiring R] (Ws : List (Blk R)) (τ σ : List Nat) (w w' : Nat) : R :=
  mpoEntry Ws (fun j => τ.getD j 0) (fun j => σ.getD j 0) w w'

/-- `⟨b| O |a⟩` between given ends: `∑ a(σ) · O(τ, σ) · conj b(τ)` over all configurations `σ` of `a` and `τ` of `b`. -/
def sandwich [CommSemiring R] [StarRing R] (a Ws b : List (Blk R)) (l w l' r w' r' : Nat) : R :=
  ∑ σ ∈ configs (phys a), ∑ τ ∈ configs (phys b), amp a σ l r * opEntry Ws τ σ w w' * star (amp b τ l' r')

/-- `⟨b|a⟩` between given ends: `∑ a(σ) · conj b(σ)` over all configurations. -/
def overlap [CommSemiring R] [StarRing R] (a b : List (Blk R)) (l l' r r' : Nat) : R :=
  ∑ σ ∈ configs (phys a), amp a σ l r * star (amp b σ l' r')

/-- Amplitude of a chain in which two neighbouring sites are given by one tensor `θ` with dimensions
[left bond, first site, second site, right bond]. -/
def pairAmp [CommSemiring R] (pre : List (Blk R)) (θ : Blk R) (post : List (Blk R)) (σ : List Nat) (l r : Nat) : R :=
  ∑ k ∈ range (θ.dims.getD 0 0), ∑ k' ∈ range (θ.dims.getD 3 0),
    amp pre (σ.take pre.length) l k * θ.f [k, σ.getD pre.length 0, σ.getD (pre.length + 1) 0, k']
      * amp post (σ.drop (pre.length + 2)) k' r

/-- `⟨Ψ(φ)| O |Ψ(θ)⟩` between given ends, for the states in which two sites are given by `φ` and by `θ`. -/
def pairSandwich [CommSemiring R] [StarRing R] (pre : List (Blk R)) (θ φ : Blk R) (post Ws : List (Blk R)) (ds : List Nat)
    (l w l' r w' r' : Nat) : R :=
  ∑ σ ∈ configs ds, ∑ τ ∈ configs ds,
    pairAmp pre θ post σ l r * opEntry Ws τ σ w w' * star (pairAmp pre φ post τ l' r')

/-- The sizes of the dimensions marked with `-1`, in order. -/
def selected : List Nat → List Int → List Nat
  | n :: ns, i :: is => if i = -1 then n :: selected ns is else selected ns is
  | _, _ => []

/-- An operator chain fits between two states: as many tensors, bonds that fit, column sizes those of `a`, row sizes
those of `b`. -/
structure Fit (a Ws b : List (Blk R)) : Prop where
  ket : Linked 3 (a.map Blk.dims)
  op : Linked 4 (Ws.map Blk.dims)
  bra : Linked 3 (b.map Blk.dims)
  cols : phys a = Ws.map fun W => W.dims.getD 3 0
  rows : phys b = Ws.map fun W => W.dims.getD 1 0

end Spec
end QuantiT
