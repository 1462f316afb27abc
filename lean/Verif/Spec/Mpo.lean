import Verif.Spec.BTensor
import Mathlib.Algebra.BigOperators.Group.Finset.Basic
import Mathlib.LinearAlgebra.Matrix.ConjTranspose
import Mathlib.LinearAlgebra.Matrix.Notation
/-
What a matrix product operator stands for, and operators on a chain of sites.

A site tensor has four dimensions: left bond, row index, right bond, column index.
-/
namespace QuantiT
namespace Spec
open Finset
variable {R : Type}

/-- Entry of the operator between the row indices `s 0, s 1, …` and the column indices `t 0, t 1, …`, from bond `l` on the
left to bond `r` on the right: the product of the tensors, summed over the bonds between them. -/
def mpoEntry [Semiring R] : List (Blk R) → (Nat → Nat) → (Nat → Nat) → Nat → Nat → R
  | [], _, _, l, r => if l = r then 1 else 0
  | W :: Ws, s, t, l, r => ∑ k ∈ range (W.dims.getD 2 0),
      W.f [l, s 0, k, t 0] * mpoEntry Ws (fun j => s (j + 1)) (fun j => t (j + 1)) k r

/-- A configuration of `L` sites as a sequence, continued by zeros. -/
def extend {L d : Nat} (s : Fin L → Fin d) : Nat → Nat := fun j => if h : j < L then (s ⟨j, h⟩).val else 0

/-- The operator of an MPO with trivial ends, as a matrix indexed by configurations of `L` sites of `d` states. -/
def mpoMatrix [Semiring R] (L d : Nat) (Ws : List (Blk R)) : Matrix (Fin L → Fin d) (Fin L → Fin d) R :=
  fun s t => mpoEntry Ws (extend s) (extend t) 0 0

/-- Tensor product of one operator per site. -/
def tensorOp [CommSemiring R] {L d : Nat} (A : Nat → Matrix (Fin d) (Fin d) R) :
    Matrix (Fin L → Fin d) (Fin L → Fin d) R := fun s t => ∏ k : Fin L, A k.val (s k) (t k)

/-- `A` on site `i`, identity elsewhere. -/
def onSite [CommSemiring R] {L d : Nat} (i : Nat) (A : Matrix (Fin d) (Fin d) R) :
    Matrix (Fin L → Fin d) (Fin L → Fin d) R := tensorOp fun k => if k = i then A else 1

/-- `A` on site `i` and `B` on site `i + 1`, identity elsewhere. -/
def onPair [CommSemiring R] {L d : Nat} (i : Nat) (A B : Matrix (Fin d) (Fin d) R) :
    Matrix (Fin L → Fin d) (Fin L → Fin d) R := tensorOp fun k => if k = i then A else if k = i + 1 then B else 1

/-- Operator of a fermion on site `i` of a chain (Jordan-Wigner): `A` on site `i`, the sign operator `F` on the sites
before it. -/
def jw [CommSemiring R] {L d : Nat} (F : Matrix (Fin d) (Fin d) R) (i : Nat) (A : Matrix (Fin d) (Fin d) R) :
    Matrix (Fin L → Fin d) (Fin L → Fin d) R := tensorOp fun k => if k < i then F else if k = i then A else 1

/-! Pauli matrices and the operators of one site of spin 1/2 fermions (states: empty, up, down, both). -/
section
variable [Ring R]
def sigmaX : Matrix (Fin 2) (Fin 2) R := !![0, 1; 1, 0]
/-- `i σ_y`, a real matrix -/
def iSigmaY : Matrix (Fin 2) (Fin 2) R := !![0, 1; -1, 0]
def sigmaZ : Matrix (Fin 2) (Fin 2) R := !![1, 0; 0, -1]
/-- `S+` and `S-` -/
def sPlus : Matrix (Fin 2) (Fin 2) R := !![0, 1; 0, 0]
def sMinus : Matrix (Fin 2) (Fin 2) R := !![0, 0; 1, 0]
def cUp : Matrix (Fin 4) (Fin 4) R := !![0, 1, 0, 0; 0, 0, 0, 0; 0, 0, 0, 1; 0, 0, 0, 0]
def cDn : Matrix (Fin 4) (Fin 4) R := !![0, 0, 1, 0; 0, 0, 0, -1; 0, 0, 0, 0; 0, 0, 0, 0]
/-- `(-1)^(number of fermions)` -/
def phase : Matrix (Fin 4) (Fin 4) R := !![1, 0, 0, 0; 0, -1, 0, 0; 0, 0, -1, 0; 0, 0, 0, 1]
end

end Spec
end QuantiT
