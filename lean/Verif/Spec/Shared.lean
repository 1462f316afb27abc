import Mathlib.Logic.Function.Basic
import Verif.Spec.BTensor
/-
Tensors that are handles on shared memory.  A torch tensor is a reference to a buffer together with the way its elements
lie in it; slicing makes another reference to the same buffer.
-/
namespace QuantiT
namespace SH
open Spec
variable {G R : Type}

/-- The contents of every buffer. -/
abbrev Memory (R : Type) := Nat → List Nat → R

/-- A tensor as a reference: the buffer, the sizes, and where in the buffer every element lies. -/
structure TRef where
  buf : Nat
  dims : List Nat
  pos : List Nat → List Nat

/-- The value of a tensor now. -/
def read (m : Memory R) (v : TRef) : Blk R := ⟨v.dims, fun e => m v.buf (v.pos e)⟩

/-- The memory after the assignment of `x` to the element `e` of a tensor. -/
def write (m : Memory R) (v : TRef) (e : List Nat) (x : R) : Memory R :=
  fun b p => if b = v.buf ∧ p = v.pos e then x else m b p

/-- The memory after an operation in place that replaces every element `x` of a tensor by `g x`. -/
def mapInPlace (m : Memory R) (v : TRef) (g : R → R) : Memory R :=
  fun b p => if b = v.buf ∧ p ∈ (Spec.indices v.dims).map v.pos then g (m b p) else m b p

/-- The element of the bulk tensor that the element `e` of the tensor of site `i` is, for a bulk tensor with `rows` rows:
the tensor of the first site is the last row, the tensor of the last site the first column. -/
def place (rows i : Nat) (e : List Nat) : List Nat := if i = 0 then e.set 0 (e.getD 0 0 + (rows - 1)) else e

/-- Assigning to an element of one of the tensors changes no element of the others. -/
def Separate (R : Type) (vs : List TRef) : Prop :=
  ∀ (m : Memory R) (i j : Nat) (v w : TRef) (e f : List Nat) (x : R), vs[i]? = some v → vs[j]? = some w → i ≠ j →
    InRange e v.dims → InRange f w.dims → (read (write m v e x) w).f f = (read m w).f f

end SH
end QuantiT
