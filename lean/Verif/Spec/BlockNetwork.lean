import Verif.Spec.Network
import Verif.Spec.View
import Verif.Model.BTensor
/-
What chains of block tensors stand for: the dense chains of their entries.  (The model is imported for the record `BT`
of a block tensor only.)
-/
namespace QuantiT
namespace Spec
variable {G R : Type}

/-- The dense tensor with the entries of a block tensor. -/
def denseOf [Zero R] (t : BT G R) : Blk R := ⟨t.shape.map dimSize, entry t.shape t.blocks⟩

/-- A block tensor as the library makes them: well formed, and fewer than 2^63 sections along every dimension. -/
def Sound [AddCommMonoid G] (t : BT G R) : Prop :=
  Conserving t.shape t.rule t.blocks ∧ ∀ d ∈ t.shape, d.length < 2 ^ 63

/-- Two dimensions can be contracted: section by section, equal sizes and opposite charges. -/
def Opposite [AddCommMonoid G] (d d' : Dim G) : Prop := List.Forall₂ (fun s s' => s.1 = s'.1 ∧ s.2 + s'.2 = 0) d d'

/-- A chain of block tensors of the given rank: the third dimension of each can be contracted with the first dimension
of the next. -/
def Chained [AddCommMonoid G] (rank : Nat) (ts : List (BT G R)) : Prop :=
  (∀ t ∈ ts, Sound t ∧ t.shape.length = rank) ∧
  ∀ i t t', ts[i]? = some t → ts[i + 1]? = some t' → Opposite (t.shape.getD 2 []) (t'.shape.getD 0 [])

/-- A block operator chain fits between two block states: as many tensors, bonds that fit, columns that can be contracted
with the physical dimensions of `a`, rows equal to the physical dimensions of `b`. -/
structure BlockFit [AddCommMonoid G] (a Ws b : List (BT G R)) : Prop where
  ket : Chained 3 a
  op : Chained 4 Ws
  bra : Chained 3 b
  cols : List.Forall₂ (fun A W => Opposite (A.shape.getD 1 []) (W.shape.getD 3 [])) a Ws
  rows : List.Forall₂ (fun W B => W.shape.getD 1 [] = B.shape.getD 1 []) Ws b

/-- Two block states that can be overlapped: as many tensors, bonds that fit, equal physical dimensions. -/
structure BlockFit2 [AddCommMonoid G] (a b : List (BT G R)) : Prop where
  ket : Chained 3 a
  bra : Chained 3 b
  sites : List.Forall₂ (fun A B => A.shape.getD 1 [] = B.shape.getD 1 []) a b

/-- First dimension of a chain. -/
def leftDim (ts : List (BT G R)) : Dim G := match ts.head? with
  | some t => t.shape.getD 0 []
  | none => []

/-- Last dimension of a chain. -/
def rightDim (ts : List (BT G R)) : Dim G := match ts.getLast? with
  | some t => t.shape.getD 2 []
  | none => []

/-- The rule left on the dimension marked `-1` when the other dimensions are taken at the elements given: the charge
that an element along it must have to be allowed there. -/
def endRule [AddCommGroup G] (t : BT G R) (inds : List Int) : G := t.rule - fixedCharge t.shape inds

/-- The element `w` of an end of the operator is summed by the default edges: its charge is that of the first element;
its opposite when the arguments are evaluated late. -/
def EdgeOk [AddCommGroup G] (late : Bool) (d : Dim G) (w : Nat) : Prop :=
  chargeAt d w = if late then -chargeAt d 0 else chargeAt d 0

instance [AddCommGroup G] [DecidableEq G] (late : Bool) (d : Dim G) (w : Nat) : Decidable (EdgeOk late d w) :=
  inferInstanceAs (Decidable (_ = _))

end Spec
end QuantiT

namespace QuantiT
namespace Spec
variable {G R : Type}

/-- Some amplitude of a chain is not zero. -/
def NonZero [Semiring R] (s : List (Blk R)) : Prop :=
  ∃ cs l r, InRange cs (phys s) ∧ l < leftEnd s ∧ r < rightEnd s ∧ amp s cs l r ≠ 0

/-- Two block chains with the same outer dimensions, charges included: the physical ones and both ends; and the same
total rule. -/
structure SameOuter [AddCommMonoid G] (s s' : List (BT G R)) : Prop where
  phys : s'.map (fun t => t.shape.getD 1 []) = s.map fun t => t.shape.getD 1 []
  left : leftDim s' = leftDim s
  right : rightDim s' = rightDim s
  rule : (s'.map BT.rule).sum = (s.map BT.rule).sum

end Spec
end QuantiT
