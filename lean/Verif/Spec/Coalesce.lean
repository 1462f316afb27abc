import Verif.Spec.BlockNetwork
/-
What the compression of an operator chain should keep, and what it should achieve.
-/
namespace QuantiT.Spec
open Finset
variable {G R : Type}

/-- Every charge of every bond between two tensors is within reach from the left end: for every element of the bond the tensors to
the left of it have an entry that is not zero between the left end and an element of the bond with the same charge. -/
def Reached [AddCommMonoid G] [Semiring R] (Ws : List (BT G R)) : Prop :=
  ∀ i, i + 1 < Ws.length → ∀ k, k < dimSize (rightDim (Ws.take (i + 1))) → ∃ k' l τ σ,
    chargeAt (rightDim (Ws.take (i + 1))) k' = chargeAt (rightDim (Ws.take (i + 1))) k ∧ mpoEntry ((Ws.take (i + 1)).map denseOf) τ σ l k' ≠ 0

/-- Two operator chains with the same outer dimensions, charges included: the rows, the columns and both ends; and the same selection rules. -/
structure SameOuterOp [AddCommMonoid G] (Ws Ws' : List (BT G R)) : Prop where
  rows : Ws'.map (fun W => W.shape.getD 1 []) = Ws.map fun W => W.shape.getD 1 []
  cols : Ws'.map (fun W => W.shape.getD 3 []) = Ws.map fun W => W.shape.getD 3 []
  left : leftDim Ws' = leftDim Ws
  right : rightDim Ws' = rightDim Ws
  rule : Ws'.map BT.rule = Ws.map BT.rule

/-- No element of a bond between two tensors is redundant: the operators that the tensors to the left of the bond make, one for every
element of the bond, are linearly independent. -/
def LeftIndependent [Semiring R] (Ws : List (BT G R)) : Prop :=
  ∀ i, i + 1 < Ws.length → ∀ c : Nat → R,
    (∀ τ σ l, ∑ k ∈ range (dimSize (rightDim (Ws.take (i + 1)))), mpoEntry ((Ws.take (i + 1)).map denseOf) τ σ l k * c k = 0) →
    ∀ k, k < dimSize (rightDim (Ws.take (i + 1))) → c k = 0

/-- The selection rules and the outer dimensions of the operator: neutral rules, rows `ph`, columns the opposite of `ph`, bonds of at
most `D` elements. -/
def OuterOf [AddCommGroup G] (ph : Dim G) (D : Nat) (Ws : List (BT G R)) : Prop :=
  ∀ T ∈ Ws, T.rule = 0 ∧ T.shape.getD 1 [] = ph ∧ T.shape.getD 3 [] = flipped ph ∧ dimSize (T.shape.getD 2 []) ≤ D

end QuantiT.Spec
