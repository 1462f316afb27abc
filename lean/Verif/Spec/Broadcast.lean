import Verif.Spec.BTensor
/-
Broadcasting: dimensions are aligned from the last one, and a dimension of size one is repeated.
-/
namespace QuantiT.Spec
variable {G R : Type}

/-- Where a tensor of sizes `dims` is read for position `o` of a broadcast result: the trailing components of `o`, and 0
along the dimensions of size one. -/
def clip (dims o : List Nat) : List Nat :=
  List.zipWith (fun n i => if n = 1 then 0 else i) dims (o.drop (o.length - dims.length))

/-- One section of size one. -/
def OneElement (d : Dim G) : Prop := d.map Prod.fst = [1]

instance (d : Dim G) : Decidable (OneElement d) := inferInstanceAs (Decidable (_ = _))

/-- Two aligned dimensions fit: equal section sizes, or one of them is one section of size one. -/
def FitDim (d d' : Dim G) : Prop := d.map Prod.fst = d'.map Prod.fst ∨ OneElement d ∨ OneElement d'

instance (d d' : Dim G) : Decidable (FitDim d d') := inferInstanceAs (Decidable (_ ∨ _))

/-- The trailing dimensions fit, as many as the shorter shape has. -/
def Fits (s s' : Shape G) : Prop :=
  List.Forall₂ FitDim (s.drop (s.length - s'.length)) (s'.drop (s'.length - s.length))

/-- A pair that is not a single wide section `d` against the single element `d'`. -/
def NotWide (d d' : Dim G) : Prop := OneElement d' → d.length = 1 → OneElement d

instance (d d' : Dim G) : Decidable (NotWide d d') := inferInstanceAs (Decidable (_ → _ → _))

/-- No aligned pair is a single wide section in the tensor of larger rank (the first one, for equal ranks) against a single
element in the other. -/
def NoWide (s s' : Shape G) : Prop :=
  if s'.length ≤ s.length then List.Forall₂ NotWide (s.drop (s.length - s'.length)) s'
  else List.Forall₂ NotWide (s'.drop (s'.length - s.length)) s

/-- Sizes after broadcasting one pair of dimensions. -/
def bsize (n n' : Nat) : Nat := if n = 1 then n' else n

/-- Sizes after broadcasting: aligned from the last dimension. -/
def bsizes (a b : List Nat) : List Nat :=
  a.take (a.length - b.length) ++ b.take (b.length - a.length) ++
    List.zipWith bsize (a.drop (a.length - b.length)) (b.drop (b.length - a.length))

/-- The element lies in a block that is stored.  The other elements are zero. -/
def Held (shape : Shape G) (blocks : List (List Nat × Blk R)) (e : List Nat) : Prop :=
  ∃ k o b, locateAll shape e = some (k, o) ∧ (k, b) ∈ blocks

end QuantiT.Spec
