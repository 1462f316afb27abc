import Verif.Spec.BTensor
/-
Batched products of matrices.
-/
namespace QuantiT.Spec
variable {G R : Type}

/-- Dimension by dimension the same section sizes, whatever the charges. -/
def SameSizes (s s' : Shape G) : Prop := s.map (List.map Prod.fst) = s'.map (List.map Prod.fst)

instance (s s' : Shape G) : Decidable (SameSizes s s') := inferInstanceAs (Decidable (_ = _))

/-- The sections of the first shape with the charges of both added. -/
def joinCharges [Add G] (s s' : Shape G) : Shape G :=
  List.zipWith (List.zipWith fun x y => (x.1, x.2 + y.2)) s s'

/-- Every dimension has an element. -/
def NonEmpty (s : Shape G) : Prop := ∀ d ∈ s, 0 < dimSize d

instance (s : Shape G) : Decidable (NonEmpty s) := inferInstanceAs (Decidable (∀ _ ∈ _, _))

end QuantiT.Spec
