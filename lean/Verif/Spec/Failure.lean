import Verif.Model.Failure
/-
What a user may expect of a modifying call that throws.
-/
namespace QuantiT.Spec
variable {G R : Type}

/-- If the call throws, the tensor it was called on is what it was before the call: shape, rule and blocks. -/
def Unharmed (o : BT.Outcome G R) (t : BT G R) : Prop :=
  ∀ e w, o = .threw e w → w.shape = t.shape ∧ w.rule = t.rule ∧ w.cells = t.blocks.map some

/-- The trailing dimensions of the two shapes have equally many sections, or one of the two is a single element. -/
def CountsFit (s s' : Shape G) : Prop :=
  List.Forall₂ (fun d d' => d.length = d'.length ∨ OneElement d ∨ OneElement d') (s.drop (s.length - s'.length))
    (s'.drop (s'.length - s.length))

end QuantiT.Spec
