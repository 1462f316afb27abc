import Verif.Spec.BlockNetwork
import Verif.Spec.Mps
import Verif.Spec.View
/-
What it means for a block state to be in a sector of conserved quantities.
-/
namespace QuantiT.Spec
variable {G R : Type}

/-- The charge of a configuration: the charges of the state chosen on every site, together. -/
def configCharge [AddCommGroup G] (phys : List (Dim G)) (σ : List Nat) : G := (List.zipWith chargeAt phys σ).sum

/-- Every configuration with an amplitude other than zero has the charge `q`. -/
def ChargeSector [AddCommGroup G] [Semiring R] (phys : List (Dim G)) (s : List (BT G R)) (q : G) : Prop :=
  ∀ σ, σ.length = s.length → amp (s.map denseOf) σ 0 0 ≠ 0 → configCharge phys σ = q

end QuantiT.Spec
