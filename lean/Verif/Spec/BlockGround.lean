import Verif.Spec.Ground
import Verif.Spec.Sector
/-
States with a given charge, and the lowest energy among them.
-/
namespace QuantiT
namespace Spec
open Finset Matrix
variable {G 𝕜 : Type} [RCLike 𝕜] [AddCommGroup G]

/-- The charge of a configuration of `L` sites whose states have the charges of `ph`. -/
def totalCharge (ph : Dim G) {L d : Nat} (σ : Fin L → Fin d) : G := ∑ i, chargeAt ph (σ i).val

/-- The state is made of configurations of charge `q` only. -/
def OfCharge (ph : Dim G) (q : G) {L d : Nat} (v : (Fin L → Fin d) → 𝕜) : Prop := ∀ σ, v σ ≠ 0 → totalCharge ph σ = q

/-- `E` is the lowest eigenvalue of `H` that has an eigenvector of charge `q`. -/
def LowestIn (ph : Dim G) (q : G) {L d : Nat} (H : Matrix (Fin L → Fin d) (Fin L → Fin d) 𝕜) (E : ℝ) : Prop :=
  (∃ v, v ≠ 0 ∧ OfCharge ph q v ∧ H *ᵥ v = (E : 𝕜) • v) ∧ ∀ (x : ℝ) v, v ≠ 0 → OfCharge ph q v → H *ᵥ v = (x : 𝕜) • v → E ≤ x

/-- The matrix has no entries between configurations of different charges. -/
def KeepsCharge (ph : Dim G) {L d : Nat} (H : Matrix (Fin L → Fin d) (Fin L → Fin d) 𝕜) : Prop :=
  ∀ τ σ, H τ σ ≠ 0 → totalCharge ph τ = totalCharge ph σ

end Spec
end QuantiT
