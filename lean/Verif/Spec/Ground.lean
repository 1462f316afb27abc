import Verif.Spec.Energy
import Verif.Spec.Mpo
import Mathlib.LinearAlgebra.Matrix.Hermitian
/-
The two Hamiltonians of the library as matrices over the configurations of a chain, and the ground state energy of a
matrix.  Nothing here refers to tensors but `stateVec`.
-/
namespace QuantiT
namespace Spec
open Finset Matrix
variable {𝕜 : Type} [RCLike 𝕜]

/-- The state of a chain of `L` sites with `d` states each: one amplitude for every configuration. -/
def stateVec (L d : Nat) (s : List (Blk 𝕜)) : (Fin L → Fin d) → 𝕜 := fun σ => amp s (List.ofFn fun i => (σ i).val) 0 0

/-- `⟨v|H|v⟩` -/
def expectation {n : Type} [Fintype n] (H : Matrix n n 𝕜) (v : n → 𝕜) : ℝ := RCLike.re (star v ⬝ᵥ (H *ᵥ v))

/-- `⟨v|v⟩ = 1` -/
def Normalised {n : Type} [Fintype n] (v : n → 𝕜) : Prop := star v ⬝ᵥ v = 1

/-- `E` is the lowest eigenvalue of `H`. -/
def Lowest {n : Type} [Fintype n] (H : Matrix n n 𝕜) (E : ℝ) : Prop :=
  (∃ v, v ≠ 0 ∧ H *ᵥ v = (E : 𝕜) • v) ∧ ∀ (x : ℝ) v, v ≠ 0 → H *ᵥ v = (x : 𝕜) • v → E ≤ x

/-- `E` is the highest eigenvalue of `H`. -/
def Highest {n : Type} [Fintype n] (H : Matrix n n 𝕜) (E : ℝ) : Prop :=
  (∃ v, v ≠ 0 ∧ H *ᵥ v = (E : 𝕜) • v) ∧ ∀ (x : ℝ) v, v ≠ 0 → H *ᵥ v = (x : 𝕜) • v → x ≤ E

/-- `-J/4 ∑ (σx σx + σy σy + σz σz)` over neighbours, where `σy σy = - (iσy)(iσy)`. -/
def heisenbergH (J : ℝ) (L : Nat) : Matrix (Fin L → Fin 2) (Fin L → Fin 2) 𝕜 :=
  ∑ i ∈ range (L - 1), (-(J : 𝕜) / 4) • (onPair i sigmaX sigmaX - onPair i iSigmaY iSigmaY + onPair i sigmaZ sigmaZ)

/-- `c` of one spin on site `i`, with the sign of the fermions before it. -/
def fermionAt (L i : Nat) (c : Matrix (Fin 4) (Fin 4) 𝕜) : Matrix (Fin L → Fin 4) (Fin L → Fin 4) 𝕜 := jw phase i c

/-- `∑ (U n↑ n↓ - μ (n↑ + n↓))` over sites plus `∑ (c†_i c_{i+1} + c†_{i+1} c_i)` over neighbours and spins. -/
def hubbardH (U mu : ℝ) (L : Nat) : Matrix (Fin L → Fin 4) (Fin L → Fin 4) 𝕜 :=
  ∑ i ∈ range L, ((U : 𝕜) • ((fermionAt L i cUp)ᴴ * fermionAt L i cUp * ((fermionAt L i cDn)ᴴ * fermionAt L i cDn))
      - (mu : 𝕜) • ((fermionAt L i cUp)ᴴ * fermionAt L i cUp + (fermionAt L i cDn)ᴴ * fermionAt L i cDn)) +
    ∑ i ∈ range (L - 1),
      (((fermionAt L i cUp)ᴴ * fermionAt L (i + 1) cUp + (fermionAt L (i + 1) cUp)ᴴ * fermionAt L i cUp) +
       ((fermionAt L i cDn)ᴴ * fermionAt L (i + 1) cDn + (fermionAt L (i + 1) cDn)ᴴ * fermionAt L i cDn))

end Spec
end QuantiT
