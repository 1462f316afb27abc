import Verif.Spec.BlockNetwork
/-
When the Lanczos step of block tensors is the one of the tensors they stand for.
-/
namespace QuantiT
namespace Spec
variable {G R : Type}

/-- The blocks of a two-site tensor `ψ` and of its product `ψ'` with the effective Hamiltonian: some block is stored in both,
and no block of `ψ'` comes before all blocks of `ψ`. -/
structure Shared (ψ ψ' : BT G R) : Prop where
  common : ∃ k v v', (k, v) ∈ ψ.blocks ∧ (k, v') ∈ ψ'.blocks
  first : ∀ x ∈ ψ'.blocks, ∃ y ∈ ψ.blocks, y.1 ≤ x.1

end Spec
end QuantiT
