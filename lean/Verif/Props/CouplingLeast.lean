import Verif.Props.CouplingTypes
/-
C123: the least integer of a type as the coupling of the Heisenberg chain.
-/
namespace QuantiT
namespace HM
open Spec Finset

/-- **C123 fails** for the least integer of a type: its opposite does not exist, and `Heisenberg(J, L)` is the Hamiltonian with the
opposite coupling. -/
theorem C123_least_fails (bits : Nat) (hb : 1 ≤ bits) (L : Nat) :
    heisenbergT (.int bits (-2 ^ (bits - 1))) L = heisenberg (2 ^ (bits - 1) : ℂ) L := by
  have w : wrapInt bits (2 ^ (bits - 1)) = -2 ^ (bits - 1) := by
    obtain ⟨b, rfl⟩ : ∃ b, bits = b + 1 := ⟨bits - 1, by omega⟩
    unfold wrapInt
    rw [Int.bmod_def]
    have p : (0 : ℤ) < 2 ^ b := by positivity
    have e : ((2 ^ (b + 1) : ℕ) : ℤ) = 2 * 2 ^ b := by push_cast; ring
    simp only [Nat.add_sub_cancel, e]
    rw [Int.emod_eq_of_lt (by omega) (by omega)]
    split <;> omega
  unfold heisenbergT heisenberg heisenbergImpl
  simp only [Num.neg, Num.quarter, neg_neg, w, heisenbergTensorT_real, bind, Except.bind]
  push_cast
  rfl

/-- The premise is met: `Heisenberg` of a tensor of 8 bits that holds -128 is the Hamiltonian with 128. -/
example : heisenbergT (.int 8 (-128)) 3 = heisenberg 128 3 := by
  have := C123_least_fails 8 (by omega) 3
  norm_num at this
  exact this

end HM
end QuantiT
