import Verif.Spec.Dmrg
import Mathlib.Data.Real.Basic
/-
When a ground state search should stop.
-/
namespace QuantiT
namespace Spec
variable {S En : Type}

/-- The energies a logger heard after each sweep, in order. -/
def energies : List (Event S En) → List En
  | [] => []
  | .iteration _ e _ :: log => e :: energies log
  | _ :: log => energies log

/-- The search ended because the energy settled: `near new old` holds for the energy `e` of the last sweep and the one before it, which is `e0`
if there was one sweep only. -/
def SettledAt (near : En → En → Prop) (e0 : En) (log : List (Event S En)) (e : En) : Prop :=
  ∃ l x, e0 :: energies log = l ++ [x, e] ∧ near e x

end Spec
end QuantiT
