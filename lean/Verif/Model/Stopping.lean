import Verif.Model.Dmrg
import Mathlib.Data.Real.Basic
/-
When the DMRG stops: the comparison of the energy after a sweep with the one before, sources/dmrg.cpp:247 and 310, and the energy
before the first sweep, 222 and 284.
-/
namespace QuantiT
namespace DM

/-- The energy the first sweep is compared with, `100000.0`, dmrg.cpp:222 and 284. -/
def energyBefore : ℝ := 100000

/-- Dense tensors, dmrg.cpp:310: `abs(E0_update - E0) > options.convergence_criterion`, where `E0` is the new energy after the swap. -/
noncomputable def movedAbs (crit : ℝ) (new old : ℝ) : Bool := decide (crit < |old - new|)

/-- Block tensors, dmrg.cpp:247: `((E0 - E0_tens) / E0).abs() > options.convergence_criterion`.  The division by an energy of zero, which
depends on how the zero is stored, is left open: `atZero old` is what the comparison then gives. -/
noncomputable def movedRel (atZero : ℝ → Bool) (crit : ℝ) (new old : ℝ) : Bool :=
  if new = 0 then atZero old else decide (crit < |(new - old) / new|)

end DM
end QuantiT
