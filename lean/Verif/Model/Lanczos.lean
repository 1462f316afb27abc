import Verif.Base
import Mathlib.Analysis.InnerProductSpace.Symmetric
import Mathlib.Analysis.SpecialFunctions.Pow.Real
/-
Model of the local eigenproblem of dmrg.cpp in exact arithmetic: `eig2x2Mat`, `one_step_lanczos`, `two_sites_update`.

Numbers that may be NaN are `Option ℝ`, `none` for NaN.  Two-site states are vectors of an inner product space, the
effective Hamiltonian (`hamil2site_times_state` for given environments) is a linear map of it.  A fully
contracted `tensordot(x, conj(y))` is the inner product of `y` and `x`.
-/
namespace QuantiT
namespace DM
open Real

/-- Floating point `x / y`.  Division by zero is NaN: the code only meets `0 / 0` there. -/
noncomputable def fdiv (x y : ℝ) : Option ℝ := if y = 0 then none else some (x / y)

/-- Floating point `sqrt`: NaN for a negative argument. -/
noncomputable def fsqrt (x : ℝ) : Option ℝ := if x < 0 then none else some (√x)

/-- `eig2x2Mat_impl`, dmrg.cpp:543-572, for real arguments: energy, coefficient of the old state, coefficient of the new
vector.  `o + E0 == E0` is `o == 0` in exact arithmetic. -/
noncomputable def eig2x2 (a0 a1 b : ℝ) : Res (ℝ × ℝ × ℝ) :=
  let crit := √((a0 - a1) ^ 2 + 4 * (b * b))
  let E0 := (a0 + a1 - crit) / 2
  let delt := E0 - a1
  let o : Option ℝ := (fdiv delt (-crit)).bind fsqrt
  let zeroO : Prop := (∃ x, o = some x ∧ x + E0 = E0) ∨ o = none
  let n : Option ℝ := o.bind fun x => fdiv (b * x) delt
  open Classical in
  let (o, n) := if zeroO then (some 0, some 1) else (o, n)
  match o, n with
  | some o, some n => .ok (E0, o, n)
  | _, _ => Res.throw .logicError

variable {𝕜 V : Type} [RCLike 𝕜] [NormedAddCommGroup V] [InnerProductSpace 𝕜 V]

/-- `one_step_lanczos_impl`, dmrg.cpp:584-608: the new vector, `a0`, `a1` and `b`.  The inner products `a0` and `a1` are
taken as real numbers, which they are for a symmetric `H`. -/
noncomputable def lanczos (H : V →ₗ[𝕜] V) (state : V) : V × ℝ × ℝ × ℝ :=
  let psi := H state
  let a0 := RCLike.re (inner 𝕜 state psi)
  let psi := psi - (a0 : 𝕜) • state
  let b := √(RCLike.re (inner 𝕜 psi psi))
  open Classical in
  let psi := if b ≥ 1e-15 then ((b⁻¹ : ℝ) : 𝕜) • psi else psi
  let a1 := RCLike.re (inner 𝕜 psi (H psi))
  (psi, a0, a1, b)

/-- `two_sites_update_impl`, dmrg.cpp:623-639. -/
noncomputable def twoSitesUpdate (H : V →ₗ[𝕜] V) (state : V) : Res (ℝ × V) := do
  let l := lanczos H state
  let r ← eig2x2 l.2.1 l.2.2.1 l.2.2.2
  .ok (r.1, (r.2.1 : 𝕜) • state + (r.2.2 : 𝕜) • l.1)

end DM
end QuantiT
