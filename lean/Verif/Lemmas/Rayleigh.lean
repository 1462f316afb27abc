import Mathlib.Analysis.InnerProductSpace.Symmetric
import Mathlib.Analysis.SpecialFunctions.Sqrt
/-
Expectation values of a symmetric operator in two vectors that are close to each other.
-/
namespace QuantiT
namespace DM
variable {𝕜 V : Type} [RCLike 𝕜] [NormedAddCommGroup V] [InnerProductSpace 𝕜 V]

/-- A symmetric form between `-h` and `h` times the square of the norm is at most `h` times the norms. -/
theorem form_bound (B : V → V → ℝ) (hadd : ∀ x y z, B (x + y) z = B x z + B y z) (hsmul : ∀ (t : ℝ) x z, B ((t : 𝕜) • x) z = t * B x z)
    (hsym : ∀ x y, B x y = B y x) (h : ℝ) (hB : ∀ x, |B x x| ≤ h * ‖x‖ ^ 2) (x y : V) : |B x y| ≤ h * (‖x‖ * ‖y‖) := by
  have hadd' : ∀ x y z, B z (x + y) = B z x + B z y := fun x y z => by rw [hsym, hadd, hsym x, hsym y]
  have hsmul' : ∀ (t : ℝ) x z, B z ((t : 𝕜) • x) = t * B z x := fun t x z => by rw [hsym, hsmul, hsym x]
  rcases eq_or_ne x 0 with rfl | hx
  · have : B 0 y = 0 := by simpa using hsmul 0 0 y
    rw [this]; simp
  rcases eq_or_ne y 0 with rfl | hy
  · have : B x 0 = 0 := by simpa using hsmul' 0 0 x
    rw [this]; simp
  have nx : 0 < ‖x‖ := norm_pos_iff.2 hx
  have ny : 0 < ‖y‖ := norm_pos_iff.2 hy
  have hp := hB (((‖y‖ : ℝ) : 𝕜) • x + ((‖x‖ : ℝ) : 𝕜) • y)
  have hr := hB (((‖y‖ : ℝ) : 𝕜) • x + ((-‖x‖ : ℝ) : 𝕜) • y)
  simp only [hadd, hadd', hsmul, hsmul'] at hp hr
  have hpar : ‖((‖y‖ : ℝ) : 𝕜) • x + ((‖x‖ : ℝ) : 𝕜) • y‖ ^ 2 + ‖((‖y‖ : ℝ) : 𝕜) • x + ((-‖x‖ : ℝ) : 𝕜) • y‖ ^ 2
      = 4 * (‖x‖ * ‖y‖) ^ 2 := by
    have h1 := parallelogram_law_with_norm 𝕜 (((‖y‖ : ℝ) : 𝕜) • x) (((‖x‖ : ℝ) : 𝕜) • y)
    have h2 : ((-‖x‖ : ℝ) : 𝕜) • y = -(((‖x‖ : ℝ) : 𝕜) • y) := by push_cast; rw [neg_smul]
    rw [h2, ← sub_eq_add_neg]
    simp only [norm_smul, RCLike.norm_ofReal, abs_norm] at h1
    nlinarith
  rw [hsym y x] at hp hr
  have hxy : 0 < ‖x‖ * ‖y‖ := mul_pos nx ny
  have key : |4 * (‖x‖ * ‖y‖) * B x y| ≤ h * (4 * (‖x‖ * ‖y‖) ^ 2) := by
    rw [← hpar, mul_add]
    rw [abs_le] at hp hr ⊢
    constructor <;> nlinarith
  rw [abs_mul, abs_of_pos (by positivity : (0 : ℝ) < 4 * (‖x‖ * ‖y‖))] at key
  have : 4 * (‖x‖ * ‖y‖) * |B x y| ≤ 4 * (‖x‖ * ‖y‖) * (h * (‖x‖ * ‖y‖)) := by nlinarith
  exact le_of_mul_le_mul_left this (by positivity)

/-- Expectation values of a symmetric operator with spectrum between `lo` and `hi`, in two vectors of norm one with overlap `c`. -/
theorem rayleigh_close (T : V →ₗ[𝕜] V) (hT : T.IsSymmetric) (lo hi : ℝ) (hlo : ∀ x, lo * ‖x‖ ^ 2 ≤ RCLike.re (inner 𝕜 x (T x)))
    (hhi : ∀ x, RCLike.re (inner 𝕜 x (T x)) ≤ hi * ‖x‖ ^ 2) (θ φ : V) (hθ : ‖θ‖ = 1) (hφ : ‖φ‖ = 1) :
    |RCLike.re (inner 𝕜 θ (T θ)) - RCLike.re (inner 𝕜 φ (T φ))| ≤ (hi - lo) * √(1 - RCLike.re (inner 𝕜 φ θ) ^ 2) := by
  let m := (lo + hi) / 2
  let B : V → V → ℝ := fun x y => RCLike.re (inner 𝕜 x (T y)) - m * RCLike.re (inner 𝕜 x y)
  have hsym : ∀ x y, B x y = B y x := by
    intro x y
    show RCLike.re (inner 𝕜 x (T y)) - _ = RCLike.re (inner 𝕜 y (T x)) - _
    rw [← hT x y, ← inner_conj_symm (T x) y, RCLike.conj_re, ← inner_conj_symm x y, RCLike.conj_re]
  have hadd : ∀ x y z, B (x + y) z = B x z + B y z := by
    intro x y z
    simp only [B, inner_add_left, map_add]; ring
  have hsmul : ∀ (t : ℝ) x z, B ((t : 𝕜) • x) z = t * B x z := by
    intro t x z
    simp only [B, inner_smul_left, RCLike.conj_ofReal, RCLike.re_ofReal_mul]; ring
  have hself : ∀ x, B x x = RCLike.re (inner 𝕜 x (T x)) - m * ‖x‖ ^ 2 := by
    intro x
    show _ - m * RCLike.re (inner 𝕜 x x) = _
    rw [inner_self_eq_norm_sq]
  have hB : ∀ x, |B x x| ≤ (hi - lo) / 2 * ‖x‖ ^ 2 := by
    intro x
    rw [hself, abs_le]
    have := hlo x
    have := hhi x
    constructor <;> simp only [m] <;> nlinarith
  have hb := form_bound B hadd hsmul hsym _ hB (θ - φ) (θ + φ)
  have e1 : B (θ - φ) (θ + φ) = RCLike.re (inner 𝕜 θ (T θ)) - RCLike.re (inner 𝕜 φ (T φ)) := by
    have : θ - φ = θ + ((-1 : ℝ) : 𝕜) • φ := by push_cast; rw [neg_smul, one_smul, sub_eq_add_neg]
    rw [this, hadd, hsmul, hsym θ (θ + φ), hsym φ (θ + φ), hadd, hadd, hself, hself, hθ, hφ, hsym φ θ]
    ring
  rw [e1] at hb
  refine hb.trans (le_of_eq ?_)
  have n1 : ‖θ - φ‖ ^ 2 = 2 - 2 * RCLike.re (inner 𝕜 φ θ) := by
    rw [@norm_sub_sq 𝕜, hθ, hφ, ← inner_conj_symm, RCLike.conj_re]; ring
  have n2 : ‖θ + φ‖ ^ 2 = 2 + 2 * RCLike.re (inner 𝕜 φ θ) := by
    rw [@norm_add_sq 𝕜, hθ, hφ, ← inner_conj_symm, RCLike.conj_re]; ring
  have n3 : ‖θ - φ‖ * ‖θ + φ‖ = 2 * √(1 - RCLike.re (inner 𝕜 φ θ) ^ 2) := by
    have h4 : (‖θ - φ‖ * ‖θ + φ‖) ^ 2 = 4 * (1 - RCLike.re (inner 𝕜 φ θ) ^ 2) := by
      rw [mul_pow, n1, n2]; ring
    have h0 : 0 ≤ ‖θ - φ‖ * ‖θ + φ‖ := by positivity
    rw [← Real.sqrt_sq h0, h4, Real.sqrt_mul (by norm_num), show √(4 : ℝ) = 2 by rw [show (4 : ℝ) = 2 ^ 2 by norm_num]; exact Real.sqrt_sq (by norm_num)]
  rw [n3]; ring

end DM
end QuantiT
