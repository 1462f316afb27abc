import Verif.Model.Lanczos
import Mathlib.Analysis.InnerProductSpace.PiL2
import Mathlib.Tactic.Linarith
import Mathlib.Tactic.FieldSimp
import Mathlib.Tactic.Ring
import Mathlib.Tactic.LinearCombination
/-
The two by two eigenproblem (C53) and the local update (C54), in exact arithmetic.
-/
namespace QuantiT
namespace DM
open Real

/-- What `eig2x2` returns, case by case. -/
theorem eig2x2_eq (a0 a1 b : ℝ) :
    let crit := √((a0 - a1) ^ 2 + 4 * (b * b))
    let E := (a0 + a1 - crit) / 2
    (E - a1 = 0 → eig2x2 a0 a1 b = .ok (E, 0, 1)) ∧
    (E - a1 ≠ 0 → 0 < crit ∧ E - a1 < 0 ∧
      eig2x2 a0 a1 b = .ok (E, √((E - a1) / (-crit)), b * √((E - a1) / (-crit)) / (E - a1))) := by
  intro crit E
  have hc : 0 ≤ crit := Real.sqrt_nonneg _
  have hsq : crit ^ 2 = (a0 - a1) ^ 2 + 4 * (b * b) := Real.sq_sqrt (by nlinarith [mul_self_nonneg b, sq_nonneg (a0 - a1)])
  have hle : E - a1 ≤ 0 := by
    have : a0 - a1 ≤ crit := by
      refine abs_le_of_sq_le_sq' ?_ hc |>.2
      nlinarith [mul_self_nonneg b]
    simp only [E]; linarith
  constructor
  · intro hd
    unfold eig2x2
    have hz : ((fdiv ((a0 + a1 - √((a0 - a1) ^ 2 + 4 * (b * b))) / 2 - a1) (-√((a0 - a1) ^ 2 + 4 * (b * b)))).bind fsqrt) = none ∨
        ((fdiv ((a0 + a1 - √((a0 - a1) ^ 2 + 4 * (b * b))) / 2 - a1) (-√((a0 - a1) ^ 2 + 4 * (b * b)))).bind fsqrt) = some 0 := by
      unfold fdiv
      split
      · left; rfl
      · right
        have : (a0 + a1 - √((a0 - a1) ^ 2 + 4 * (b * b))) / 2 - a1 = 0 := hd
        rw [this]
        simp [fsqrt]
    simp only
    rw [if_pos]
    rcases hz with hz | hz
    · right; exact hz
    · left; exact ⟨0, hz, by ring⟩
  · intro hd
    have hlt : E - a1 < 0 := lt_of_le_of_ne hle hd
    have hcp : 0 < crit := by
      rcases hc.lt_or_eq with h | h
      · exact h
      · exfalso
        have h0 : (a0 - a1) ^ 2 + 4 * (b * b) = 0 := by rw [← hsq, ← h]; ring
        have h1 : a0 - a1 = 0 := by nlinarith [mul_self_nonneg b, sq_nonneg (a0 - a1)]
        apply hd
        simp only [E]; rw [← h]; linarith
    refine ⟨hcp, hlt, ?_⟩
    have hpos : 0 < (E - a1) / (-crit) := div_pos_of_neg_of_neg hlt (by linarith)
    have ho : ((fdiv (E - a1) (-crit)).bind fsqrt) = some (√((E - a1) / (-crit))) := by
      unfold fdiv
      rw [if_neg (by linarith)]
      show fsqrt _ = _
      unfold fsqrt
      rw [if_neg (by linarith)]
    have hop : 0 < √((E - a1) / (-crit)) := Real.sqrt_pos.2 hpos
    unfold eig2x2
    have ho' : (fdiv ((a0 + a1 - √((a0 - a1) ^ 2 + 4 * (b * b))) / 2 - a1) (-√((a0 - a1) ^ 2 + 4 * (b * b)))).bind fsqrt
      = some (√((E - a1) / (-crit))) := ho
    simp only [ho']
    rw [if_neg]
    · have hd' : ¬ ((a0 + a1 - √((a0 - a1) ^ 2 + 4 * (b * b))) / 2 - a1 = 0) := hd
      simp only [Option.bind_some, fdiv, if_neg hd']
      rfl
    · rintro (⟨x, hx, h⟩ | h)
      · cases hx; linarith
      · cases h

/-- **C53**: for all real `a0`, `a1`, `b`, `eig2x2Mat` returns (never throws) an eigenvalue of `[[a0, b], [b, a1]]` with a
unit eigenvector, and it is the smallest: the quadratic form of the matrix is nowhere below it, and no eigenvalue is. -/
theorem C53_lowest (a0 a1 b : ℝ) : ∃ E o n, eig2x2 a0 a1 b = .ok (E, o, n) ∧ o ^ 2 + n ^ 2 = 1 ∧
    a0 * o + b * n = E * o ∧ b * o + a1 * n = E * n ∧
    (∀ x y : ℝ, E * (x ^ 2 + y ^ 2) ≤ a0 * x ^ 2 + 2 * b * x * y + a1 * y ^ 2) ∧
    (∀ l x y : ℝ, (x ≠ 0 ∨ y ≠ 0) → a0 * x + b * y = l * x → b * x + a1 * y = l * y → E ≤ l) := by
  obtain ⟨h1, h2⟩ := eig2x2_eq a0 a1 b
  generalize hcd : √((a0 - a1) ^ 2 + 4 * (b * b)) = crit at h1 h2
  have hsq : crit ^ 2 = (a0 - a1) ^ 2 + 4 * (b * b) := by rw [← hcd]; exact Real.sq_sqrt (by nlinarith [mul_self_nonneg b, sq_nonneg (a0 - a1)])
  generalize hE : (a0 + a1 - crit) / 2 = E at h1 h2
  have hcE : crit = a0 + a1 - 2 * E := by linarith
  have hdet : (a0 - E) * (a1 - E) = b ^ 2 := by rw [hcE] at hsq; nlinarith
  have hc : 0 ≤ crit := by rw [← hcd]; exact Real.sqrt_nonneg _
  -- both diagonal entries lie above E
  have hA : 0 ≤ a0 - E ∧ 0 ≤ a1 - E := by
    have hs : 0 ≤ (a0 - E) + (a1 - E) := by linarith
    have hp : 0 ≤ (a0 - E) * (a1 - E) := by rw [hdet]; positivity
    rcases le_total 0 (a0 - E) with h | h
    · refine ⟨h, ?_⟩
      rcases h.lt_or_eq with h' | h'
      · by_contra hn; push Not at hn; nlinarith
      · linarith
    · have : 0 ≤ a1 - E := by linarith
      refine ⟨?_, this⟩
      rcases this.lt_or_eq with h' | h'
      · by_contra hn; push Not at hn; nlinarith
      · linarith
  have hform : ∀ x y : ℝ, E * (x ^ 2 + y ^ 2) ≤ a0 * x ^ 2 + 2 * b * x * y + a1 * y ^ 2 := by
    intro x y
    -- (a0-E) x² + 2 b x y + (a1-E) y² ≥ 0
    have key : 0 ≤ (a0 - E) * x ^ 2 + 2 * b * x * y + (a1 - E) * y ^ 2 := by
      rcases hA.1.lt_or_eq with h | h
      · have : (a0 - E) * ((a0 - E) * x ^ 2 + 2 * b * x * y + (a1 - E) * y ^ 2) = ((a0 - E) * x + b * y) ^ 2 := by
          linear_combination y ^ 2 * hdet
        by_contra hn
        push Not at hn
        nlinarith [sq_nonneg ((a0 - E) * x + b * y)]
      · have hb : b = 0 := by
          rw [← h, zero_mul] at hdet
          exact pow_eq_zero_iff (two_ne_zero) |>.1 hdet.symm
        rw [← h, hb]
        have := mul_nonneg hA.2 (sq_nonneg y)
        linarith
    nlinarith
  have heig : ∀ l x y : ℝ, (x ≠ 0 ∨ y ≠ 0) → a0 * x + b * y = l * x → b * x + a1 * y = l * y → E ≤ l := by
    intro l x y hne e1 e2
    have hpos : 0 < x ^ 2 + y ^ 2 := by
      rcases hne with h | h
      · have := sq_pos_of_ne_zero h; nlinarith [sq_nonneg y]
      · have := sq_pos_of_ne_zero h; nlinarith [sq_nonneg x]
    have := hform x y
    have e3 : a0 * x ^ 2 + 2 * b * x * y + a1 * y ^ 2 = l * (x ^ 2 + y ^ 2) := by
      linear_combination x * e1 + y * e2
    rw [e3] at this
    exact le_of_mul_le_mul_right this hpos
  by_cases hd : E - a1 = 0
  · refine ⟨E, 0, 1, h1 hd, by norm_num, ?_, ?_, hform, heig⟩
    · have : b ^ 2 = 0 := by rw [← hdet]; rw [show a1 - E = -(E - a1) by ring, hd]; ring
      have hb : b = 0 := pow_eq_zero_iff (two_ne_zero) |>.1 this
      rw [hb]; ring
    · linarith
  · obtain ⟨hcp, hlt, he⟩ := h2 hd
    have hsqo : √((E - a1) / (-crit)) ^ 2 = (E - a1) / (-crit) :=
      Real.sq_sqrt (le_of_lt (div_pos_of_neg_of_neg hlt (by linarith)))
    generalize √((E - a1) / (-crit)) = o at he hsqo
    have hne : crit ≠ 0 := ne_of_gt hcp
    have hoc : o ^ 2 * crit = a1 - E := by
      rw [hsqo]; field_simp; ring
    refine ⟨E, o, b * o / (E - a1), he, ?_, ?_, ?_, hform, heig⟩
    · have : (o ^ 2 + (b * o / (E - a1)) ^ 2) = 1 := by
        rw [div_pow, mul_pow, ← hdet]
        have : (E - a1) ^ 2 ≠ 0 := pow_ne_zero _ hd
        field_simp
        have e1 : o ^ 2 * (E - a1) ^ 2 + o ^ 2 * (a0 - E) * (a1 - E) = o ^ 2 * (a1 - E) * (a0 + a1 - 2 * E) := by ring
        rw [← hcE] at e1
        linear_combination e1 + (a1 - E) * hoc
      exact this
    · field_simp
      linear_combination (-o) * hdet
    · field_simp
      ring

/-- Concrete matrices: a diagonal one of each order, a scalar one, and `[[0, 1], [1, 0]]`. -/
example : (∃ o n, eig2x2 1 2 0 = .ok (1, o, n)) ∧ (∃ o n, eig2x2 2 1 0 = .ok (1, o, n)) ∧
    eig2x2 3 3 0 = .ok (3, 0, 1) ∧ (∃ o n, eig2x2 0 0 1 = .ok (-1, o, n)) := by
  refine ⟨?_, ?_, ?_, ?_⟩
  · obtain ⟨E, o, n, h, hu, h1, h2, h3, _⟩ := C53_lowest 1 2 0
    have : E = 1 := by
      have ha := h3 1 0
      rcases eq_or_ne o 0 with ho | ho
      · have hn : n ^ 2 = 1 := by rw [ho] at hu; linarith
        have : n ≠ 0 := by rintro rfl; norm_num at hn
        have : E = 2 := by
          have := mul_right_cancel₀ this (show 2 * n = E * n by linarith)
          linarith
        linarith
      · have := mul_right_cancel₀ ho (show 1 * o = E * o by linarith)
        linarith
    rw [this] at h; exact ⟨o, n, h⟩
  · obtain ⟨h1, _⟩ := eig2x2_eq 2 1 0
    have hs : √(((2 : ℝ) - 1) ^ 2 + 4 * (0 * 0)) = 1 := by norm_num
    rw [hs] at h1
    have h2 := h1 (by norm_num)
    norm_num at h2
    exact ⟨_, _, h2⟩
  · obtain ⟨h1, _⟩ := eig2x2_eq 3 3 0
    have hs : √(((3 : ℝ) - 3) ^ 2 + 4 * (0 * 0)) = 0 := by norm_num
    rw [hs] at h1
    have h2 := h1 (by norm_num)
    norm_num at h2
    exact h2
  · obtain ⟨_, h2⟩ := eig2x2_eq 0 0 1
    have hs : √(((0 : ℝ) - 0) ^ 2 + 4 * (1 * 1)) = 2 := by
      rw [show ((0 : ℝ) - 0) ^ 2 + 4 * (1 * 1) = 2 ^ 2 by norm_num]
      exact Real.sqrt_sq (by norm_num)
    rw [hs] at h2
    obtain ⟨_, _, h3⟩ := h2 (by norm_num)
    rw [h3]
    norm_num

/-! ## C54 -/

variable {𝕜 V : Type} [RCLike 𝕜] [NormedAddCommGroup V] [InnerProductSpace 𝕜 V]

theorem re_real_mul (x : ℝ) (z : 𝕜) : RCLike.re ((x : 𝕜) * z) = x * RCLike.re z := by
  simp [RCLike.mul_re]

/-- **C54** (partial: the residual `H s - ⟨s|H|s⟩ s` must have norm at least 1e-15, see `C54_eigenvector_fails`).  For every
symmetric effective Hamiltonian, real or complex, and every normalised two-site state: the update returns a
normalised state, the energy returned is its expectation value, it is lower than the previous one, and it is the lowest
that combinations of the state and of its product with the Hamiltonian have. -/
theorem C54_update_partial (H : V →ₗ[𝕜] V) (hH : H.IsSymmetric) (s : V) (hs : ‖s‖ = 1)
    (hb : 1e-15 ≤ ‖H s - ((RCLike.re (inner 𝕜 s (H s)) : ℝ) : 𝕜) • s‖) :
    ∃ E s', twoSitesUpdate H s = .ok (E, s') ∧ ‖s'‖ = 1 ∧ E = RCLike.re (inner 𝕜 s' (H s')) ∧
      E < RCLike.re (inner 𝕜 s (H s)) ∧
      ∀ x y : 𝕜, E * ‖x • s + y • H s‖ ^ 2 ≤ RCLike.re (inner 𝕜 (x • s + y • H s) (H (x • s + y • H s))) := by
  generalize ha0 : RCLike.re (inner 𝕜 s (H s)) = a0 at hb
  have ha0c : inner 𝕜 s (H s) = (a0 : 𝕜) := by
    have h1 : (starRingEnd 𝕜) (inner 𝕜 s (H s)) = inner 𝕜 s (H s) := by
      rw [inner_conj_symm]; exact hH s s
    rw [← ha0]; exact (RCLike.conj_eq_iff_re.1 h1).symm
  generalize hres : H s - ((a0 : ℝ) : 𝕜) • s = res at hb
  have hHs : H s = res + (a0 : 𝕜) • s := by rw [← hres]; abel
  have hss : inner 𝕜 s s = (1 : 𝕜) := by rw [inner_self_eq_norm_sq_to_K, hs]; norm_num
  have horth : inner 𝕜 s res = (0 : 𝕜) := by
    rw [← hres, inner_sub_right, inner_smul_right, ha0c, hss]; ring
  have horth' : inner 𝕜 res s = (0 : 𝕜) := by rw [← inner_conj_symm, horth, map_zero]
  have hbn : √(RCLike.re (inner 𝕜 res res)) = ‖res‖ := (norm_eq_sqrt_re_inner res).symm
  generalize hbd : ‖res‖ = b at hb hbn
  have hbpos : 0 < b := lt_of_lt_of_le (by norm_num) hb
  generalize hpsi : ((b⁻¹ : ℝ) : 𝕜) • res = psi
  have hpn : ‖psi‖ = 1 := by
    rw [← hpsi, norm_smul, hbd, RCLike.norm_ofReal, abs_of_pos (inv_pos.2 hbpos)]
    exact inv_mul_cancel₀ hbpos.ne'
  have hpp : inner 𝕜 psi psi = (1 : 𝕜) := by rw [inner_self_eq_norm_sq_to_K, hpn]; norm_num
  have hsp : inner 𝕜 s psi = (0 : 𝕜) := by rw [← hpsi, inner_smul_right, horth, mul_zero]
  have hps : inner 𝕜 psi s = (0 : 𝕜) := by rw [← inner_conj_symm, hsp, map_zero]
  have hrb : res = (b : 𝕜) • psi := by
    rw [← hpsi, smul_smul, ← RCLike.ofReal_mul, mul_inv_cancel₀ hbpos.ne']; simp
  have hHs' : H s = (b : 𝕜) • psi + (a0 : 𝕜) • s := by rw [hHs, hrb]
  have hpHs : inner 𝕜 psi (H s) = (b : 𝕜) := by
    rw [hHs', inner_add_right, inner_smul_right, inner_smul_right, hpp, hps]; ring
  have hsHp : inner 𝕜 s (H psi) = (b : 𝕜) := by
    rw [← hH s psi, hHs', inner_add_left, inner_smul_left, inner_smul_left, hpp, hsp]
    simp
  generalize ha1 : RCLike.re (inner 𝕜 psi (H psi)) = a1
  have hl : lanczos H s = (psi, a0, a1, b) := by
    unfold lanczos
    simp only [ha0, hres, hbn]
    rw [if_pos hb, hpsi, ha1]
  obtain ⟨E, o, n, he, hu, e1, e2, hform, _⟩ := C53_lowest a0 a1 b
  refine ⟨E, (o : 𝕜) • s + (n : 𝕜) • psi, ?_, ?_, ?_, ?_, ?_⟩
  · unfold twoSitesUpdate
    rw [hl]
    simp only [he, bind, Except.bind]
  · have : RCLike.re (inner 𝕜 ((o : 𝕜) • s + (n : 𝕜) • psi) ((o : 𝕜) • s + (n : 𝕜) • psi)) = (1 : ℝ) := by
      simp only [inner_add_left, inner_add_right, inner_smul_left, inner_smul_right, hss, hpp, hsp, hps]
      simp only [RCLike.conj_ofReal, mul_one, mul_zero, add_zero, zero_add, map_add]
      rw [← RCLike.ofReal_mul, ← RCLike.ofReal_mul, RCLike.ofReal_re, RCLike.ofReal_re]
      linarith
    rw [norm_eq_sqrt_re_inner (𝕜 := 𝕜), this, Real.sqrt_one]
  · rw [map_add, map_smul, map_smul]
    simp only [inner_add_left, inner_add_right, inner_smul_left, inner_smul_right, ha0c, hpHs, hsHp,
      RCLike.conj_ofReal, map_add, re_real_mul, ha1, RCLike.ofReal_re]
    linear_combination (-E) * hu - o * e1 - n * e2
  · have hle := hform 1 0
    have hE : E ≤ a0 := by linarith
    rcases hE.lt_or_eq with h | h
    · exact h
    · exfalso
      rw [h] at e1
      have hn0 : n = 0 := by
        have : b * n = 0 := by linarith
        rcases mul_eq_zero.1 this with h | h
        · exact absurd h hbpos.ne'
        · exact h
      rw [hn0] at e2 hu
      have ho0 : o = 0 := by
        have : b * o = 0 := by linarith
        rcases mul_eq_zero.1 this with h | h
        · exact absurd h hbpos.ne'
        · exact h
      rw [ho0] at hu
      norm_num at hu
  · intro x y
    obtain ⟨α, β, hv⟩ : ∃ α β : 𝕜, x • s + y • H s = α • s + β • psi :=
      ⟨x + y * a0, y * b, by rw [hHs', smul_add, smul_smul, smul_smul, add_smul]; abel⟩
    rw [hv]
    have hn2 : ‖α • s + β • psi‖ ^ 2 = ‖α‖ ^ 2 + ‖β‖ ^ 2 := by
      have : ((‖α • s + β • psi‖ ^ 2 : ℝ) : 𝕜) = ((‖α‖ ^ 2 + ‖β‖ ^ 2 : ℝ) : 𝕜) := by
        push_cast
        rw [← inner_self_eq_norm_sq_to_K]
        simp only [inner_add_left, inner_add_right, inner_smul_left, inner_smul_right, hss, hpp, hsp, hps]
        rw [← RCLike.conj_mul, ← RCLike.conj_mul]
        ring
      exact_mod_cast this
    have hpHp : inner 𝕜 psi (H psi) = (a1 : 𝕜) := by
      have h1 : (starRingEnd 𝕜) (inner 𝕜 psi (H psi)) = inner 𝕜 psi (H psi) := by
        rw [inner_conj_symm]; exact hH psi psi
      rw [← ha1]; exact (RCLike.conj_eq_iff_re.1 h1).symm
    have hq : RCLike.re (inner 𝕜 (α • s + β • psi) (H (α • s + β • psi)))
        = a0 * ‖α‖ ^ 2 + 2 * b * RCLike.re (starRingEnd 𝕜 α * β) + a1 * ‖β‖ ^ 2 := by
      rw [map_add, map_smul, map_smul]
      simp only [inner_add_left, inner_add_right, inner_smul_left, inner_smul_right, ha0c, hpHs, hsHp, hpHp]
      have h1 : RCLike.re (starRingEnd 𝕜 β * α) = RCLike.re (starRingEnd 𝕜 α * β) := by
        rw [← RCLike.conj_re (starRingEnd 𝕜 α * β), (starRingEnd 𝕜).map_mul, RCLike.conj_conj, mul_comm]
      have h2 : starRingEnd 𝕜 α * (α * (a0 : 𝕜)) = ((a0 * ‖α‖ ^ 2 : ℝ) : 𝕜) := by
        rw [← mul_assoc, RCLike.conj_mul]; push_cast; ring
      have h3 : starRingEnd 𝕜 β * (β * (a1 : 𝕜)) = ((a1 * ‖β‖ ^ 2 : ℝ) : 𝕜) := by
        rw [← mul_assoc, RCLike.conj_mul]; push_cast; ring
      have h4 : starRingEnd 𝕜 α * (β * (b : 𝕜)) = (b : 𝕜) * (starRingEnd 𝕜 α * β) := by ring
      have h5 : starRingEnd 𝕜 β * (α * (b : 𝕜)) = (b : 𝕜) * (starRingEnd 𝕜 β * α) := by ring
      simp only [mul_add, map_add, h2, h3, mul_left_comm β, mul_left_comm α, h4, h5, re_real_mul, h1, RCLike.ofReal_re]
      try rw [h4, h5, re_real_mul, re_real_mul, h1, h2, h3]
      try simp only [RCLike.ofReal_re]
      ring
    rw [hn2, hq]
    have hre : -(‖α‖ * ‖β‖) ≤ RCLike.re (starRingEnd 𝕜 α * β) := by
      have h1 := RCLike.abs_re_le_norm (starRingEnd 𝕜 α * β)
      rw [norm_mul, RCLike.norm_conj] at h1
      exact (abs_le.1 h1).1
    have := hform ‖α‖ (-‖β‖)
    have hb2 := mul_le_mul_of_nonneg_left hre (by linarith : 0 ≤ 2 * b)
    nlinarith

/-- What happens at an exact eigenvector. -/
theorem lanczos_eigenvector (H : V →ₗ[𝕜] V) (s : V) (hs : ‖s‖ = 1) (a : ℝ) (he : H s = (a : 𝕜) • s) :
    lanczos H s = (0, a, 0, 0) := by
  have hss : inner 𝕜 s s = (1 : 𝕜) := by rw [inner_self_eq_norm_sq_to_K, hs]; norm_num
  unfold lanczos
  simp only [he, inner_smul_right, hss, mul_one, RCLike.ofReal_re, sub_self, inner_self_eq_norm_sq_to_K, norm_zero]
  simp

/-- **C54**, exact eigenvector of negative energy: the update keeps the state and returns its energy. -/
theorem C54_eigenvector_partial (H : V →ₗ[𝕜] V) (s : V) (hs : ‖s‖ = 1) (a : ℝ) (ha : a < 0)
    (he : H s = (a : 𝕜) • s) : twoSitesUpdate H s = .ok (a, s) := by
  unfold twoSitesUpdate
  rw [lanczos_eigenvector H s hs a he]
  obtain ⟨_, h2⟩ := eig2x2_eq a 0 0
  have hc : √((a - 0) ^ 2 + 4 * (0 * 0)) = -a := by
    rw [show (a - 0) ^ 2 + 4 * (0 * 0) = (-a) ^ 2 by ring]
    exact Real.sqrt_sq (by linarith)
  rw [hc] at h2
  have hE : (a + 0 - -a) / 2 = a := by ring
  rw [hE] at h2
  obtain ⟨_, _, h3⟩ := h2 (by linarith)
  have ho : √((a - 0) / - -a) = 1 := by
    rw [show (a - 0) / - -a = 1 by rw [sub_zero, neg_neg]; exact div_self ha.ne]; exact Real.sqrt_one
  rw [ho] at h3
  simp only [bind, Except.bind, h3]
  simp

/-- **C54 fails** for an exact eigenvector of energy zero or more: the update returns the zero vector, with energy 0. -/
theorem C54_eigenvector_fails (H : V →ₗ[𝕜] V) (s : V) (hs : ‖s‖ = 1) (a : ℝ) (ha : 0 ≤ a)
    (he : H s = (a : 𝕜) • s) : twoSitesUpdate H s = .ok (0, (0 : V)) := by
  unfold twoSitesUpdate
  rw [lanczos_eigenvector H s hs a he]
  obtain ⟨h1, _⟩ := eig2x2_eq a 0 0
  have hc : √((a - 0) ^ 2 + 4 * (0 * 0)) = a := by
    rw [show (a - 0) ^ 2 + 4 * (0 * 0) = a ^ 2 by ring]
    exact Real.sqrt_sq ha
  rw [hc] at h1
  have h3 := h1 (by ring)
  rw [show (a + 0 - a) / 2 = 0 by ring] at h3
  simp only [bind, Except.bind, h3]
  simp

/-- The hypotheses of `C54_update_partial` are met: on `ℝ × ℝ`, the Hamiltonian that exchanges the two axes, and the
state on the first axis. -/
example : ∃ (H : EuclideanSpace ℝ (Fin 2) →ₗ[ℝ] EuclideanSpace ℝ (Fin 2)) (s : EuclideanSpace ℝ (Fin 2)),
    H.IsSymmetric ∧ ‖s‖ = 1 ∧ 1e-15 ≤ ‖H s - ((RCLike.re (inner ℝ s (H s)) : ℝ) : ℝ) • s‖ := by
  let H : EuclideanSpace ℝ (Fin 2) →ₗ[ℝ] EuclideanSpace ℝ (Fin 2) :=
    { toFun := fun v => !₂[v 1, v 0]
      map_add' := by intro x y; ext i; fin_cases i <;> simp
      map_smul' := by intro x y; ext i; fin_cases i <;> simp }
  have hH : ∀ v, H v = !₂[v 1, v 0] := fun _ => rfl
  refine ⟨H, !₂[1, 0], ?_, ?_, ?_⟩
  · intro x y
    rw [hH, hH]
    simp [PiLp.inner_apply, Fin.sum_univ_two]
    ring
  · simp [EuclideanSpace.norm_eq, Fin.sum_univ_two]
  · rw [hH]
    have : RCLike.re (inner ℝ (!₂[(1 : ℝ), 0] : EuclideanSpace ℝ (Fin 2)) !₂[(!₂[(1 : ℝ), 0] : EuclideanSpace ℝ (Fin 2)) 1, (!₂[(1 : ℝ), 0] : EuclideanSpace ℝ (Fin 2)) 0]) = (0 : ℝ) := by
      simp [PiLp.inner_apply, Fin.sum_univ_two]
    rw [this]
    simp [EuclideanSpace.norm_eq, Fin.sum_univ_two]
    norm_num

end DM
end QuantiT
