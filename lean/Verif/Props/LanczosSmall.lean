import Verif.Props.Lanczos
/-
C54 for a residual that is not zero but smaller than 1e-15: the new vector is not normalised, so the two by two matrix is not the one of the
Hamiltonian.
-/
namespace QuantiT
namespace DM
variable {𝕜 V : Type} [RCLike 𝕜] [NormedAddCommGroup V] [InnerProductSpace 𝕜 V]

theorem lanczos_small (H : V →ₗ[𝕜] V) (s : V)
    (hb : ‖H s - ((RCLike.re (inner 𝕜 s (H s)) : ℝ) : 𝕜) • s‖ < 1e-15) :
    lanczos H s = (H s - ((RCLike.re (inner 𝕜 s (H s)) : ℝ) : 𝕜) • s, RCLike.re (inner 𝕜 s (H s)),
      RCLike.re (inner 𝕜 (H s - ((RCLike.re (inner 𝕜 s (H s)) : ℝ) : 𝕜) • s) (H (H s - ((RCLike.re (inner 𝕜 s (H s)) : ℝ) : 𝕜) • s))),
      ‖H s - ((RCLike.re (inner 𝕜 s (H s)) : ℝ) : 𝕜) • s‖) := by
  have h : ∀ v : V, √(RCLike.re (inner 𝕜 v v)) = ‖v‖ := fun v => (norm_eq_sqrt_re_inner v).symm
  unfold lanczos
  simp only [h]
  rw [if_neg (by push Not; exact hb)]

/-- **C54 fails** for every residual of a norm between zero and 1e-15: the vector returned is not normalised. -/
theorem C54_small_fails (H : V →ₗ[𝕜] V) (hH : H.IsSymmetric) (s : V) (hs : ‖s‖ = 1)
    (h0 : 0 < ‖H s - ((RCLike.re (inner 𝕜 s (H s)) : ℝ) : 𝕜) • s‖)
    (hb : ‖H s - ((RCLike.re (inner 𝕜 s (H s)) : ℝ) : 𝕜) • s‖ < 1e-15) :
    ∃ E s', twoSitesUpdate H s = .ok (E, s') ∧ ‖s'‖ < 1 := by
  have hl := lanczos_small H s hb
  generalize hr : H s - ((RCLike.re (inner 𝕜 s (H s)) : ℝ) : 𝕜) • s = r at *
  generalize ha0 : RCLike.re (inner 𝕜 s (H s)) = a0 at *
  have ha0c : inner 𝕜 s (H s) = (a0 : 𝕜) := by
    rw [← ha0]
    have h1 : (starRingEnd 𝕜) (inner 𝕜 s (H s)) = inner 𝕜 s (H s) := by
      rw [inner_conj_symm]
      exact hH s s
    exact (RCLike.conj_eq_iff_re.1 h1).symm
  have horth : inner 𝕜 s r = 0 := by
    rw [← hr, inner_sub_right, inner_smul_right, ha0c, inner_self_eq_norm_sq_to_K, hs]
    simp
  obtain ⟨E, o, n, e1, e2, e3, e4, _⟩ := C53_lowest a0 (RCLike.re (inner 𝕜 r (H r))) ‖r‖
  refine ⟨E, (o : 𝕜) • s + (n : 𝕜) • r, by
    unfold twoSitesUpdate
    rw [hl]
    simp only [bind, Except.bind]
    rw [e1], ?_⟩
  have hn : n ≠ 0 := by
    rintro rfl
    have : o = 0 := by
      rcases mul_eq_zero.1 (show ‖r‖ * o = 0 by linarith) with h | h
      · exact absurd h h0.ne'
      · exact h
    rw [this] at e2
    norm_num at e2
  have hnorm : ‖(o : 𝕜) • s + (n : 𝕜) • r‖ ^ 2 = o ^ 2 + n ^ 2 * ‖r‖ ^ 2 := by
    rw [@norm_add_sq 𝕜, inner_smul_left, inner_smul_right, horth]
    simp only [mul_zero, map_zero, add_zero, norm_smul, RCLike.norm_ofReal, hs, mul_one, mul_pow, sq_abs]
  have hr1 : ‖r‖ ^ 2 < 1 := by
    have : ‖r‖ < 1 := lt_trans hb (by norm_num)
    nlinarith
  have hn2 : 0 < n ^ 2 := by positivity
  have : ‖(o : 𝕜) • s + (n : 𝕜) • r‖ ^ 2 < 1 := by
    rw [hnorm, ← e2]
    nlinarith
  by_contra hc
  push Not at hc
  nlinarith

/-- **C54 fails** for such residuals also in the energy: although no state has a negative energy, the energy returned is negative, unless the
energies of the state and of the residual vector are large. -/
theorem C54_bound_fails (H : V →ₗ[𝕜] V) (s : V)
    (hb : ‖H s - ((RCLike.re (inner 𝕜 s (H s)) : ℝ) : 𝕜) • s‖ < 1e-15)
    (hpos : ∀ x, 0 ≤ RCLike.re (inner 𝕜 x (H x)))
    (hsmall : ∀ r, r = H s - ((RCLike.re (inner 𝕜 s (H s)) : ℝ) : 𝕜) • s → RCLike.re (inner 𝕜 s (H s)) * RCLike.re (inner 𝕜 r (H r)) < ‖r‖ ^ 2) :
    ∃ E s', twoSitesUpdate H s = .ok (E, s') ∧ E < 0 := by
  have hl := lanczos_small H s hb
  have hsm := hsmall _ rfl
  have p1 := hpos s
  have p2 := hpos (H s - ((RCLike.re (inner 𝕜 s (H s)) : ℝ) : 𝕜) • s)
  generalize H s - ((RCLike.re (inner 𝕜 s (H s)) : ℝ) : 𝕜) • s = r at *
  generalize RCLike.re (inner 𝕜 s (H s)) = a0 at *
  generalize hh : RCLike.re (inner 𝕜 r (H r)) = a1 at *
  obtain ⟨E, o, n, e1, e2, e3, e4, e5, _⟩ := C53_lowest a0 a1 ‖r‖
  refine ⟨E, _, by
    unfold twoSitesUpdate
    rw [hl]
    simp only [bind, Except.bind]
    rw [e1], ?_⟩
  have hr : 0 < ‖r‖ := by
    rcases (norm_nonneg r).eq_or_lt with h | h
    · rw [← h] at hsm
      nlinarith [mul_nonneg p1 p2]
    · exact h
  have h := e5 (-‖r‖) a0
  by_contra hc
  push Not at hc
  rcases p1.eq_or_lt with h0 | h0
  · -- a0 = 0
    have h' := e5 (-(a1 + 1)) ‖r‖
    rw [← h0] at h'
    nlinarith [mul_nonneg hc (add_nonneg (sq_nonneg (-(a1 + 1))) (sq_nonneg ‖r‖)), mul_pos hr hr]
  · have : 0 ≤ a0 * (a0 * a1 - ‖r‖ ^ 2) := by
      nlinarith [mul_nonneg hc (add_nonneg (sq_nonneg (-‖r‖)) (sq_nonneg a0))]
    nlinarith

/-- The hypotheses of `C54_small_fails` and of `C54_bound_fails` are met: on `ℝ × ℝ`, the Hamiltonian `⟨v|⬝⟩ v` for `v = (1e-16, 1)` and
the state on the first axis. -/
example : ∃ (H : EuclideanSpace ℝ (Fin 2) →ₗ[ℝ] EuclideanSpace ℝ (Fin 2)) (s : EuclideanSpace ℝ (Fin 2)),
    H.IsSymmetric ∧ ‖s‖ = 1 ∧ 0 < ‖H s - ((RCLike.re (inner ℝ s (H s)) : ℝ) : ℝ) • s‖ ∧
      ‖H s - ((RCLike.re (inner ℝ s (H s)) : ℝ) : ℝ) • s‖ < 1e-15 ∧ (∀ x, 0 ≤ RCLike.re (inner ℝ x (H x))) ∧
      ∀ r, r = H s - ((RCLike.re (inner ℝ s (H s)) : ℝ) : ℝ) • s → RCLike.re (inner ℝ s (H s)) * RCLike.re (inner ℝ r (H r)) < ‖r‖ ^ 2 := by
  let c : ℝ := 1e-16
  let H : EuclideanSpace ℝ (Fin 2) →ₗ[ℝ] EuclideanSpace ℝ (Fin 2) :=
    { toFun := fun v => !₂[c * (c * v 0 + v 1), c * v 0 + v 1]
      map_add' := by intro x y; ext i; fin_cases i <;> simp <;> ring
      map_smul' := by intro x y; ext i; fin_cases i <;> simp <;> ring }
  have hH : ∀ v, H v = !₂[c * (c * v 0 + v 1), c * v 0 + v 1] := fun _ => rfl
  have hs : H !₂[1, 0] = !₂[c * c, c] := by rw [hH]; ext i; fin_cases i <;> simp
  have hi : (RCLike.re (inner ℝ (!₂[(1 : ℝ), 0] : EuclideanSpace ℝ (Fin 2)) (H !₂[1, 0])) : ℝ) = c * c := by
    rw [hs]
    simp [PiLp.inner_apply, Fin.sum_univ_two]
  have hr : H !₂[1, 0] - (c * c) • !₂[(1 : ℝ), 0] = !₂[0, c] := by
    rw [hs]
    ext i
    fin_cases i <;> simp
  have hn : ‖(!₂[0, c] : EuclideanSpace ℝ (Fin 2))‖ = c := by
    have h0 : (0 : ℝ) ≤ c := by norm_num [c]
    simp [EuclideanSpace.norm_eq, Fin.sum_univ_two, Real.sqrt_sq h0]
  refine ⟨H, !₂[1, 0], ?_, by simp [EuclideanSpace.norm_eq, Fin.sum_univ_two], ?_, ?_, ?_, ?_⟩
  · intro x y
    rw [hH, hH]
    simp [PiLp.inner_apply, Fin.sum_univ_two]
    ring
  · rw [hi]
    change _
    rw [hr, hn]
    norm_num [c]
  · rw [hi]
    change _
    rw [hr, hn]
    norm_num [c]
  · intro x
    rw [hH]
    simp [PiLp.inner_apply, Fin.sum_univ_two]
    nlinarith [mul_self_nonneg (c * x 0 + x 1)]
  · rintro r rfl
    rw [hi]
    have hr : H !₂[1, 0] - ((c * c : ℝ) : ℝ) • !₂[(1 : ℝ), 0] = !₂[0, c] := hr
    rw [hr, hn, hH]
    simp [PiLp.inner_apply, Fin.sum_univ_two]
    norm_num [c]

end DM
end QuantiT
