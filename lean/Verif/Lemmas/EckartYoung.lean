import Mathlib.Analysis.InnerProductSpace.PiL2
import Mathlib.Analysis.InnerProductSpace.Projection.FiniteDimensional
import Mathlib.Algebra.Order.BigOperators.Group.Finset
/-
The first singular values make the best approximation of a matrix with a given number of terms (Eckart and Young).
-/
namespace QuantiT
namespace LA
open Finset
variable {𝕜 : Type} [RCLike 𝕜]

/-- Weights between zero and one whose sum is at most `p` gather at most the `p` largest values. -/
theorem tail_le_weighted (s w : ℕ → ℝ) (hs : Antitone s) (hs0 : ∀ k, 0 ≤ s k) (p K : ℕ) (hw0 : ∀ k < K, 0 ≤ w k) (hw1 : ∀ k < K, w k ≤ 1)
    (hw : ∑ k ∈ range K, w k ≤ p) : ∑ k ∈ Ico p K, s k ≤ ∑ k ∈ range K, s k * (1 - w k) := by
  rcases le_total K p with h | h
  · rw [Ico_eq_empty_of_le h, sum_empty]
    exact sum_nonneg fun k hk => mul_nonneg (hs0 k) (by have := hw1 k (mem_range.1 hk); linarith)
  · have h1 := sum_range_add_sum_Ico (fun k => s k * (1 - w k)) h
    have h2 := sum_range_add_sum_Ico w h
    rw [← h1]
    have a : ∑ k ∈ range p, s p * (1 - w k) ≤ ∑ k ∈ range p, s k * (1 - w k) := sum_le_sum fun k hk => by
      have := mem_range.1 hk
      exact mul_le_mul_of_nonneg_right (hs this.le) (by have := hw1 k (by omega); linarith)
    have b : ∑ k ∈ Ico p K, s k * w k ≤ ∑ k ∈ Ico p K, s p * w k := sum_le_sum fun k hk => by
      have := mem_Ico.1 hk
      exact mul_le_mul_of_nonneg_right (hs this.1) (hw0 k this.2)
    have c : ∑ k ∈ Ico p K, s k * (1 - w k) = ∑ k ∈ Ico p K, s k - ∑ k ∈ Ico p K, s k * w k := by
      rw [← sum_sub_distrib]; exact sum_congr rfl fun k _ => by ring
    rw [← mul_sum, sum_sub_distrib, sum_const, card_range, nsmul_eq_mul, mul_one] at a
    rw [← mul_sum] at b
    rw [c]
    have d : 0 ≤ s p * (p - ∑ k ∈ range p, w k - ∑ k ∈ Ico p K, w k) := mul_nonneg (hs0 p) (by linarith)
    rw [mul_sub] at d
    linarith

/-- Sums of squares along orthonormal columns `v`. -/
theorem sum_norm_columns {V : Type} [NormedAddCommGroup V] [InnerProductSpace 𝕜 V] {κ : Type} (J : Finset κ) (K : ℕ) (σ : ℕ → ℝ)
    (v : κ → ℕ → 𝕜) (hv : ∀ a b, a < K → b < K → ∑ j ∈ J, star (v j a) * v j b = if a = b then 1 else 0) (z : ℕ → V) :
    ∑ j ∈ J, ‖∑ k ∈ range K, ((σ k : 𝕜) * star (v j k)) • z k‖ ^ 2 = ∑ k ∈ range K, σ k ^ 2 * ‖z k‖ ^ 2 := by
  have key : ∑ j ∈ J, inner 𝕜 (∑ k ∈ range K, ((σ k : 𝕜) * star (v j k)) • z k) (∑ k ∈ range K, ((σ k : 𝕜) * star (v j k)) • z k)
      = ((∑ k ∈ range K, σ k ^ 2 * ‖z k‖ ^ 2 : ℝ) : 𝕜) := by
    calc _ = ∑ j ∈ J, ∑ k ∈ range K, ∑ l ∈ range K, ((σ k : 𝕜) * σ l * inner 𝕜 (z k) (z l)) * star (star (v j k) * v j l) := by
          refine sum_congr rfl fun j _ => ?_
          rw [sum_inner]
          refine sum_congr rfl fun k _ => ?_
          rw [inner_sum]
          refine sum_congr rfl fun l _ => ?_
          rw [inner_smul_left, inner_smul_right]
          simp only [map_mul, RCLike.conj_ofReal, star_mul', star_star, RCLike.star_def, RCLike.conj_conj]
          ring
      _ = ∑ k ∈ range K, ∑ l ∈ range K, ((σ k : 𝕜) * σ l * inner 𝕜 (z k) (z l)) * star (∑ j ∈ J, star (v j k) * v j l) := by
          rw [sum_comm]
          refine sum_congr rfl fun k _ => ?_
          rw [sum_comm]
          refine sum_congr rfl fun l _ => ?_
          rw [star_sum, mul_sum]
      _ = ∑ k ∈ range K, (σ k : 𝕜) * σ k * inner 𝕜 (z k) (z k) := by
          refine sum_congr rfl fun k hk => ?_
          rw [sum_eq_single k]
          · rw [hv k k (mem_range.1 hk) (mem_range.1 hk)]; simp
          · intro l hl hlk
            rw [hv k l (mem_range.1 hk) (mem_range.1 hl), if_neg (Ne.symm hlk)]; simp
          · intro h; exact absurd hk h
      _ = _ := by
          push_cast
          refine sum_congr rfl fun k _ => ?_
          rw [inner_self_eq_norm_sq_to_K]; ring
  have : ((∑ j ∈ J, ‖∑ k ∈ range K, ((σ k : 𝕜) * star (v j k)) • z k‖ ^ 2 : ℝ) : 𝕜) = ((∑ k ∈ range K, σ k ^ 2 * ‖z k‖ ^ 2 : ℝ) : 𝕜) := by
    rw [← key]
    push_cast
    exact sum_congr rfl fun j _ => (inner_self_eq_norm_sq_to_K _).symm
  exact_mod_cast this

/-- Projections of orthonormal vectors on a space of dimension `p` have squares that add up to at most `p`. -/
theorem sum_projections_le {V : Type} [NormedAddCommGroup V] [InnerProductSpace 𝕜 V] [FiniteDimensional 𝕜 V] {K : ℕ} (u : Fin K → V)
    (hu : Orthonormal 𝕜 u) (S : Submodule 𝕜 V) : ∑ k, ‖S.starProjection (u k)‖ ^ 2 ≤ (Module.finrank 𝕜 S : ℝ) := by
  let b := stdOrthonormalBasis 𝕜 S
  have h1 : ∀ k, ‖S.starProjection (u k)‖ ^ 2 = ∑ i, ‖inner 𝕜 (u k) (b i : V)‖ ^ 2 := by
    intro k
    have : ‖S.starProjection (u k)‖ = ‖S.orthogonalProjectionOnto (u k)‖ := rfl
    rw [this, ← b.sum_sq_norm_inner_left]
    refine sum_congr rfl fun i _ => ?_
    congr 2
    exact Submodule.inner_orthogonalProjectionOnto_eq_of_mem_right _ _
  simp only [h1]
  rw [sum_comm]
  calc _ ≤ ∑ i : Fin (Module.finrank 𝕜 S), (1 : ℝ) := by
        refine sum_le_sum fun i _ => ?_
        have h := hu.sum_inner_products_le (b i : V) (s := univ)
        have hb : ‖(b i : V)‖ = 1 := b.orthonormal.1 i
        rw [hb, one_pow] at h
        exact h
    _ = _ := by simp

/-- Eckart and Young: no matrix that is a sum of `p` products of a column and a row is closer to `A` than the sum of the
squares of its singular values after the first `p`. -/
theorem eckart_young {ι κ : Type} (I : Finset ι) (J : Finset κ) (K : ℕ) (A : ι → κ → 𝕜) (u : ι → ℕ → 𝕜) (σ : ℕ → ℝ) (v : κ → ℕ → 𝕜)
    (hσ : Antitone σ) (hσ0 : ∀ k, 0 ≤ σ k)
    (hu : ∀ a b, a < K → b < K → ∑ i ∈ I, star (u i a) * u i b = if a = b then 1 else 0)
    (hv : ∀ a b, a < K → b < K → ∑ j ∈ J, star (v j a) * v j b = if a = b then 1 else 0)
    (hA : ∀ i ∈ I, ∀ j ∈ J, A i j = ∑ k ∈ range K, u i k * (σ k : 𝕜) * star (v j k)) (p : ℕ) (x : ι → ℕ → 𝕜) (y : κ → ℕ → 𝕜) :
    ∑ k ∈ Ico p K, σ k ^ 2 ≤ ∑ i ∈ I, ∑ j ∈ J, ‖A i j - ∑ m ∈ range p, x i m * y j m‖ ^ 2 := by
  let V := EuclideanSpace 𝕜 I
  let col : (ι → 𝕜) → V := fun f => WithLp.toLp 2 fun i => f i.1
  have ncol : ∀ f, ‖col f‖ ^ 2 = ∑ i ∈ I, ‖f i‖ ^ 2 := fun f => by
    rw [EuclideanSpace.norm_sq_eq]
    exact sum_coe_sort I fun i => ‖f i‖ ^ 2
  let U : ℕ → V := fun k => col fun i => u i k
  have hUn : Orthonormal 𝕜 (fun k : Fin K => U k) := by
    rw [orthonormal_iff_ite]
    intro a b
    have : inner 𝕜 (U a) (U b) = ∑ i ∈ I, star (u i a) * u i b := by
      rw [PiLp.inner_apply, ← sum_coe_sort I]
      refine sum_congr rfl fun i _ => ?_
      rw [RCLike.inner_apply, mul_comm]
      rfl
    rw [this, hu a b a.2 b.2]
    simp [Fin.ext_iff]
  let S : Submodule 𝕜 V := Submodule.span 𝕜 (Set.range fun m : Fin p => col fun i => x i m)
  have hS : Module.finrank 𝕜 S ≤ p := by
    have := finrank_range_le_card (R := 𝕜) (fun m : Fin p => col fun i => x i m)
    simpa [Set.finrank] using this
  have hAc : ∀ j ∈ J, col (fun i => A i j) = ∑ k ∈ range K, ((σ k : 𝕜) * star (v j k)) • U k := by
    intro j hj
    ext i
    rw [WithLp.ofLp_sum, Finset.sum_apply]
    show A i.1 j = _
    rw [hA i.1 i.2 j hj]
    refine sum_congr rfl fun k _ => ?_
    show _ = ((σ k : 𝕜) * star (v j k)) * u i.1 k
    ring
  have hB : ∀ j, col (fun i => ∑ m ∈ range p, x i m * y j m) ∈ S := by
    intro j
    have : col (fun i => ∑ m ∈ range p, x i m * y j m) = ∑ m : Fin p, y j m • col fun i => x i m := by
      ext i
      rw [WithLp.ofLp_sum, Finset.sum_apply]
      show ∑ m ∈ range p, x i.1 m * y j m = ∑ m : Fin p, y j m * x i.1 m
      rw [Finset.sum_range]
      exact sum_congr rfl fun m _ => mul_comm _ _
    rw [this]
    exact Submodule.sum_mem _ fun m _ => Submodule.smul_mem _ _ (Submodule.subset_span ⟨m, rfl⟩)
  have hle : ∀ j, ‖col fun i => A i j‖ ^ 2 - ‖S.starProjection (col fun i => A i j)‖ ^ 2
      ≤ ∑ i ∈ I, ‖A i j - ∑ m ∈ range p, x i m * y j m‖ ^ 2 := by
    intro j
    have e : (∑ i ∈ I, ‖A i j - ∑ m ∈ range p, x i m * y j m‖ ^ 2)
        = ‖col (fun i => A i j) - col (fun i => ∑ m ∈ range p, x i m * y j m)‖ ^ 2 := by
      rw [← ncol fun i => A i j - ∑ m ∈ range p, x i m * y j m]
      rfl
    rw [e]
    generalize col (fun i => A i j) = a
    have hb := hB j
    generalize col (fun i => ∑ m ∈ range p, x i m * y j m) = b at hb
    have h1 := S.norm_sq_eq_add_norm_sq_projection a
    have h2 := S.norm_sq_eq_add_norm_sq_projection (a - b)
    have h3 : Sᗮ.orthogonalProjectionOnto (a - b) = Sᗮ.orthogonalProjectionOnto a := by
      rw [map_sub, Submodule.orthogonalProjectionOnto_orthogonal_apply_eq_zero hb, sub_zero]
    rw [h3] at h2
    have h4 : ‖S.starProjection a‖ = ‖S.orthogonalProjectionOnto a‖ := rfl
    rw [h4]
    nlinarith [sq_nonneg ‖S.orthogonalProjectionOnto (a - b)‖]
  have hw := sum_projections_le (fun k : Fin K => U k) hUn S
  rw [← Finset.sum_range (fun k => ‖S.starProjection (U k)‖ ^ 2)] at hw
  have hU1 : ∀ k < K, ‖U k‖ = 1 := fun k hk => hUn.1 ⟨k, hk⟩
  have ht := tail_le_weighted (fun k => σ k ^ 2) (fun k => ‖S.starProjection (U k)‖ ^ 2)
    (fun a b h => pow_le_pow_left₀ (hσ0 b) (hσ h) 2) (fun k => sq_nonneg _) p K (fun k _ => sq_nonneg _)
    (fun k hk => by
      have := S.norm_starProjection_apply_le (U k)
      rw [hU1 k hk] at this
      nlinarith [norm_nonneg (S.starProjection (U k))])
    (hw.trans (by exact_mod_cast hS))
  refine ht.trans ?_
  rw [sum_comm]
  refine le_trans ?_ (sum_le_sum fun j _ => hle j)
  rw [sum_sub_distrib]
  have e1 : ∑ j ∈ J, ‖col fun i => A i j‖ ^ 2 = ∑ k ∈ range K, σ k ^ 2 := by
    rw [sum_congr rfl fun j hj => by rw [hAc j hj], sum_norm_columns J K σ v hv U]
    exact sum_congr rfl fun k hk => by rw [hU1 k (mem_range.1 hk)]; ring
  have e2 : ∑ j ∈ J, ‖S.starProjection (col fun i => A i j)‖ ^ 2 = ∑ k ∈ range K, σ k ^ 2 * ‖S.starProjection (U k)‖ ^ 2 := by
    rw [← sum_norm_columns J K σ v hv fun k => S.starProjection (U k)]
    refine sum_congr rfl fun j hj => ?_
    rw [hAc j hj, map_sum]
    simp only [map_smul]
  rw [e1, e2, ← sum_sub_distrib]
  exact le_of_eq (sum_congr rfl fun k _ => by ring)

end LA
end QuantiT
