import Verif.Spec.Ground
import Verif.Props.Descent
import Verif.Props.Models
import Verif.Spec.CutDmrg
import Mathlib.Analysis.Matrix.Spectrum
/-
Chains as vectors over configurations, and the spectrum of hermitian matrices.
-/
namespace QuantiT
namespace DM
open Finset Spec MP Matrix
variable {𝕜 : Type} [RCLike 𝕜]

theorem inRange_ofFn {L d : Nat} (σ : Fin L → Fin d) : InRange (List.ofFn fun i => (σ i).val) (List.replicate L d) := by
  unfold InRange
  rw [List.forall₂_iff_get]
  refine ⟨by simp, fun i h1 h2 => ?_⟩
  simp

theorem sum_configs_fn {R : Type} [AddCommMonoid R] (L d : Nat) (f : List Nat → R) :
    ∑ σ ∈ configs (List.replicate L d), f σ = ∑ σ : Fin L → Fin d, f (List.ofFn fun i => (σ i).val) := by
  symm
  refine sum_bij (fun σ _ => List.ofFn fun i => (σ i).val) (fun σ _ => mem_configs.2 (inRange_ofFn σ)) ?_ ?_ (fun _ _ => rfl)
  · intro σ _ τ _ h
    have := List.ofFn_injective h
    funext i
    exact Fin.ext (congrFun this i)
  · intro l hl
    have hl := mem_configs.1 hl
    unfold InRange at hl
    rw [List.forall₂_iff_get] at hl
    obtain ⟨h1, h2⟩ := hl
    rw [List.length_replicate] at h1
    refine ⟨fun i => ⟨l[i.val]'(by omega), ?_⟩, mem_univ _, ?_⟩
    · have := h2 i.val (by omega) (by simp)
      simpa using this
    · apply List.ext_getElem
      · simp [h1]
      · intro i _ _
        simp

theorem getD_ofFn {L d : Nat} (σ : Fin L → Fin d) : (fun j => (List.ofFn fun i => (σ i).val).getD j 0) = extend σ := by
  funext j
  unfold extend
  by_cases h : j < L
  · rw [dif_pos h, List.getD_eq_getElem?_getD, List.getElem?_eq_getElem (by simpa using h)]
    simp
  · rw [dif_neg h, List.getD_eq_getElem?_getD, List.getElem?_eq_none (by simpa using h)]
    rfl

theorem opEntry_ofFn {L d : Nat} (Ws : List (Blk 𝕜)) (τ σ : Fin L → Fin d) :
    opEntry Ws (List.ofFn fun i => (τ i).val) (List.ofFn fun i => (σ i).val) 0 0 = mpoMatrix L d Ws τ σ := by
  unfold opEntry mpoMatrix
  rw [getD_ofFn, getD_ofFn]

/-- The sum that stands for `⟨v|O|v⟩`. -/
theorem quad_eq {L d : Nat} (Ws : List (Blk 𝕜)) (v : List Nat → 𝕜) :
    ∑ σ ∈ configs (List.replicate L d), ∑ τ ∈ configs (List.replicate L d), v σ * opEntry Ws τ σ 0 0 * star (v τ)
      = star (fun σ : Fin L → Fin d => v (List.ofFn fun i => (σ i).val)) ⬝ᵥ
        (mpoMatrix L d Ws *ᵥ fun σ => v (List.ofFn fun i => (σ i).val)) := by
  rw [sum_comm, sum_configs_fn]
  simp only [sum_configs_fn]
  simp only [dotProduct, mulVec, mul_sum]
  refine sum_congr rfl fun τ _ => sum_congr rfl fun σ _ => ?_
  rw [opEntry_ofFn]
  simp only [Pi.star_apply]
  ring

theorem energy_eq {L d : Nat} {Ws s : List (Blk 𝕜)} (hp : phys s = List.replicate L d) :
    energy Ws s = expectation (mpoMatrix L d Ws) (stateVec L d s) := by
  unfold energy sandwich expectation stateVec
  rw [hp]
  exact congrArg _ (quad_eq Ws fun σ => amp s σ 0 0)

theorem normalised_iff {n : Type} [Fintype n] (v : n → 𝕜) : Normalised v ↔ ∑ i, ‖v i‖ ^ 2 = 1 := by
  unfold Normalised
  have : star v ⬝ᵥ v = ((∑ i, ‖v i‖ ^ 2 : ℝ) : 𝕜) := by
    simp only [dotProduct, Pi.star_apply, RCLike.star_def, RCLike.conj_mul]
    push_cast
    rfl
  rw [this]
  constructor
  · intro h
    exact_mod_cast h
  · intro h
    rw [h]; simp

theorem normSq_eq {L d : Nat} {s : List (Blk 𝕜)} (hp : phys s = List.replicate L d) :
    normSq s = 1 ↔ Normalised (stateVec L d s) := by
  rw [normalised_iff]
  unfold normSq
  rw [hp, sum_configs_fn]
  rfl

theorem hermitianOp_of {L d : Nat} {Ws : List (Blk 𝕜)} {H : Matrix (Fin L → Fin d) (Fin L → Fin d) 𝕜} (h : mpoMatrix L d Ws = H) (hH : H.IsHermitian) :
    HermitianOp Ws (List.replicate L d) := by
  intro σ hσ τ hτ
  have ex : ∀ l ∈ configs (List.replicate L d), ∃ σ : Fin L → Fin d, l = List.ofFn fun i => (σ i).val := by
    intro l hl
    have hl := mem_configs.1 hl
    unfold InRange at hl
    rw [List.forall₂_iff_get] at hl
    obtain ⟨h1, h2⟩ := hl
    rw [List.length_replicate] at h1
    refine ⟨fun i => ⟨l[i.val]'(by omega), ?_⟩, ?_⟩
    · have := h2 i.val (by omega) (by simp)
      simpa using this
    · apply List.ext_getElem
      · simp [h1]
      · intro i _ _
        simp
  obtain ⟨a, rfl⟩ := ex σ hσ
  obtain ⟨b, rfl⟩ := ex τ hτ
  rw [opEntry_ofFn, opEntry_ofFn, h]
  exact (hH.apply a b).symm

/-! ### The lowest eigenvalue -/

/-- Quadratic form in the basis of eigenvectors. -/
theorem quad_eigen {n : Type} [Fintype n] [DecidableEq n] {H : Matrix n n 𝕜} (hH : H.IsHermitian) (v : n → 𝕜) :
    expectation H v = ∑ i, hH.eigenvalues i * ‖inner 𝕜 (hH.eigenvectorBasis i) (WithLp.toLp 2 v)‖ ^ 2 ∧
      ∑ i, ‖v i‖ ^ 2 = ∑ i, ‖inner 𝕜 (hH.eigenvectorBasis i) (WithLp.toLp 2 v)‖ ^ 2 := by
  set b := hH.eigenvectorBasis
  set x : EuclideanSpace 𝕜 n := WithLp.toLp 2 v with hx
  have hin : ∀ y w : n → 𝕜, inner 𝕜 (WithLp.toLp 2 y : EuclideanSpace 𝕜 n) (WithLp.toLp 2 w) = star y ⬝ᵥ w := by
    intro y w
    rw [EuclideanSpace.inner_toLp_toLp, dotProduct_comm]
  constructor
  · have h1 : star v ⬝ᵥ (H *ᵥ v) = inner 𝕜 x (WithLp.toLp 2 (H *ᵥ v)) := (hin _ _).symm
    unfold expectation
    rw [h1, ← b.sum_inner_mul_inner]
    have h2 : ∀ i, inner 𝕜 (b i) (WithLp.toLp 2 (H *ᵥ v) : EuclideanSpace 𝕜 n) = (hH.eigenvalues i : 𝕜) * inner 𝕜 (b i) x := by
      intro i
      have h3 : inner 𝕜 (b i) (WithLp.toLp 2 (H *ᵥ v) : EuclideanSpace 𝕜 n) = star (H *ᵥ (WithLp.ofLp (b i))) ⬝ᵥ v := by
        rw [show b i = WithLp.toLp 2 (WithLp.ofLp (b i)) from rfl, hin, star_mulVec, hH.eq, dotProduct_mulVec]
      rw [h3, hH.mulVec_eigenvectorBasis i, ← hin]
      rw [show (WithLp.toLp 2 (hH.eigenvalues i • WithLp.ofLp (b i)) : EuclideanSpace 𝕜 n) = ((hH.eigenvalues i : ℝ) : 𝕜) • b i by
        ext j; simp [RCLike.real_smul_eq_coe_mul]]
      rw [inner_smul_left, RCLike.conj_ofReal]
    simp only [h2]
    rw [map_sum]
    refine sum_congr rfl fun i _ => ?_
    rw [← inner_conj_symm x (b i), show ∀ a r : 𝕜, starRingEnd 𝕜 a * (r * a) = r * (starRingEnd 𝕜 a * a) by intro a r; ring, RCLike.conj_mul]
    rw [RCLike.re_ofReal_mul]
    congr 1
    norm_cast
  · have h0 := EuclideanSpace.norm_sq_eq x
    have h1 := b.sum_sq_norm_inner_right x
    rw [h1, h0]

theorem lowest_le {n : Type} [Fintype n] [DecidableEq n] {H : Matrix n n 𝕜} (hH : H.IsHermitian) {E : ℝ} (hE : Lowest H E) (v : n → 𝕜) :
    E * ∑ i, ‖v i‖ ^ 2 ≤ expectation H v := by
  obtain ⟨h1, h2⟩ := quad_eigen hH v
  rw [h1, h2, mul_sum]
  refine sum_le_sum fun i _ => mul_le_mul_of_nonneg_right ?_ (by positivity)
  refine hE.2 _ (WithLp.ofLp (hH.eigenvectorBasis i)) ?_ ?_
  · intro h0
    have := hH.eigenvectorBasis.orthonormal.1 i
    rw [show hH.eigenvectorBasis i = 0 by ext j; exact congrFun h0 j] at this
    simp at this
  · rw [hH.mulVec_eigenvectorBasis i]
    ext j
    simp [RCLike.real_smul_eq_coe_mul]

/-- Every hermitian matrix has a lowest eigenvalue. -/
theorem lowest_exists {n : Type} [Fintype n] [DecidableEq n] [Nonempty n] {H : Matrix n n 𝕜} (hH : H.IsHermitian) : ∃ E, Lowest H E := by
  obtain ⟨i, _, hi⟩ := exists_min_image univ hH.eigenvalues univ_nonempty
  have hne : ∀ v : n → 𝕜, v ≠ 0 → 0 < ∑ i, ‖v i‖ ^ 2 := by
    intro v hv
    obtain ⟨j, hj⟩ := Function.ne_iff.1 hv
    refine sum_pos' (fun _ _ => by positivity) ⟨j, mem_univ _, ?_⟩
    have : v j ≠ 0 := hj
    positivity
  refine ⟨hH.eigenvalues i, ⟨WithLp.ofLp (hH.eigenvectorBasis i), ?_, ?_⟩, ?_⟩
  · intro h0
    have := hH.eigenvectorBasis.orthonormal.1 i
    rw [show hH.eigenvectorBasis i = 0 by ext j; exact congrFun h0 j] at this
    simp at this
  · rw [hH.mulVec_eigenvectorBasis i]
    ext j
    simp [RCLike.real_smul_eq_coe_mul]
  · intro x v hv hx
    obtain ⟨h1, h2⟩ := quad_eigen hH v
    have h3 : expectation H v = x * ∑ i, ‖v i‖ ^ 2 := by
      unfold expectation
      rw [hx, dotProduct_smul, smul_eq_mul]
      have : star v ⬝ᵥ v = ((∑ i, ‖v i‖ ^ 2 : ℝ) : 𝕜) := by
        simp only [dotProduct, Pi.star_apply, RCLike.star_def, RCLike.conj_mul]
        push_cast
        rfl
      rw [this]
      rw [RCLike.re_ofReal_mul, RCLike.ofReal_re]
    have h4 : hH.eigenvalues i * ∑ i, ‖v i‖ ^ 2 ≤ x * ∑ i, ‖v i‖ ^ 2 := by
      rw [← h3, h1, h2, mul_sum]
      exact sum_le_sum fun j _ => mul_le_mul_of_nonneg_right (hi j (mem_univ _)) (by positivity)
    exact le_of_mul_le_mul_right h4 (hne v hv)

theorem boundedBelow_of {L d : Nat} {Ws : List (Blk 𝕜)} {H : Matrix (Fin L → Fin d) (Fin L → Fin d) 𝕜} (h : mpoMatrix L d Ws = H) {lo : ℝ}
    (hlo : ∀ v, lo * ∑ i, ‖v i‖ ^ 2 ≤ expectation H v) : BoundedBelow Ws (List.replicate L d) lo := by
  intro v
  rw [quad_eq, sum_configs_fn, h]
  exact hlo _

theorem expectation_neg {n : Type} [Fintype n] (H : Matrix n n 𝕜) (v : n → 𝕜) : expectation (-H) v = -expectation H v := by
  unfold expectation
  rw [neg_mulVec, dotProduct_neg, map_neg]

theorem boundedAbove_of {L d : Nat} {Ws : List (Blk 𝕜)} {H : Matrix (Fin L → Fin d) (Fin L → Fin d) 𝕜} (h : mpoMatrix L d Ws = H) {hi : ℝ}
    (hhi : ∀ v, expectation H v ≤ hi * ∑ i, ‖v i‖ ^ 2) : BoundedAbove Ws (List.replicate L d) hi := by
  intro v
  rw [quad_eq, sum_configs_fn, h]
  exact hhi _

theorem highest_neg {n : Type} [Fintype n] {H : Matrix n n 𝕜} {E : ℝ} : Lowest (-H) (-E) ↔ Highest H E := by
  have key : ∀ (x : ℝ) (v : n → 𝕜), (-H) *ᵥ v = ((-x : ℝ) : 𝕜) • v ↔ H *ᵥ v = (x : 𝕜) • v := by
    intro x v
    rw [neg_mulVec, RCLike.ofReal_neg, neg_smul, neg_inj]
  unfold Lowest Highest
  simp only [key]
  refine and_congr Iff.rfl ⟨fun h x v hv hx => ?_, fun h x v hv hx => ?_⟩
  · have := h (-x) v hv ((key x v).2 hx)
    linarith
  · have := h (-x) v hv ((key (-x) v).1 (by rw [neg_neg]; exact hx))
    linarith

theorem le_highest {n : Type} [Fintype n] [DecidableEq n] {H : Matrix n n 𝕜} (hH : H.IsHermitian) {E : ℝ} (hE : Highest H E) (v : n → 𝕜) :
    expectation H v ≤ E * ∑ i, ‖v i‖ ^ 2 := by
  have := lowest_le hH.neg (highest_neg.2 hE) v
  rw [expectation_neg] at this
  linarith

theorem highest_exists {n : Type} [Fintype n] [DecidableEq n] [Nonempty n] {H : Matrix n n 𝕜} (hH : H.IsHermitian) : ∃ E, Highest H E := by
  obtain ⟨E, hE⟩ := lowest_exists hH.neg
  exact ⟨-E, highest_neg.1 (by rw [neg_neg]; exact hE)⟩

/-- The lowest eigenvalue is at least every lower bound of the quadratic form. -/
theorem le_lowest {n : Type} [Fintype n] {H : Matrix n n 𝕜} {E lo : ℝ} (hE : Lowest H E) (h : ∀ v, lo * ∑ i, ‖v i‖ ^ 2 ≤ expectation H v) : lo ≤ E := by
  obtain ⟨⟨v, hv, hx⟩, _⟩ := hE
  have hpos : 0 < ∑ i, ‖v i‖ ^ 2 := by
    obtain ⟨j, hj⟩ := Function.ne_iff.1 hv
    refine sum_pos' (fun _ _ => by positivity) ⟨j, mem_univ _, ?_⟩
    have : v j ≠ 0 := hj
    positivity
  have h3 : expectation H v = E * ∑ i, ‖v i‖ ^ 2 := by
    unfold expectation
    rw [hx, dotProduct_smul, smul_eq_mul]
    have : star v ⬝ᵥ v = ((∑ i, ‖v i‖ ^ 2 : ℝ) : 𝕜) := by
      simp only [dotProduct, Pi.star_apply, RCLike.star_def, RCLike.conj_mul]
      push_cast
      rfl
    rw [this, RCLike.re_ofReal_mul, RCLike.ofReal_re]
  exact le_of_mul_le_mul_right ((h v).trans_eq h3) hpos

end DM
end QuantiT
