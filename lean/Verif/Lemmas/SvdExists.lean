import Verif.Spec.Linalg
import Verif.Spec.BlockTruncate
import Mathlib.Analysis.InnerProductSpace.SingularValues
import Mathlib.Analysis.InnerProductSpace.PiL2
import Mathlib.Analysis.Matrix.Spectrum
/-
Every batch of real or complex matrices has a singular value decomposition, and every batch of hermitian matrices an eigenvector
decomposition: the assumptions made about the dense solvers can be met.
-/
namespace QuantiT
open Spec Finset Module
open scoped InnerProductSpace

section
variable {𝕜 : Type} [RCLike 𝕜] {E F : Type} [NormedAddCommGroup E] [InnerProductSpace 𝕜 E] [FiniteDimensional 𝕜 E]
  [NormedAddCommGroup F] [InnerProductSpace 𝕜 F] [FiniteDimensional 𝕜 F]

theorem svd_maps (T : E →ₗ[𝕜] F) {n m : Nat} (hn : finrank 𝕜 E = n) (hm : finrank 𝕜 F = m) :
    ∃ (b : OrthonormalBasis (Fin n) 𝕜 E) (c : OrthonormalBasis (Fin m) 𝕜 F),
      (∀ (k : Fin n) (h : k.val < m), T (b k) = (T.singularValues k : 𝕜) • c ⟨k, h⟩) ∧
      ∀ (k : Fin n), m ≤ k.val → T (b k) = 0 := by
  have hsym := T.isSymmetric_adjoint_comp_self
  let b := hsym.eigenvectorBasis hn
  have hS : ∀ i j, ⟪T (b i), T (b j)⟫_𝕜 = if i = j then ((T.singularValues j ^ 2 : ℝ) : 𝕜) else 0 := by
    intro i j
    rw [← LinearMap.adjoint_inner_right]
    have h1 := hsym.apply_eigenvectorBasis hn j
    rw [LinearMap.comp_apply] at h1
    rw [show b j = hsym.eigenvectorBasis hn j from rfl, h1, inner_smul_right]
    have h2 := b.inner_eq_ite i j
    rw [show hsym.eigenvectorBasis hn j = b j from rfl, h2, T.sq_singularValues_fin hn j]
    split <;> simp
  have hzero : ∀ k : Fin n, T.singularValues k = 0 → T (b k) = 0 := by
    intro k hk
    have := hS k k
    rw [if_pos rfl, hk] at this
    simpa using this
  let w : Fin m → F := fun i => if h : i.val < n then ((T.singularValues i : 𝕜))⁻¹ • T (b ⟨i, h⟩) else 0
  let s : Set (Fin m) := {i | T.singularValues i ≠ 0}
  have hlt : ∀ i : Nat, T.singularValues i ≠ 0 → i < n := by
    intro i hi
    by_contra hc
    exact hi (T.singularValues_of_finrank_le (by omega))
  have horth : Orthonormal 𝕜 (s.domRestrict w) := by
    rw [orthonormal_iff_ite]
    rintro ⟨i, hi⟩ ⟨j, hj⟩
    have hi' := hlt i hi
    have hj' := hlt j hj
    show ⟪w i, w j⟫_𝕜 = _
    simp only [w, hi', hj', dif_pos, inner_smul_left, inner_smul_right, hS]
    by_cases hij : i = j
    · subst hij
      have : (T.singularValues i : 𝕜) ≠ 0 := by exact_mod_cast hi
      simp
      field_simp
    · have h1 : ¬ (i.val = j.val) := fun h => hij (Fin.ext h)
      simp [hij, h1]
  obtain ⟨c, hc⟩ := horth.exists_orthonormalBasis_extension_of_card_eq (by simpa using hm)
  refine ⟨b, c, ?_, ?_⟩
  · intro k h
    by_cases h0 : T.singularValues k = 0
    · rw [hzero k h0, h0]
      simp
    · rw [hc ⟨k, h⟩ h0]
      have : (T.singularValues k : 𝕜) ≠ 0 := by exact_mod_cast h0
      simp only [w, k.2, dif_pos]
      rw [smul_inv_smul₀ this]
  · intro k h
    refine hzero k ?_
    rw [T.singularValues_eq_zero_iff_le_finrank_range]
    exact le_trans (hm ▸ Submodule.finrank_le _) h

end

theorem svd_exists {𝕜 : Type} [RCLike 𝕜] (nr nc : Nat) (A : Nat → Nat → 𝕜) :
    ∃ (u : Nat → Nat → 𝕜) (d : Nat → ℝ) (v : Nat → Nat → 𝕜),
      (∀ r c, r < nr → c < nc → A r c = ∑ k ∈ range (min nr nc), u r k * (d k : 𝕜) * star (v c k)) ∧
      (∀ a b, a < min nr nc → b < min nr nc →
        (∑ r ∈ range nr, star (u r a) * u r b = if a = b then 1 else 0) ∧
        (∑ c ∈ range nc, star (v c a) * v c b = if a = b then 1 else 0)) ∧
      Antitone d ∧ ∀ k, 0 ≤ d k := by
  let M : Matrix (Fin nr) (Fin nc) 𝕜 := fun r c => A r c
  let T := Matrix.toEuclideanLin M
  obtain ⟨b, c, h1, h2⟩ := svd_maps T (n := nc) (m := nr) (by simp) (by simp)
  let u : Nat → Nat → 𝕜 := fun r k => if h : r < nr ∧ k < nr then c ⟨k, h.2⟩ ⟨r, h.1⟩ else 0
  let v : Nat → Nat → 𝕜 := fun x k => if h : x < nc ∧ k < nc then b ⟨k, h.2⟩ ⟨x, h.1⟩ else 0
  refine ⟨u, fun k => T.singularValues k, v, ?_, ?_, T.singularValues_antitone, T.singularValues_nonneg⟩
  · intro r x hr hx
    have e1 : A r x = T (EuclideanSpace.single ⟨x, hx⟩ 1) ⟨r, hr⟩ := by
      have : (T (EuclideanSpace.single ⟨x, hx⟩ 1)).ofLp = M.mulVec (EuclideanSpace.single ⟨x, hx⟩ (1 : 𝕜)).ofLp := rfl
      rw [this, EuclideanSpace.ofLp_single, Matrix.mulVec_single_one]
      rfl
    have e2 : T (EuclideanSpace.single ⟨x, hx⟩ 1) = ∑ k, star (b k ⟨x, hx⟩) • T (b k) := by
      conv_lhs => rw [← b.sum_repr' (EuclideanSpace.single ⟨x, hx⟩ (1 : 𝕜))]
      rw [map_sum]
      refine Finset.sum_congr rfl fun k _ => ?_
      rw [map_smul]
      congr 1
      simp [EuclideanSpace.inner_single_right]
    have e3 : A r x = ∑ k : Fin nc, star (b k ⟨x, hx⟩) * (T (b k)) ⟨r, hr⟩ := by
      rw [e1, e2]
      simp [Finset.sum_apply]
    have e4 : ∀ k : Fin nc, star (b k ⟨x, hx⟩) * (T (b k)) ⟨r, hr⟩ =
        if k.val < min nr nc then u r k * ((T.singularValues k : ℝ) : 𝕜) * star (v x k) else 0 := by
      intro k
      by_cases hk : k.val < nr
      · rw [if_pos (by have := k.2; omega), h1 k hk]
        simp only [u, v, hr, hx, hk, k.2, and_self, dif_pos, PiLp.smul_apply, smul_eq_mul]
        ring
      · rw [if_neg (by omega), h2 k (by omega)]
        simp
    rw [e3, Finset.sum_congr rfl fun k _ => e4 k, ← Finset.sum_range (fun k => if k < min nr nc then
      u r k * ((T.singularValues k : ℝ) : 𝕜) * star (v x k) else 0)]
    rw [← Finset.sum_subset (s₁ := range (min nr nc)) (Finset.range_subset_range.2 (Nat.min_le_right _ _)) (fun k _ h => by
      rw [if_neg (by simpa using h)])]
    exact Finset.sum_congr rfl fun k hk => if_pos (Finset.mem_range.1 hk)
  · intro a a' ha ha'
    constructor
    · have := c.inner_eq_ite ⟨a, by omega⟩ ⟨a', by omega⟩
      simp only [Fin.mk.injEq, PiLp.inner_apply, RCLike.inner_apply] at this
      rw [← this, Finset.sum_range]
      refine Finset.sum_congr rfl fun r _ => ?_
      simp [u, show a < nr by omega, show a' < nr by omega, mul_comm]
    · have := b.inner_eq_ite ⟨a, by omega⟩ ⟨a', by omega⟩
      simp only [Fin.mk.injEq, PiLp.inner_apply, RCLike.inner_apply] at this
      rw [← this, Finset.sum_range]
      refine Finset.sum_congr rfl fun r _ => ?_
      simp [v, show a < nc by omega, show a' < nc by omega, mul_comm]

/-- The dense SVD of real or complex matrices exists, with all the properties assumed of it.  The values are real and in
decreasing order. -/
theorem dense_svd_exists (𝕜 : Type) [RCLike 𝕜] : ∃ fac : Blk 𝕜 → Blk 𝕜 × Blk 𝕜 × Blk 𝕜, SvdSizes fac ∧ SvdProduct fac ∧ SvdOrtho fac ∧
    ∃ d : Blk 𝕜 → List Nat → Nat → ℝ, (∀ m e k, (fac m).2.1.f (e ++ [k]) = (d m e k : 𝕜)) ∧ (∀ m e, Antitone (d m e)) ∧
      ∀ m e k, 0 ≤ d m e k := by
  have H := fun (m : Blk 𝕜) (e : List Nat) => svd_exists (𝕜 := 𝕜) (m.dims.getD (m.dims.length - 2) 0) (m.dims.getD (m.dims.length - 1) 0)
    (fun r c => m.f (e ++ [r, c]))
  choose u d v h1 h2 h3 h4 using H
  have hd : ∀ {m : Blk 𝕜} {ld nr nc}, m.dims = ld ++ [nr, nc] →
      m.dims.getD (m.dims.length - 2) 0 = nr ∧ m.dims.getD (m.dims.length - 1) 0 = nc ∧ m.dims.take (m.dims.length - 2) = ld := by
    intro m ld nr nc h
    rw [h]
    simp
  refine ⟨fun m => (⟨m.dims.take (m.dims.length - 2) ++ [m.dims.getD (m.dims.length - 2) 0,
      min (m.dims.getD (m.dims.length - 2) 0) (m.dims.getD (m.dims.length - 1) 0)],
      fun o => u m (o.take (o.length - 2)) (o.getD (o.length - 2) 0) (o.getD (o.length - 1) 0)⟩,
    ⟨m.dims.take (m.dims.length - 2) ++ [min (m.dims.getD (m.dims.length - 2) 0) (m.dims.getD (m.dims.length - 1) 0)],
      fun o => (d m (o.take (o.length - 1)) (o.getD (o.length - 1) 0) : 𝕜)⟩,
    ⟨m.dims.take (m.dims.length - 2) ++ [m.dims.getD (m.dims.length - 1) 0,
      min (m.dims.getD (m.dims.length - 2) 0) (m.dims.getD (m.dims.length - 1) 0)],
      fun o => v m (o.take (o.length - 2)) (o.getD (o.length - 2) 0) (o.getD (o.length - 1) 0)⟩), ?_, ?_, ?_, d, ?_, h3, h4⟩
  · intro m ld nr nc h
    obtain ⟨e1, e2, e3⟩ := hd h
    simp only [e1, e2, e3, and_self]
  · intro m ld nr nc h e r c he hr hc
    obtain ⟨e1, e2, e3⟩ := hd h
    have := h1 m e r c (by rw [e1]; exact hr) (by rw [e2]; exact hc)
    rw [e1, e2] at this
    rw [this]
    simp
  · intro m ld nr nc h e a b he ha hb
    obtain ⟨e1, e2, e3⟩ := hd h
    have := h2 m e a b (by rw [e1, e2]; exact ha) (by rw [e1, e2]; exact hb)
    rw [e1, e2] at this
    simpa using this
  · intro m e k
    simp

theorem real_svd_exists : ∃ fac : Blk ℝ → Blk ℝ × Blk ℝ × Blk ℝ, SvdSizes fac ∧ SvdProduct fac ∧ SvdOrtho fac ∧ SvdDescending fac := by
  obtain ⟨fac, h1, h2, h3, d, h4, h5, _⟩ := dense_svd_exists ℝ
  refine ⟨fac, h1, h2, h3, ?_⟩
  intro m ld nr nc _ e i j _ hij _
  rw [h4, h4]
  exact h5 m e hij

theorem eigh_exists {𝕜 : Type} [RCLike 𝕜] (n : Nat) (A : Nat → Nat → 𝕜) :
    ∃ (d : Nat → ℝ) (u : Nat → Nat → 𝕜), (∀ r c, r < n → c < n → A r c = star (A c r)) →
      (∀ r c, r < n → c < n → A r c = ∑ k ∈ range n, u r k * (d k : 𝕜) * star (u c k)) ∧
      ∀ a b, a < n → b < n → ∑ r ∈ range n, star (u r a) * u r b = if a = b then 1 else 0 := by
  by_cases hA : ∀ r c, r < n → c < n → A r c = star (A c r)
  swap
  · exact ⟨fun _ => 0, fun _ _ => 0, fun h => absurd h hA⟩
  let M : Matrix (Fin n) (Fin n) 𝕜 := fun r c => A r c
  have hM : M.IsHermitian := by
    ext i j
    exact (hA i j i.2 j.2).symm
  let b := hM.eigenvectorBasis
  let u : Nat → Nat → 𝕜 := fun x k => if h : x < n ∧ k < n then b ⟨k, h.2⟩ ⟨x, h.1⟩ else 0
  refine ⟨fun k => if h : k < n then hM.eigenvalues ⟨k, h⟩ else 0, u, fun _ => ⟨?_, ?_⟩⟩
  · intro r x hr hx
    have e0 : A r x = M.mulVec (EuclideanSpace.single ⟨x, hx⟩ (1 : 𝕜)).ofLp ⟨r, hr⟩ := by
      rw [EuclideanSpace.ofLp_single, Matrix.mulVec_single_one]
      rfl
    have e1 : (EuclideanSpace.single ⟨x, hx⟩ (1 : 𝕜)).ofLp = ∑ k, star (b k ⟨x, hx⟩) • (b k).ofLp := by
      conv_lhs => rw [← b.sum_repr' (EuclideanSpace.single ⟨x, hx⟩ (1 : 𝕜))]
      rw [WithLp.ofLp_sum]
      refine Finset.sum_congr rfl fun k _ => ?_
      rw [WithLp.ofLp_smul]
      congr 1
      simp [EuclideanSpace.inner_single_right]
    rw [e0, e1, Matrix.mulVec_sum, Finset.sum_apply, Finset.sum_range]
    refine Finset.sum_congr rfl fun k _ => ?_
    rw [Matrix.mulVec_smul, hM.mulVec_eigenvectorBasis]
    simp only [u, hr, hx, k.2, and_self, dif_pos, Pi.smul_apply, smul_eq_mul, Fin.eta]
    rw [RCLike.real_smul_eq_coe_mul]
    ring
  · intro a a' ha ha'
    have := b.inner_eq_ite ⟨a, by omega⟩ ⟨a', by omega⟩
    simp only [Fin.mk.injEq, PiLp.inner_apply, RCLike.inner_apply] at this
    rw [← this, Finset.sum_range]
    refine Finset.sum_congr rfl fun r _ => ?_
    simp [u, ha, ha', mul_comm]

/-- The dense eigenvector decomposition of real or complex hermitian matrices exists, with all the properties assumed of it. -/
theorem dense_eigh_exists (𝕜 : Type) [RCLike 𝕜] : ∃ fac : Blk 𝕜 → Blk 𝕜 × Blk 𝕜, EighSizes fac ∧ EighProduct fac ∧ EighOrtho fac := by
  have H := fun (m : Blk 𝕜) (e : List Nat) => eigh_exists (𝕜 := 𝕜) (m.dims.getD (m.dims.length - 1) 0) (fun r c => m.f (e ++ [r, c]))
  choose d u h using H
  have hd : ∀ {m : Blk 𝕜} {ld n}, m.dims = ld ++ [n, n] →
      m.dims.getD (m.dims.length - 1) 0 = n ∧ m.dims.take (m.dims.length - 2) = ld := by
    intro m ld n h
    rw [h]
    simp
  refine ⟨fun m => (⟨m.dims.take (m.dims.length - 2) ++ [m.dims.getD (m.dims.length - 1) 0],
      fun o => (d m (o.take (o.length - 1)) (o.getD (o.length - 1) 0) : 𝕜)⟩,
    ⟨m.dims.take (m.dims.length - 2) ++ [m.dims.getD (m.dims.length - 1) 0, m.dims.getD (m.dims.length - 1) 0],
      fun o => u m (o.take (o.length - 2)) (o.getD (o.length - 2) 0) (o.getD (o.length - 1) 0)⟩), ?_, ?_, ?_⟩
  · intro m ld n h
    obtain ⟨e1, e2⟩ := hd h
    simp only [e1, e2, and_self]
  · intro m ld n hm hh e r c he hr hc
    obtain ⟨e1, e2⟩ := hd hm
    have := (h m e (by rw [e1]; exact fun r c h1 h2 => hh e r c he h1 h2)).1 r c (by rw [e1]; exact hr) (by rw [e1]; exact hc)
    rw [e1] at this
    rw [this]
    simp
  · intro m ld n hm hh e a b he ha hb
    obtain ⟨e1, e2⟩ := hd hm
    have := (h m e (by rw [e1]; exact fun r c h1 h2 => hh e r c he h1 h2)).2 a b (by rw [e1]; exact ha) (by rw [e1]; exact hb)
    rw [e1] at this
    simpa using this

end QuantiT
