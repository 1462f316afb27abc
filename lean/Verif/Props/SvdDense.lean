import Verif.Lemmas.SvdDense
import Verif.Lemmas.SvdExists
/-
The split and the truncated SVD of a dense tensor (C85).
-/
namespace QuantiT
namespace LA
open Finset Spec BT MP
variable {𝕜 : Type} [RCLike 𝕜]

/-- **C85.** `svd(A, split)` of any tensor of any rank and sizes: `A = u · diag d · v†` entry by entry, `u` and `v` have orthonormal
columns over the dimensions before and after `split`, and the values are real, not negative and in decreasing order. -/
theorem C85_split {fac : Blk 𝕜 → Blk 𝕜 × Blk 𝕜 × Blk 𝕜} (hfac : DenseSvd fac) (A : Blk 𝕜) (left right : List Nat) (hA : A.dims = left ++ right) :
    ∃ u d v, svdDense fac A left.length = .ok (u, d, v) ∧ OrthoColumns u left (min left.prod right.prod) ∧
      OrthoColumns v right (min left.prod right.prod) ∧ d.dims = [min left.prod right.prod] ∧
      (∃ σ : Nat → ℝ, Antitone σ ∧ (∀ k, 0 ≤ σ k) ∧ ∀ k, k < min left.prod right.prod → d.f [k] = (σ k : 𝕜)) ∧
      ∀ e f, InRange e left → InRange f right → A.f (e ++ f) = svdTerms u d v (min left.prod right.prod) e f := by
  obtain ⟨u, d, v, σ, a1, a2, a3, a4, a5, a6, a7, a8⟩ := svdDense_ok hfac A left.length (by rw [hA]; simp)
  simp only [hA, List.take_left', List.drop_left'] at a2 a3 a4 a7 a8
  exact ⟨u, d, v, a1, a2, a3, a4, ⟨σ, a5, a6, a7⟩, fun e f he hf => a8 e (mem_configs.2 he) f (mem_configs.2 hf)⟩

theorem distSq_cut {A u d v : Blk 𝕜} {left right : List Nat} {σ : Nat → ℝ} {K : Nat}
    (hu : ∀ a b, a < K → b < K → ∑ e ∈ configs left, star (u.f (e ++ [a])) * u.f (e ++ [b]) = if a = b then 1 else 0)
    (hv : ∀ a b, a < K → b < K → ∑ e ∈ configs right, star (v.f (e ++ [a])) * v.f (e ++ [b]) = if a = b then 1 else 0)
    (hd : ∀ k, k < K → d.f [k] = (σ k : 𝕜))
    (hA : ∀ e ∈ configs left, ∀ f ∈ configs right, A.f (e ++ f) = svdTerms u d v K e f) (k : Nat) (hk : k ≤ K) :
    distSq A left right (svdTerms u d v k) = ∑ m ∈ Ico k K, σ m ^ 2 := by
  have h := frob_terms (configs left) (configs right) K (fun e m => u.f (e ++ [m])) (fun m => if m < k then 0 else σ m)
    (fun f m => v.f (f ++ [m])) hu hv
  have e2 : ∑ m ∈ range K, (if m < k then 0 else σ m) ^ 2 = ∑ m ∈ Ico k K, σ m ^ 2 := by
    rw [← sum_range_add_sum_Ico _ hk, sum_eq_zero fun m hm => by rw [if_pos (mem_range.1 hm)]; ring, zero_add]
    exact sum_congr rfl fun m hm => by rw [if_neg (by have := mem_Ico.1 hm; omega)]
  rw [← e2, ← h]
  unfold distSq
  refine sum_congr rfl fun e he => sum_congr rfl fun f hf => ?_
  congr 2
  rw [hA e he f hf]
  unfold svdTerms
  rw [← sum_range_add_sum_Ico _ hk, add_sub_cancel_left, ← sum_range_add_sum_Ico _ hk,
    sum_eq_zero (s := range k) fun m hm => by rw [if_pos (mem_range.1 hm)]; simp, zero_add]
  refine sum_congr rfl fun m hm => ?_
  have := mem_Ico.1 hm
  rw [if_neg (by omega), hd m this.2]

/-- **C85.** `svd(A, split, tol, min_size, max_size)` of any tensor with at least one entry, for every tolerance and every limits with
`min_size` at least one.  It succeeds and keeps `k` values: at least `min_size` or all there are, at most `max_size` unless `min_size`
is larger.  The columns kept are orthonormal; the square of the distance to `A` is `∑ |A|² - ∑ d²`; it is at most `tol²` unless
`max_size` limits `k`; no sum of `k` products of a column and a row, whatever they are, is closer to `A`; and fewer than `k` but
at least `min_size` terms, whatever they are, are farther than `tol` from `A`. -/
theorem C85_truncated {fac : Blk 𝕜 → Blk 𝕜 × Blk 𝕜 × Blk 𝕜} (hfac : DenseSvd fac) (A : Blk 𝕜) (left right : List Nat)
    (hA : A.dims = left ++ right) (h0 : 0 < A.dims.prod) (h63 : A.dims.prod < 2 ^ 63) (tol : ℝ) (htol : 0 ≤ tol) (minS maxS : Nat)
    (hmin : 1 ≤ minS) :
    ∃ u d v k, svdCut fac A left.length tol minS maxS (fun x => x ^ 2) = .ok (u, d, v) ∧ 1 ≤ k ∧
      min minS (min left.prod right.prod) ≤ k ∧ k ≤ min left.prod right.prod ∧ k ≤ max minS maxS ∧
      OrthoColumns u left k ∧ OrthoColumns v right k ∧ d.dims = [k] ∧
      (∃ σ : Nat → ℝ, Antitone σ ∧ (∀ k, 0 ≤ σ k) ∧ ∀ m, m < k → d.f [m] = (σ m : 𝕜)) ∧
      distSq A left right (svdTerms u d v k) = sizeSq A left right - ∑ m ∈ range k, ‖d.f [m]‖ ^ 2 ∧
      (k < maxS → distSq A left right (svdTerms u d v k) ≤ tol ^ 2) ∧
      (∀ x y, distSq A left right (svdTerms u d v k) ≤ distSq A left right (terms x y k)) ∧
      ∀ j x y, minS ≤ j → j < k → tol ^ 2 < distSq A left right (terms x y j) := by
  obtain ⟨u, d, v, σ, k, K, a1, a2, a3, a4, a5, a6, a7, a8, a9, b1, b2, b3, b4, b5, b6, b7, b8⟩ :=
    svdCut_core hfac A left.length (by rw [hA]; simp) h0 h63 tol htol minS maxS hmin
  simp only [hA, List.take_left', List.drop_left'] at a2 a3 a4 a6 a7 b2
  have hbest : ∀ j x y, ∑ m ∈ Ico j K, σ m ^ 2 ≤ distSq A left right (terms x y j) := by
    intro j x y
    refine eckart_young (configs left) (configs right) K (fun e f => A.f (e ++ f)) (fun e m => u.f (e ++ [m])) σ
      (fun f m => v.f (f ++ [m])) a8 a9 a6 a7 ?_ j x y
    intro e he f hf
    rw [b2 e he f hf]
    unfold svdTerms
    exact sum_congr rfl fun m hm => by rw [b1 m (mem_range.1 hm)]
  have hdist := distSq_cut a6 a7 b1 b2
  have hsize : sizeSq A left right = ∑ m ∈ range K, σ m ^ 2 := by
    have h := hdist 0 (Nat.zero_le _)
    rw [Nat.Ico_zero_eq_range] at h
    rw [← h]
    unfold sizeSq svdTerms
    simp
  rw [← a2]
  refine ⟨u, d, v, k, a1, b3, b4, b5, b6, ⟨a3, ?_⟩, ⟨a4, ?_⟩, a5, ⟨σ, a8, a9, ?_⟩, ?_, ?_, ?_, ?_⟩
  · exact fun a b ha hb => a6 a b (by omega) (by omega)
  · exact fun a b ha hb => a7 a b (by omega) (by omega)
  · exact fun m hm => b1 m (by omega)
  · rw [hdist k b5, hsize, ← sum_range_add_sum_Ico _ b5, eq_sub_iff_add_eq, add_comm, add_left_inj]
    refine sum_congr rfl fun m hm => ?_
    rw [b1 m (by have := mem_range.1 hm; omega), RCLike.norm_ofReal, sq_abs]
  · intro hk
    rw [hdist k b5]
    exact b7 hk
  · intro x y
    rw [hdist k b5]
    exact hbest k x y
  · intro j x y hj hjk
    exact lt_of_lt_of_le (b8 j hjk hj) (hbest j x y)

/-- A tensor without entries cannot be truncated: the index of its last singular value does not exist. -/
theorem C85_empty {fac : Blk 𝕜 → Blk 𝕜 × Blk 𝕜 × Blk 𝕜} (hfac : DenseSvd fac) (A : Blk 𝕜) (split : Nat) (hs : split ≤ A.dims.length)
    (h0 : A.dims.prod = 0) (tol : ℝ) (minS maxS : Nat) (pw : ℝ → ℝ) :
    svdCut fac A split tol minS maxS pw = Res.throw .outOfRange := by
  obtain ⟨u, d, v, σ, a1, a2, a3, a4, _⟩ := svdDense_ok hfac A split hs
  have hp : (A.dims.take split).prod * (A.dims.drop split).prod = A.dims.prod := by
    rw [← List.prod_append, List.take_append_drop]
  rw [h0] at hp
  have hK : min (A.dims.take split).prod (A.dims.drop split).prod = 0 := by
    rcases Nat.mul_eq_zero.1 hp with h | h <;> omega
  rw [hK] at a4
  unfold svdCut truncateDense
  simp only [a1, bind, Except.bind]
  have : valueRows d = ⟨0, [[]]⟩ := by unfold valueRows; rw [a4]; rfl
  unfold computeLastIndex
  rw [this]
  rfl

/-- **C85** (without limits on the number of values).  `svd(A, split, tol)` keeps the fewest values, at least one, for which the distance is at most `tol`. -/
theorem C85_tol {fac : Blk 𝕜 → Blk 𝕜 × Blk 𝕜 × Blk 𝕜} (hfac : DenseSvd fac) (A : Blk 𝕜) (left right : List Nat)
    (hA : A.dims = left ++ right) (h0 : 0 < A.dims.prod) (h63 : A.dims.prod < 2 ^ 63) (tol : ℝ) (htol : 0 ≤ tol) :
    ∃ u d v k, svdTol fac A left.length tol (fun x => x ^ 2) = .ok (u, d, v) ∧ 1 ≤ k ∧ k ≤ min left.prod right.prod ∧
      OrthoColumns u left k ∧ OrthoColumns v right k ∧ d.dims = [k] ∧
      (∃ σ : Nat → ℝ, Antitone σ ∧ (∀ k, 0 ≤ σ k) ∧ ∀ m, m < k → d.f [m] = (σ m : 𝕜)) ∧
      distSq A left right (svdTerms u d v k) ≤ tol ^ 2 ∧
      (∀ x y, distSq A left right (svdTerms u d v k) ≤ distSq A left right (terms x y k)) ∧
      ∀ j x y, 1 ≤ j → j < k → tol ^ 2 < distSq A left right (terms x y j) := by
  obtain ⟨u, d, v, k, c1, c2, _, c4, _, c6, c7, c8, c9, _, d1, d2, d3⟩ := C85_truncated hfac A left right hA h0 h63 tol htol 1 (2 ^ 64 - 1) le_rfl
  refine ⟨u, d, v, k, c1, c2, c4, c6, c7, c8, c9, d1 ?_, d2, d3⟩
  have hp : left.prod * right.prod = A.dims.prod := by rw [hA, List.prod_append]
  have hr : 0 < right.prod := by
    rcases Nat.eq_zero_or_pos right.prod with h | h
    · rw [h, Nat.mul_zero] at hp; omega
    · exact h
  have : left.prod ≤ A.dims.prod := by rw [← hp]; exact Nat.le_mul_of_pos_right _ hr
  have e1 : (2 : Nat) ^ 63 = 9223372036854775808 := by norm_num
  have e2 : (2 : Nat) ^ 64 = 18446744073709551616 := by norm_num
  omega

/-- A routine as assumed exists, over the real and over the complex numbers. -/
theorem denseSvd_exists (𝕜 : Type) [RCLike 𝕜] : ∃ fac : Blk 𝕜 → Blk 𝕜 × Blk 𝕜 × Blk 𝕜, DenseSvd fac := by
  obtain ⟨fac, h1, h2, h3, d, h4, h5, h6⟩ := dense_svd_exists 𝕜
  exact ⟨fac, h1, h2, h3, fun m nr nc _ => ⟨d m [], h5 m [], h6 m [], fun k _ => h4 m [] k⟩⟩

/-- `diag(3, 1)`, tolerance one: one value is kept, and the square of the distance is at most one.  With tolerance one half two are. -/
example (fac : Blk ℝ → Blk ℝ × Blk ℝ × Blk ℝ) (hfac : DenseSvd fac) :
    let A : Blk ℝ := ⟨[2, 2], fun o => if o = [0, 0] then 3 else if o = [1, 1] then 1 else 0⟩
    (∃ u d v, svdCut fac A 1 1 1 10 (fun x => x ^ 2) = .ok (u, d, v) ∧ d.dims = [1]) ∧
    ∃ u d v, svdCut fac A 1 (1/2) 1 10 (fun x => x ^ 2) = .ok (u, d, v) ∧ d.dims = [2] := by
  intro A
  have hd : ∀ B : List Nat → List Nat → ℝ, distSq A [2] [2] B
      = (3 - B [0] [0]) ^ 2 + B [0] [1] ^ 2 + (B [1] [0] ^ 2 + (1 - B [1] [1]) ^ 2) := by
    intro B
    have hc : configs [2] = {[0], [1]} := by decide
    unfold distSq
    rw [hc]
    simp [A]
  have hdet : ∀ x y : List Nat → Nat → ℝ, terms x y 1 [0] [0] * terms x y 1 [1] [1] = terms x y 1 [0] [1] * terms x y 1 [1] [0] := by
    intro x y; simp [terms]; ring
  constructor
  · obtain ⟨u, d, v, k, h1, h2, h3, h4, h5, h6, h7, h8, h9, h10, h11, h12, h13⟩ :=
      C85_truncated hfac A [2] [2] rfl (by decide) (by norm_num [A]) 1 (by norm_num) 1 10 le_rfl
    refine ⟨u, d, v, h1, ?_⟩
    have : ¬ 1 < k := by
      intro hk
      have := h13 1 (fun e _ => if e = [0] then 3 else 0) (fun f _ => if f = [0] then 1 else 0) le_rfl hk
      rw [hd] at this
      norm_num [terms] at this
    rw [h8, show k = 1 by omega]
  · obtain ⟨u, d, v, k, h1, h2, h3, h4, h5, h6, h7, h8, h9, h10, h11, h12, h13⟩ :=
      C85_truncated hfac A [2] [2] rfl (by decide) (by norm_num [A]) (1/2) (by norm_num) 1 10 le_rfl
    refine ⟨u, d, v, h1, ?_⟩
    have hk2 : k ≤ 2 := by simpa using h4
    have : k ≠ 1 := by
      rintro rfl
      have h := h11 (by norm_num)
      rw [hd] at h
      have hx := hdet (fun e m => u.f (e ++ [m]) * d.f [m]) (fun f m => star (v.f (f ++ [m])))
      have he : ∀ e f, terms (fun e m => u.f (e ++ [m]) * d.f [m]) (fun f m => star (v.f (f ++ [m]))) 1 e f = svdTerms u d v 1 e f := fun e f => rfl
      rw [he, he, he, he] at hx
      generalize svdTerms u d v 1 [0] [0] = a at *
      generalize svdTerms u d v 1 [0] [1] = b at *
      generalize svdTerms u d v 1 [1] [0] = c at *
      generalize svdTerms u d v 1 [1] [1] = e at *
      have ha : 5/2 ≤ a := by nlinarith [sq_nonneg b, sq_nonneg c, sq_nonneg (1 - e)]
      have he' : 1/2 ≤ e := by nlinarith [sq_nonneg b, sq_nonneg c, sq_nonneg (3 - a)]
      nlinarith [sq_nonneg (b - c), sq_nonneg (b + c), mul_le_mul ha he' (by norm_num) (by linarith), sq_nonneg (3 - a), sq_nonneg (1 - e)]
    rw [h8, show k = 2 by omega]

end LA
end QuantiT
