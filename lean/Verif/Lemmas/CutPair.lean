import Verif.Props.Update
import Verif.Props.SvdDense
import Verif.Lemmas.Rayleigh
/-
The truncated SVD of a normalised two-site tensor, renormalised.
-/
namespace QuantiT
namespace DM
open Finset Spec MP
variable {𝕜 : Type} [RCLike 𝕜]

theorem distSq_toV (θ : Blk 𝕜) (l s t r : Nat) (B : List Nat → List Nat → 𝕜) :
    distSq θ [l, s] [t, r] B = ‖toV [l, s, t, r] θ - toV [l, s, t, r] (⟨[l, s, t, r], fun o => B (o.take 2) (o.drop 2)⟩ : Blk 𝕜)‖ ^ 2 := by
  have : toV [l, s, t, r] θ - toV [l, s, t, r] (⟨[l, s, t, r], fun o => B (o.take 2) (o.drop 2)⟩ : Blk 𝕜)
      = toV [l, s, t, r] (⟨[l, s, t, r], fun o => θ.f o - B (o.take 2) (o.drop 2)⟩ : Blk 𝕜) := rfl
  rw [this, norm_toV]
  unfold distSq
  simp only [sum_configs_cons', sum_configs_nil]
  rfl

theorem re_overlap_of_dist {V : Type} [NormedAddCommGroup V] [InnerProductSpace 𝕜 V] (θ φ : V) (hθ : ‖θ‖ = 1) (hφ : ‖φ‖ = 1) (c : ℝ) (hc : 0 < c)
    (h : ‖θ - (c : 𝕜) • φ‖ ^ 2 = 1 - c ^ 2) : RCLike.re (inner 𝕜 φ θ) = c := by
  rw [@norm_sub_sq 𝕜, norm_smul, hθ, hφ, RCLike.norm_ofReal, abs_of_pos hc, inner_smul_right, RCLike.re_ofReal_mul,
    ← inner_conj_symm, RCLike.conj_re] at h
  have : c * (RCLike.re (inner 𝕜 φ θ) - c) = 0 := by nlinarith
  rcases mul_eq_zero.1 this with h | h
  · exact absurd h hc.ne'
  · linarith

theorem overlap_le_of_dist {V : Type} [NormedAddCommGroup V] [InnerProductSpace 𝕜 V] (θ χ : V) (hθ : ‖θ‖ = 1) (hχ : ‖χ‖ = 1) (δ : ℝ)
    (h : ∀ z : 𝕜, δ ≤ ‖θ - z • χ‖ ^ 2) : ‖inner 𝕜 χ θ‖ ^ 2 ≤ 1 - δ := by
  have := h (inner 𝕜 χ θ)
  rw [@norm_sub_sq 𝕜, norm_smul, hθ, hχ, inner_smul_right, ← inner_conj_symm θ χ, RCLike.mul_conj] at this
  have e : RCLike.re ((‖inner 𝕜 χ θ‖ : 𝕜) ^ 2) = ‖inner 𝕜 χ θ‖ ^ 2 := by
    rw [← RCLike.ofReal_pow, RCLike.ofReal_re]
  rw [e] at this
  linarith

theorem cut_pair_pos {fac : Blk 𝕜 → Blk 𝕜 × Blk 𝕜 × Blk 𝕜} (hfac : DenseSvd fac) (θ : Blk 𝕜) (l s t r : Nat) (hθ : θ.dims = [l, s, t, r])
    (hn : ‖toV [l, s, t, r] θ‖ = 1) (h63 : θ.dims.prod < 2 ^ 63) (tol : ℝ) (htol : 0 ≤ tol) (minS maxS : Nat) (hmin : 1 ≤ minS) :
    ∃ u d v φ k, ∃ c : ℝ, LA.svdCut fac θ 2 tol minS maxS (fun x => x ^ 2) = .ok (u, d, v) ∧ φ.dims = [l, s, t, r] ∧ ‖toV [l, s, t, r] φ‖ = 1 ∧
      SvdPair φ u (unitSum d) v l s t r k ∧ unitSum (unitSum d) = unitSum d ∧ 0 < c ∧ inner 𝕜 (toV [l, s, t, r] φ) (toV [l, s, t, r] θ) = (c : 𝕜) ∧
      1 ≤ k ∧ min minS (min (l * s) (t * r)) ≤ k ∧ k ≤ min (l * s) (t * r) ∧ k ≤ max minS maxS ∧ (k < maxS → 1 - c ^ 2 ≤ tol ^ 2) ∧
      ∀ (χ : Blk 𝕜) (k' : Nat) (x y : List Nat → Nat → 𝕜), ‖toV [l, s, t, r] χ‖ = 1 →
        (∀ o ∈ configs [l, s, t, r], χ.f o = terms x y k' (o.take 2) (o.drop 2)) →
        (k' ≤ k → ‖inner 𝕜 (toV [l, s, t, r] χ) (toV [l, s, t, r] θ)‖ ^ 2 ≤ c ^ 2) ∧
        (minS ≤ k' → k' < k → ‖inner 𝕜 (toV [l, s, t, r] χ) (toV [l, s, t, r] θ)‖ ^ 2 < 1 - tol ^ 2) := by
  have h0 : 0 < θ.dims.prod := by
    rw [hθ]
    by_contra hc
    have hz : [l, s, t, r].prod = 0 := by omega
    have he : configs [l, s, t, r] = ∅ := by
      rw [Finset.eq_empty_iff_forall_notMem]
      intro o ho
      rw [mem_configs] at ho
      have := BT.flat_lt ho
      omega
    have hn' := norm_toV [l, s, t, r] θ
    rw [hn, sum_eq_zero (fun o ho => absurd (he ▸ ho) (Finset.notMem_empty o))] at hn'
    norm_num at hn'
  obtain ⟨u, d, v, σ, k, K, a1, a2, a3, a4, a5, a6, a7, a8, a9, b1, b2, b3, b4, b5, b6, b7, b8⟩ :=
    LA.svdCut_core hfac θ 2 (by rw [hθ]; simp) h0 h63 tol htol minS maxS hmin
  have e1 : θ.dims.take 2 = [l, s] := by rw [hθ]; rfl
  have e2 : θ.dims.drop 2 = [t, r] := by rw [hθ]; rfl
  rw [e1, e2] at a2
  rw [e1] at a3 a6 b2
  rw [e2] at a4 a7 b2
  have hdist := LA.distSq_cut a6 a7 b1 b2
  have htot : ∑ m ∈ range K, σ m ^ 2 = 1 := by
    have h := hdist 0 (Nat.zero_le _)
    rw [Nat.Ico_zero_eq_range] at h
    rw [← h, distSq_toV]
    have : toV [l, s, t, r] (⟨[l, s, t, r], fun o => svdTerms u d v 0 (o.take 2) (o.drop 2)⟩ : Blk 𝕜) = 0 := by
      ext o; simp [toV, svdTerms]
    rw [this, sub_zero, hn]; norm_num
  have hsplit := sum_range_add_sum_Ico (fun m => σ m ^ 2) b5
  rw [htot] at hsplit
  have hpos : 0 < ∑ m ∈ range k, σ m ^ 2 := by
    by_contra hneg
    have h0' : ∑ m ∈ range k, σ m ^ 2 = 0 := le_antisymm (not_lt.1 hneg) (sum_nonneg fun m _ => sq_nonneg _)
    have hs0 : σ 0 = 0 := by
      have := (sum_eq_zero_iff_of_nonneg fun m _ => sq_nonneg (σ m)).1 h0' 0 (mem_range.2 (by omega))
      exact pow_eq_zero_iff (by norm_num) |>.1 this
    have : ∑ m ∈ range K, σ m ^ 2 = 0 := sum_eq_zero fun m _ => by
      have h1 := a8 (Nat.zero_le m)
      have h2 := a9 m
      have : σ m = 0 := by linarith
      rw [this]; norm_num
    rw [htot] at this
    norm_num at this
  let c : ℝ := √(∑ m ∈ range k, σ m ^ 2)
  have hc : 0 < c := Real.sqrt_pos.2 hpos
  have hc2 : c ^ 2 = ∑ m ∈ range k, σ m ^ 2 := Real.sq_sqrt hpos.le
  have hd : ∀ m, m < k → d.f [m] = (σ m : 𝕜) := fun m hm => b1 m (by omega)
  have hus : ∑ o ∈ configs d.dims, RCLike.re (d.f o) ^ 2 = c ^ 2 := by
    rw [a5, hc2]
    simp only [sum_configs_cons', sum_configs_nil]
    exact sum_congr rfl fun m hm => by rw [hd m (mem_range.1 hm), RCLike.ofReal_re]
  have hud : unitSum d = divBy d c := by unfold unitSum; rw [hus, Real.sqrt_sq hc.le]
  have hudf : ∀ m, m < k → (unitSum d).f [m] = ((σ m / c : ℝ) : 𝕜) := by
    intro m hm
    rw [hud]
    show d.f [m] / (c : 𝕜) = _
    rw [hd m hm]; push_cast; rfl
  have huu : unitSum (unitSum d) = unitSum d := by
    have h1 : ∑ o ∈ configs (unitSum d).dims, RCLike.re ((unitSum d).f o) ^ 2 = 1 := by
      have : (unitSum d).dims = [k] := a5
      rw [this]
      simp only [sum_configs_cons', sum_configs_nil]
      rw [sum_congr rfl fun m hm => by rw [hudf m (mem_range.1 hm), RCLike.ofReal_re, div_pow], ← sum_div, ← hc2]
      exact div_self (by positivity)
    show divBy (unitSum d) _ = _
    rw [h1, Real.sqrt_one]
    unfold divBy
    simp
  let φ : Blk 𝕜 := ⟨[l, s, t, r], fun o => svdTerms u (unitSum d) v k (o.take 2) (o.drop 2)⟩
  have hcφ : (c : 𝕜) • toV [l, s, t, r] φ
      = toV [l, s, t, r] (⟨[l, s, t, r], fun o => svdTerms u d v k (o.take 2) (o.drop 2)⟩ : Blk 𝕜) := by
    ext o
    show (c : 𝕜) * svdTerms u (unitSum d) v k (o.1.take 2) (o.1.drop 2) = svdTerms u d v k (o.1.take 2) (o.1.drop 2)
    unfold svdTerms
    rw [mul_sum]
    refine sum_congr rfl fun m hm => ?_
    rw [hudf m (mem_range.1 hm), hd m (mem_range.1 hm)]
    push_cast
    have hc' : (c : 𝕜) ≠ 0 := by exact_mod_cast hc.ne'
    field_simp
  have hp : SvdPair φ u (unitSum d) v l s t r k := by
    refine ⟨by rw [a3]; rfl, a5, by rw [a4]; rfl, ?_, ?_, ?_, ?_⟩
    · intro m hm
      rw [hudf m hm]
      exact RCLike.conj_ofReal _
    · intro a b ha hb
      have := a6 a b (by omega) (by omega)
      simp only [sum_configs_cons', sum_configs_nil] at this
      exact this
    · intro a b ha hb
      have := a7 a b (by omega) (by omega)
      simp only [sum_configs_cons', sum_configs_nil] at this
      exact this
    · intro i c c' j _ _ _ _
      rfl
  have hφn : ‖toV [l, s, t, r] φ‖ = 1 := by
    have h1 := svd_norm hp
    rw [← inner_toV, inner_self_eq_norm_sq_to_K] at h1
    have h2 : ∑ m ∈ range k, (unitSum d).f [m] * star ((unitSum d).f [m]) = ((1 : ℝ) : 𝕜) := by
      have : (1 : ℝ) = ∑ m ∈ range k, (σ m / c) * (σ m / c) := by
        rw [sum_congr rfl fun m _ => by rw [← sq, div_pow], ← sum_div, ← hc2]
        exact (div_self (by positivity)).symm
      rw [this]
      push_cast
      refine sum_congr rfl fun m hm => ?_
      rw [hudf m (mem_range.1 hm)]
      have : star ((σ m / c : ℝ) : 𝕜) = ((σ m / c : ℝ) : 𝕜) := RCLike.conj_ofReal _
      rw [this]; push_cast; rfl
    rw [h2] at h1
    have h3 : ‖toV [l, s, t, r] φ‖ ^ 2 = 1 := by exact_mod_cast h1
    nlinarith [norm_nonneg (toV [l, s, t, r] φ)]
  have hδ : ‖toV [l, s, t, r] θ - (c : 𝕜) • toV [l, s, t, r] φ‖ ^ 2 = 1 - c ^ 2 := by
    rw [hcφ, ← distSq_toV, hdist k b5, hc2]
    linarith
  have hbest : ∀ j x y, ∑ m ∈ Ico j K, σ m ^ 2 ≤ distSq θ [l, s] [t, r] (terms x y j) := by
    intro j x y
    refine LA.eckart_young (configs [l, s]) (configs [t, r]) K (fun e f => θ.f (e ++ f)) (fun e m => u.f (e ++ [m])) σ
      (fun f m => v.f (f ++ [m])) a8 a9 a6 a7 ?_ j x y
    intro e he f hf
    rw [b2 e he f hf]
    unfold svdTerms
    exact sum_congr rfl fun m hm => by rw [b1 m (mem_range.1 hm)]
  have hbest0 : ∀ (χ : Blk 𝕜) (k' : Nat) (x y : List Nat → Nat → 𝕜), ‖toV [l, s, t, r] χ‖ = 1 →
        (∀ o ∈ configs [l, s, t, r], χ.f o = terms x y k' (o.take 2) (o.drop 2)) →
        ‖inner 𝕜 (toV [l, s, t, r] χ) (toV [l, s, t, r] θ)‖ ^ 2 ≤ 1 - ∑ m ∈ Ico k' K, σ m ^ 2 := by
    intro χ k' x y hχ hx
    exact overlap_le_of_dist (toV [l, s, t, r] θ) (toV [l, s, t, r] χ) hn hχ _ (by
      intro z
      have h1 := hbest k' (fun e m => z * x e m) y
      rw [distSq_toV] at h1
      have e : toV [l, s, t, r] (⟨[l, s, t, r], fun o => terms (fun e m => z * x e m) y k' (o.take 2) (o.drop 2)⟩ : Blk 𝕜)
          = z • toV [l, s, t, r] χ := by
        ext o
        show terms (fun e m => z * x e m) y k' (o.1.take 2) (o.1.drop 2) = z * χ.f o.1
        rw [hx o.1 o.2]
        unfold terms
        rw [mul_sum]
        exact sum_congr rfl fun m _ => by ring
      rw [e] at h1
      exact h1)
  have hbest' : ∀ (χ : Blk 𝕜) (k' : Nat) (x y : List Nat → Nat → 𝕜), ‖toV [l, s, t, r] χ‖ = 1 →
        (∀ o ∈ configs [l, s, t, r], χ.f o = terms x y k' (o.take 2) (o.drop 2)) →
        (k' ≤ k → ‖inner 𝕜 (toV [l, s, t, r] χ) (toV [l, s, t, r] θ)‖ ^ 2 ≤ c ^ 2) ∧
        (minS ≤ k' → k' < k → ‖inner 𝕜 (toV [l, s, t, r] χ) (toV [l, s, t, r] θ)‖ ^ 2 < 1 - tol ^ 2) := by
    intro χ k' x y hχ hx
    have h1 := hbest0 χ k' x y hχ hx
    constructor
    · intro hk'
      have h2 : ∑ m ∈ Ico k K, σ m ^ 2 ≤ ∑ m ∈ Ico k' K, σ m ^ 2 :=
        sum_le_sum_of_subset_of_nonneg (Ico_subset_Ico_left hk') fun m _ _ => sq_nonneg _
      linarith
    · intro h3 h4
      have := b8 k' h4 h3
      linarith
  refine ⟨u, d, v, φ, k, c, a1, rfl, hφn, hp, huu, hc, ?_, b3, ?_, ?_, b6, ?_, hbest'⟩
  · have h1 := re_overlap_of_dist _ _ hn hφn c hc hδ
    have h2 := hbest' φ k (fun e m => u.f (e ++ [m]) * (unitSum d).f [m]) (fun f m => star (v.f (f ++ [m]))) hφn (fun o _ => rfl)
    replace h2 := h2.1 le_rfl
    generalize inner 𝕜 (toV [l, s, t, r] φ) (toV [l, s, t, r] θ) = z at h1 h2 ⊢
    have h3 := RCLike.norm_sq_eq_def (z := z)
    have him : RCLike.im z = 0 := by
      rw [h3, h1] at h2
      nlinarith [sq_nonneg (RCLike.im z)]
    rw [← RCLike.re_add_im z, him, h1]
    simp
  · simpa [a2] using b4
  · simpa [a2] using b5
  · intro hk
    have := b7 hk
    linarith

theorem svdDense_unit {fac : Blk 𝕜 → Blk 𝕜 × Blk 𝕜 × Blk 𝕜} (hfac : DenseSvd fac) (θ : Blk 𝕜) (l s t r : Nat) (hθ : θ.dims = [l, s, t, r])
    (hn : ‖toV [l, s, t, r] θ‖ = 1) (h63 : θ.dims.prod < 2 ^ 63) :
    ∃ u d v K σ, LA.svdDense fac θ 2 = .ok (u, d, v) ∧ LA.valueRows d = ⟨K, [(List.range K).map σ]⟩ ∧ 1 ≤ K ∧ K ≤ θ.dims.prod ∧
      weight (fun x : ℝ => x ^ 2) ((List.range K).map σ) = 1 := by
  have h0 : 0 < θ.dims.prod := by
    rw [hθ]
    by_contra hc
    have hz : [l, s, t, r].prod = 0 := by omega
    have he : configs [l, s, t, r] = ∅ := by
      rw [Finset.eq_empty_iff_forall_notMem]
      intro o ho
      rw [mem_configs] at ho
      have := BT.flat_lt ho
      omega
    have hn' := norm_toV [l, s, t, r] θ
    rw [hn, sum_eq_zero (fun o ho => absurd (he ▸ ho) (Finset.notMem_empty o))] at hn'
    norm_num at hn'
  obtain ⟨u, d, v, σ, a1, a2, a3, a4, a5, a6, a7, a8⟩ := LA.svdDense_ok hfac θ 2 (by rw [hθ]; simp)
  have e1 : θ.dims.take 2 = [l, s] := by rw [hθ]; rfl
  have e2 : θ.dims.drop 2 = [t, r] := by rw [hθ]; rfl
  rw [e1, e2] at a2 a3 a4 a7 a8
  have hp : [l, s].prod * [t, r].prod = θ.dims.prod := by
    rw [← List.prod_append, hθ]; rfl
  have hK1 : 1 ≤ min [l, s].prod [t, r].prod := by
    rw [← hp] at h0
    have := Nat.pos_of_mul_pos_left h0
    have := Nat.pos_of_mul_pos_right h0
    omega
  have hK2 : min [l, s].prod [t, r].prod ≤ θ.dims.prod := by
    rw [← hp]
    have : 1 ≤ [t, r].prod := by omega
    exact (Nat.min_le_left _ _).trans (Nat.le_mul_of_pos_right _ this)
  generalize min [l, s].prod [t, r].prod = K at *
  have hrow : LA.valueRows d = ⟨K, [(List.range K).map σ]⟩ := by
    unfold LA.valueRows
    rw [a4]
    simp only [List.getLastD_cons, List.getLastD_nil, LA.Rows.mk.injEq, true_and, List.cons.injEq, and_true]
    apply List.map_congr_left
    intro k hk
    rw [a7 k (List.mem_range.1 hk), RCLike.ofReal_re]
  have htot : ∑ m ∈ range K, σ m ^ 2 = 1 := by
    have h := LA.distSq_cut a2.ortho a3.ortho a7 a8 0 (Nat.zero_le _)
    rw [Nat.Ico_zero_eq_range] at h
    rw [← h, distSq_toV]
    have : toV [l, s, t, r] (⟨[l, s, t, r], fun o => svdTerms u d v 0 (o.take 2) (o.drop 2)⟩ : Blk 𝕜) = 0 := by
      ext o; simp [toV, svdTerms]
    rw [this, sub_zero, hn]; norm_num
  have hw : weight (fun x : ℝ => x ^ 2) ((List.range K).map σ) = 1 := by
    unfold weight
    rw [List.map_map]
    have : ((fun x : ℝ => |x| ^ 2) ∘ σ) = fun m => σ m ^ 2 := by
      funext m; simp
    rw [this]
    exact htot
  exact ⟨u, d, v, K, σ, a1, hrow, hK1, hK2, hw⟩

theorem svdCut_zero {fac : Blk 𝕜 → Blk 𝕜 × Blk 𝕜 × Blk 𝕜} (hfac : DenseSvd fac) (θ : Blk 𝕜) (l s t r : Nat) (hθ : θ.dims = [l, s, t, r])
    (hn : ‖toV [l, s, t, r] θ‖ = 1) (h63 : θ.dims.prod < 2 ^ 63) (tol : ℝ) (htol : 0 ≤ tol) (htol1 : tol < 1) (maxS : Nat) (hmax : 1 ≤ maxS) :
    LA.svdCut fac θ 2 tol 0 maxS (fun x => x ^ 2) = LA.svdCut fac θ 2 tol 1 maxS (fun x => x ^ 2) := by
  obtain ⟨u, d, v, K, σ, a1, hrow, hK1, hK2, hw⟩ := svdDense_unit hfac θ l s t r hθ hn h63
  unfold LA.svdCut LA.truncateDense
  simp only [a1, bind, Except.bind]
  rw [C37_zero_min (LA.valueRows d) (by rw [hrow]; simp) (by rw [hrow]; exact hK1) (by rw [hrow]; exact lt_of_le_of_lt hK2 h63) tol _ maxS hmax (by
    rw [hrow]
    simp only [LosesAtMost, List.mem_singleton, forall_eq, List.drop_zero, hw, not_le]
    nlinarith)]

theorem svdCut_none {fac : Blk 𝕜 → Blk 𝕜 × Blk 𝕜 × Blk 𝕜} (hfac : DenseSvd fac) (θ : Blk 𝕜) (l s t r : Nat) (hθ : θ.dims = [l, s, t, r])
    (hn : ‖toV [l, s, t, r] θ‖ = 1) (h63 : θ.dims.prod < 2 ^ 63) (tol : ℝ) (htol : 1 ≤ tol) (maxS : Nat) (hmax : maxS + θ.dims.prod < 2 ^ 64) :
    LA.svdCut fac θ 2 tol 0 maxS (fun x => x ^ 2) = Res.throw .outOfRange := by
  obtain ⟨u, d, v, K, σ, a1, hrow, hK1, hK2, hw⟩ := svdDense_unit hfac θ l s t r hθ hn h63
  unfold LA.svdCut LA.truncateDense
  simp only [a1, bind, Except.bind]
  rw [C37_zero_min_fails (LA.valueRows d) (by rw [hrow]; simp) (by rw [hrow]; exact hK1) (by rw [hrow]; exact lt_of_le_of_lt hK2 h63) tol _
    (fun x _ => sq_nonneg x) maxS (by rw [hrow]; exact lt_of_le_of_lt (Nat.add_le_add_left hK2 _) hmax) (by
    rw [hrow]
    simp only [LosesAtMost, List.mem_singleton, forall_eq, List.drop_zero, hw]
    nlinarith)]
  rfl

/-- A minimum of zero counts as one when the cutoff is below one. -/
theorem cut_pair {fac : Blk 𝕜 → Blk 𝕜 × Blk 𝕜 × Blk 𝕜} (hfac : DenseSvd fac) (θ : Blk 𝕜) (l s t r : Nat) (hθ : θ.dims = [l, s, t, r])
    (hn : ‖toV [l, s, t, r] θ‖ = 1) (h63 : θ.dims.prod < 2 ^ 63) (tol : ℝ) (htol : 0 ≤ tol) (minS maxS : Nat)
    (hmin : 1 ≤ minS ∨ tol < 1 ∧ 1 ≤ maxS) :
    ∃ u d v φ k, ∃ c : ℝ, LA.svdCut fac θ 2 tol minS maxS (fun x => x ^ 2) = .ok (u, d, v) ∧ φ.dims = [l, s, t, r] ∧ ‖toV [l, s, t, r] φ‖ = 1 ∧
      SvdPair φ u (unitSum d) v l s t r k ∧ unitSum (unitSum d) = unitSum d ∧ 0 < c ∧ inner 𝕜 (toV [l, s, t, r] φ) (toV [l, s, t, r] θ) = (c : 𝕜) ∧
      1 ≤ k ∧ min minS (min (l * s) (t * r)) ≤ k ∧ k ≤ min (l * s) (t * r) ∧ k ≤ max minS maxS ∧ (k < maxS → 1 - c ^ 2 ≤ tol ^ 2) ∧
      ∀ (χ : Blk 𝕜) (k' : Nat) (x y : List Nat → Nat → 𝕜), ‖toV [l, s, t, r] χ‖ = 1 →
        (∀ o ∈ configs [l, s, t, r], χ.f o = terms x y k' (o.take 2) (o.drop 2)) →
        (k' ≤ k → ‖inner 𝕜 (toV [l, s, t, r] χ) (toV [l, s, t, r] θ)‖ ^ 2 ≤ c ^ 2) ∧
        (minS ≤ k' → k' < k → ‖inner 𝕜 (toV [l, s, t, r] χ) (toV [l, s, t, r] θ)‖ ^ 2 < 1 - tol ^ 2) := by
  rcases Nat.eq_zero_or_pos minS with rfl | h1
  · obtain ⟨ht, hm⟩ := hmin.resolve_left (by omega)
    obtain ⟨u, d, v, φ, k, c, c1, c2, c3, c4, c5, c6, c7, c8, c9, d1, d2, d3, d4⟩ := cut_pair_pos hfac θ l s t r hθ hn h63 tol htol 1 maxS le_rfl
    refine ⟨u, d, v, φ, k, c, by rw [svdCut_zero hfac θ l s t r hθ hn h63 tol htol ht maxS hm]; exact c1, c2, c3, c4, c5, c6, c7, c8, by omega, d1,
      by omega, d3, fun χ k' x y hχ hx => ⟨(d4 χ k' x y hχ hx).1, fun _ hk => ?_⟩⟩
    rcases Nat.eq_zero_or_pos k' with rfl | h2
    · exfalso
      have h0 : toV [l, s, t, r] χ = 0 := by
        ext o
        show χ.f o.1 = 0
        rw [hx o.1 o.2]
        simp [terms]
      rw [h0] at hχ
      simp at hχ
    · exact (d4 χ k' x y hχ hx).2 h2 hk
  · exact cut_pair_pos hfac θ l s t r hθ hn h63 tol htol minS maxS h1

end DM
end QuantiT
