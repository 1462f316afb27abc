import Verif.Props.CutRun
import Mathlib.Tactic.LinearCombination
import Mathlib.Tactic.Module
/-
Updates of the dense DMRG on chains that are neither normalised nor in canonical form.
-/
namespace QuantiT
namespace DM
open Finset Spec MP
variable {𝕜 : Type} [RCLike 𝕜]

/-- The truncated SVD of any two-site tensor but zero, renormalised. -/
theorem cut_nonzero {fac : Blk 𝕜 → Blk 𝕜 × Blk 𝕜 × Blk 𝕜} (hfac : DenseSvd fac) (θ : Blk 𝕜) (l s t r : Nat) (hθ : θ.dims = [l, s, t, r])
    (hn : toV [l, s, t, r] θ ≠ 0) (h63 : θ.dims.prod < 2 ^ 63) (tol : ℝ) (htol : 0 ≤ tol) (minS maxS : Nat) (hmin : 1 ≤ minS) :
    ∃ u d v φ k, LA.svdCut fac θ 2 tol minS maxS (fun x => x ^ 2) = .ok (u, d, v) ∧ φ.dims = [l, s, t, r] ∧ ‖toV [l, s, t, r] φ‖ = 1 ∧
      SvdPair φ u (unitSum d) v l s t r k ∧ unitSum (unitSum d) = unitSum d ∧ k ≤ max minS maxS ∧
      ((∃ x y : List Nat → 𝕜, ∀ o ∈ configs [l, s, t, r], θ.f o = x (o.take 2) * y (o.drop 2)) → ∃ z : 𝕜, toV [l, s, t, r] θ = z • toV [l, s, t, r] φ) := by
  have h0 : 0 < θ.dims.prod := by
    rw [hθ]
    by_contra hc
    have hz : [l, s, t, r].prod = 0 := by omega
    have he : configs [l, s, t, r] = ∅ := by
      rw [Finset.eq_empty_iff_forall_notMem]
      intro o ho
      rw [mem_configs] at ho
      have := BT.flat_lt ho
      omega
    apply hn
    ext o
    exact absurd (he ▸ o.2) (Finset.notMem_empty o.1)
  obtain ⟨u, d, v, σ, k, K, a1, a2, a3, a4, a5, a6, a7, a8, a9, b1, b2, b3, b4, b5, b6, b7, b8⟩ :=
    LA.svdCut_core hfac θ 2 (by rw [hθ]; simp) h0 h63 tol htol minS maxS hmin
  have e1 : θ.dims.take 2 = [l, s] := by rw [hθ]; rfl
  have e2 : θ.dims.drop 2 = [t, r] := by rw [hθ]; rfl
  rw [e1] at a3 a6 b2
  rw [e2] at a4 a7 b2
  have hdist := LA.distSq_cut a6 a7 b1 b2
  have htot : 0 < ∑ m ∈ range K, σ m ^ 2 := by
    have h := hdist 0 (Nat.zero_le _)
    rw [Nat.Ico_zero_eq_range] at h
    rw [← h, distSq_toV]
    have : toV [l, s, t, r] (⟨[l, s, t, r], fun o => svdTerms u d v 0 (o.take 2) (o.drop 2)⟩ : Blk 𝕜) = 0 := by
      ext o; simp [toV, svdTerms]
    rw [this, sub_zero]
    have := norm_pos_iff.2 hn
    positivity
  have hpos : 0 < ∑ m ∈ range k, σ m ^ 2 := by
    by_contra hneg
    have h0' : ∑ m ∈ range k, σ m ^ 2 = 0 := le_antisymm (not_lt.1 hneg) (sum_nonneg fun m _ => sq_nonneg _)
    have hs0 : σ 0 = 0 := by
      have := (sum_eq_zero_iff_of_nonneg fun m _ => sq_nonneg (σ m)).1 h0' 0 (mem_range.2 (by omega))
      exact pow_eq_zero_iff (by norm_num) |>.1 this
    have : ∑ m ∈ range K, σ m ^ 2 = 0 := sum_eq_zero fun m _ => by
      have h1 := a8 (Nat.zero_le m)
      have h2 := a9 m
      have : σ m = 0 := by linarith
      rw [this]; norm_num
    linarith
  let c : ℝ := √(∑ m ∈ range k, σ m ^ 2)
  have hc : 0 < c := Real.sqrt_pos.2 hpos
  have hc2 : c ^ 2 = ∑ m ∈ range k, σ m ^ 2 := Real.sq_sqrt hpos.le
  have hd : ∀ m, m < k → d.f [m] = (σ m : 𝕜) := fun m hm => b1 m (by omega)
  have hus : ∑ o ∈ configs d.dims, RCLike.re (d.f o) ^ 2 = c ^ 2 := by
    rw [a5, hc2]
    simp only [sum_configs_cons', sum_configs_nil]
    exact sum_congr rfl fun m hm => by rw [hd m (mem_range.1 hm), RCLike.ofReal_re]
  have hud : unitSum d = divBy d c := by unfold unitSum; rw [hus, Real.sqrt_sq hc.le]
  have hudf : ∀ m, m < k → (unitSum d).f [m] = ((σ m / c : ℝ) : 𝕜) := by
    intro m hm
    rw [hud]
    show d.f [m] / (c : 𝕜) = _
    rw [hd m hm]; push_cast; rfl
  have huu : unitSum (unitSum d) = unitSum d := by
    have h1 : ∑ o ∈ configs (unitSum d).dims, RCLike.re ((unitSum d).f o) ^ 2 = 1 := by
      have : (unitSum d).dims = [k] := a5
      rw [this]
      simp only [sum_configs_cons', sum_configs_nil]
      rw [sum_congr rfl fun m hm => by rw [hudf m (mem_range.1 hm), RCLike.ofReal_re, div_pow], ← sum_div, ← hc2]
      exact div_self (by positivity)
    show divBy (unitSum d) _ = _
    rw [h1, Real.sqrt_one]
    unfold divBy
    simp
  let φ : Blk 𝕜 := ⟨[l, s, t, r], fun o => svdTerms u (unitSum d) v k (o.take 2) (o.drop 2)⟩
  have hp : SvdPair φ u (unitSum d) v l s t r k := by
    refine ⟨by rw [a3]; rfl, a5, by rw [a4]; rfl, ?_, ?_, ?_, ?_⟩
    · intro m hm
      rw [hudf m hm]
      exact RCLike.conj_ofReal _
    · intro a b ha hb
      have := a6 a b (by omega) (by omega)
      simp only [sum_configs_cons', sum_configs_nil] at this
      exact this
    · intro a b ha hb
      have := a7 a b (by omega) (by omega)
      simp only [sum_configs_cons', sum_configs_nil] at this
      exact this
    · intro i c c' j _ _ _ _
      rfl
  have hφn : ‖toV [l, s, t, r] φ‖ = 1 := by
    have h1 := svd_norm hp
    rw [← inner_toV, inner_self_eq_norm_sq_to_K] at h1
    have h2 : ∑ m ∈ range k, (unitSum d).f [m] * star ((unitSum d).f [m]) = ((1 : ℝ) : 𝕜) := by
      have : (1 : ℝ) = ∑ m ∈ range k, (σ m / c) * (σ m / c) := by
        rw [sum_congr rfl fun m _ => by rw [← sq, div_pow], ← sum_div, ← hc2]
        exact (div_self (by positivity)).symm
      rw [this]
      push_cast
      refine sum_congr rfl fun m hm => ?_
      rw [hudf m (mem_range.1 hm)]
      have : star ((σ m / c : ℝ) : 𝕜) = ((σ m / c : ℝ) : 𝕜) := RCLike.conj_ofReal _
      rw [this]; push_cast; rfl
    rw [h2] at h1
    have h3 : ‖toV [l, s, t, r] φ‖ ^ 2 = 1 := by exact_mod_cast h1
    nlinarith [norm_nonneg (toV [l, s, t, r] φ)]
  have hcφ : (c : 𝕜) • toV [l, s, t, r] φ
      = toV [l, s, t, r] (⟨[l, s, t, r], fun o => svdTerms u d v k (o.take 2) (o.drop 2)⟩ : Blk 𝕜) := by
    ext o
    show (c : 𝕜) * svdTerms u (unitSum d) v k (o.1.take 2) (o.1.drop 2) = svdTerms u d v k (o.1.take 2) (o.1.drop 2)
    unfold svdTerms
    rw [mul_sum]
    refine sum_congr rfl fun m hm => ?_
    rw [hudf m (mem_range.1 hm), hd m (mem_range.1 hm)]
    push_cast
    have hc' : (c : 𝕜) ≠ 0 := by exact_mod_cast hc.ne'
    field_simp
  refine ⟨u, d, v, φ, k, a1, rfl, hφn, hp, huu, b6, ?_⟩
  rintro ⟨x, y, hxy⟩
  refine ⟨c, ?_⟩
  have hbest := LA.eckart_young (configs [l, s]) (configs [t, r]) K (fun e f => θ.f (e ++ f)) (fun e m => u.f (e ++ [m])) σ
      (fun f m => v.f (f ++ [m])) a8 a9 a6 a7 (by
    intro e he f hf
    rw [b2 e he f hf]
    unfold svdTerms
    exact sum_congr rfl fun m hm => by rw [b1 m (mem_range.1 hm)]) 1 (fun e _ => x e) (fun f _ => y f)
  have hz : distSq θ [l, s] [t, r] (terms (fun e _ => x e) (fun f _ => y f) 1) = 0 := by
    rw [distSq_toV]
    have : toV [l, s, t, r] θ = toV [l, s, t, r] (⟨[l, s, t, r], fun o => terms (fun e _ => x e) (fun f _ => y f) 1 (o.take 2) (o.drop 2)⟩ : Blk 𝕜) := by
      ext o
      show θ.f o.1 = terms (fun e _ => x e) (fun f _ => y f) 1 (o.1.take 2) (o.1.drop 2)
      rw [hxy o.1 o.2]
      simp [terms]
    rw [this, sub_self, norm_zero]
    norm_num
  have h1 : ∑ m ∈ Ico 1 K, σ m ^ 2 ≤ 0 := hbest.trans_eq hz
  have h2 : ∑ m ∈ Ico k K, σ m ^ 2 ≤ ∑ m ∈ Ico 1 K, σ m ^ 2 :=
    sum_le_sum_of_subset_of_nonneg (Ico_subset_Ico_left b3) fun m _ _ => sq_nonneg _
  have h3 := hdist k b5
  rw [distSq_toV, ← hcφ] at h3
  have h4 : ‖toV [l, s, t, r] θ - (c : 𝕜) • toV [l, s, t, r] φ‖ ^ 2 ≤ 0 := by rw [h3]; linarith
  have h5 : ‖toV [l, s, t, r] θ - (c : 𝕜) • toV [l, s, t, r] φ‖ = 0 := by
    have := norm_nonneg (toV [l, s, t, r] θ - (c : 𝕜) • toV [l, s, t, r] φ)
    nlinarith
  exact sub_eq_zero.1 (norm_eq_zero.1 h5)

/-- One Lanczos step never throws, and from a vector that is not an eigenvector it does not give zero. -/
theorem lanczos_nonzero {V : Type} [NormedAddCommGroup V] [InnerProductSpace 𝕜 V] (T : V →ₗ[𝕜] V) (ψ : V) :
    ∃ E v, twoSitesUpdate T ψ = .ok (E, v) ∧ ((∀ z : 𝕜, T ψ ≠ z • ψ) → v ≠ 0) := by
  obtain ⟨E, o, n, h1, h2, _⟩ := C53_lowest (lanczos T ψ).2.1 (lanczos T ψ).2.2.1 (lanczos T ψ).2.2.2
  refine ⟨E, (o : 𝕜) • ψ + (n : 𝕜) • (lanczos T ψ).1, ?_, fun hψ hv => ?_⟩
  · unfold twoSitesUpdate
    simp only [bind, Except.bind]
    rw [h1]
  · -- the new vector is a nonzero multiple of `T ψ - a0 ψ`
    obtain ⟨c, hc, hl⟩ : ∃ c : 𝕜, c ≠ 0 ∧ (lanczos T ψ).1 = c • (T ψ - ((RCLike.re (inner 𝕜 ψ (T ψ)) : ℝ) : 𝕜) • ψ) := by
      unfold lanczos
      simp only
      split
      · rename_i hb
        refine ⟨_, ?_, rfl⟩
        have : (0 : ℝ) < √(RCLike.re (inner 𝕜 (T ψ - ((RCLike.re (inner 𝕜 ψ (T ψ)) : ℝ) : 𝕜) • ψ) (T ψ - ((RCLike.re (inner 𝕜 ψ (T ψ)) : ℝ) : 𝕜) • ψ))) :=
          lt_of_lt_of_le (by norm_num) hb
        exact_mod_cast (inv_pos.2 this).ne'
      · exact ⟨1, one_ne_zero, (one_smul _ _).symm⟩
    have hψ0 : ψ ≠ 0 := by
      rintro rfl
      exact hψ 0 (by simp)
    by_cases hn : n = 0
    · subst hn
      have ho : o ≠ 0 := by rintro rfl; norm_num at h2
      simp only [RCLike.ofReal_zero, zero_smul, add_zero, smul_eq_zero] at hv
      rcases hv with h | h
      · exact ho (by exact_mod_cast h)
      · exact hψ0 h
    · rw [hl] at hv
      have hnc : (n : 𝕜) * c ≠ 0 := mul_ne_zero (by exact_mod_cast hn) hc
      refine hψ (((n : 𝕜) * c)⁻¹ * ((n : 𝕜) * (c * ((RCLike.re (inner 𝕜 ψ (T ψ)) : ℝ) : 𝕜)) - o)) ?_
      have h3 : ((n : 𝕜) * c) • T ψ = ((n : 𝕜) * (c * ((RCLike.re (inner 𝕜 ψ (T ψ)) : ℝ) : 𝕜)) - o) • ψ := by
        refine sub_eq_zero.1 (Eq.trans ?_ hv)
        module
      rw [mul_smul, ← h3, smul_smul, inv_mul_cancel₀ hnc, one_smul]

/-- The two-site tensor is an eigenvector of the effective Hamiltonian. -/
def Stationary (ψ ψ' : Blk 𝕜) : Prop := ∃ z : 𝕜, ∀ q ∈ configs ψ.dims, ψ'.f q = z * ψ.f q

theorem pairAmp_scale (pre post : List (Blk 𝕜)) {θ φ : Blk 𝕜} {n i j n' : Nat} (hθ : θ.dims = [n, i, j, n']) (hφ : φ.dims = [n, i, j, n'])
    (z : 𝕜) (h : ∀ q ∈ configs [n, i, j, n'], θ.f q = z * φ.f q) (σ : List Nat) (hσ : σ ∈ configs (phys pre ++ i :: j :: phys post)) :
    pairAmp pre θ post σ 0 0 = z * pairAmp pre φ post σ 0 0 := by
  obtain ⟨a, b, rfl, h1, h2⟩ := inRange_append_iff (mem_configs.1 hσ)
  unfold InRange at h1 h2
  rw [List.forall₂_cons_right_iff] at h2
  obtain ⟨r1, t1, k1, k2, rfl⟩ := h2
  rw [List.forall₂_cons_right_iff] at k2
  obtain ⟨r2, t2, k3, k4, rfl⟩ := k2
  have hl : a.length = pre.length := by rw [h1.length_eq]; simp [phys]
  rw [pairAmp_split pre post θ n i j n' _ _ _ _ _ _ hθ hl, pairAmp_split pre post φ n i j n' _ _ _ _ _ _ hφ hl, mul_sum]
  refine sum_congr rfl fun k hk => ?_
  rw [mul_sum]
  refine sum_congr rfl fun k' hk' => ?_
  rw [h [k, r1, r2, k'] (mem_configs.2 (by
    unfold InRange
    simpa using ⟨mem_range.1 hk, k1, k3, mem_range.1 hk'⟩))]
  ring

/-- The two-site tensor `θ` and the energy `E` that the eigensolver of the update at the pair `o`, `o + 1` returns. -/
def Found (Ws s : List (Blk 𝕜)) (o : Nat) (E : ℝ) (θ : Blk 𝕜) : Prop :=
  ∃ A B W1 W2 Le Re H2 ψ, s[o]? = some A ∧ s[o + 1]? = some B ∧ Ws[o]? = some W1 ∧ Ws[o + 1]? = some W2 ∧
    dot1 A B 2 0 = .ok ψ ∧ leftEnvs star (s.take o) (Ws.take o) (onesLike [1, 1, 1]) = .ok Le ∧
    rightEnvs star (s.drop (o + 2)) (Ws.drop (o + 2)) (onesLike [1, 1, 1]) = .ok Re ∧ twoSite W1 W2 = .ok H2 ∧
    twoSitesUpdateBlk ψ H2 Le Re = .ok (E, θ)

/-- The eigensolver of the update returns, and what it returns is a vector of a linear map. -/
theorem cold_found (Ws s : List (Blk 𝕜)) (o : Nat) (hF : Fit s Ws s) (hc : Closed s) (hcW : Closed Ws) (ho : o + 1 < s.length) :
    ∃ A B W1 W2 Le Re H2 ψ ψ' E θ n i m j n', ∃ T : Vec 𝕜 [n, i, j, n'] →ₗ[𝕜] Vec 𝕜 [n, i, j, n'],
      s[o]? = some A ∧ s[o + 1]? = some B ∧ Ws[o]? = some W1 ∧ Ws[o + 1]? = some W2 ∧
      leftEnvs star (s.take o) (Ws.take o) (onesLike [1, 1, 1]) = .ok Le ∧
      rightEnvs star (s.drop (o + 2)) (Ws.drop (o + 2)) (onesLike [1, 1, 1]) = .ok Re ∧ twoSite W1 W2 = .ok H2 ∧
      dot1 A B 2 0 = .ok ψ ∧ A.dims = [n, i, m] ∧ B.dims = [m, j, n'] ∧ ψ.dims = [n, i, j, n'] ∧ PairTensors Ws s o ψ ψ' ∧
      toV [n, i, j, n'] ψ' = T (toV [n, i, j, n'] ψ) ∧ twoSitesUpdateBlk ψ H2 Le Re = .ok (E, θ) ∧ θ.dims = [n, i, j, n'] ∧
      twoSitesUpdate T (toV [n, i, j, n'] ψ) = .ok (E, toV [n, i, j, n'] θ) ∧
      (∀ θ φ : Blk 𝕜, θ.dims = [n, i, j, n'] → φ.dims = [n, i, j, n'] →
        inner 𝕜 (toV [n, i, j, n'] φ) (T (toV [n, i, j, n'] θ)) = pairSandwich (s.take o) θ φ (s.drop (o + 2)) Ws (phys s) 0 0 0 0 0 0) ∧
      ∀ E' θ', Found Ws s o E' θ' → E' = E ∧ θ' = θ := by
  have hWl : Ws.length = s.length := (Fit.lengths hF).1
  obtain ⟨A, gA⟩ : ∃ A, s[o]? = some A := ⟨_, List.getElem?_eq_getElem (by omega)⟩
  obtain ⟨B, gB⟩ : ∃ B, s[o + 1]? = some B := ⟨_, List.getElem?_eq_getElem ho⟩
  obtain ⟨W1, gW1⟩ : ∃ W, Ws[o]? = some W := ⟨_, List.getElem?_eq_getElem (by omega)⟩
  obtain ⟨W2, gW2⟩ : ∃ W, Ws[o + 1]? = some W := ⟨_, List.getElem?_eq_getElem (by omega)⟩
  obtain ⟨hs, hset⟩ := list_pair gA gB
  obtain ⟨hW, _⟩ := list_pair gW1 gW2
  have hF' := hF
  rw [hs, hW] at hF'
  have hc' := hc
  rw [hs] at hc'
  have hcW' := hcW
  rw [hW] at hcW'
  obtain ⟨Le, Re, H2, w, w', h1, h2, h3, d1, d2, d3, h4⟩ := effective_setup (s.take o) (s.drop (o + 2)) (Ws.take o) (Ws.drop (o + 2)) A B W1 W2
    (onesLike [1, 1, 1]) (onesLike [1, 1, 1]) hF' (by simp; omega) (by rw [hc'.1, hcW'.1]; rfl) (by rw [hc'.2, hcW'.2]; rfl)
  obtain ⟨n, i, m, j, n', hA, hB, _, _, _⟩ := linked_split hF'.ket
  simp only [hA, hB, List.getD_cons_zero, List.getD_cons_succ] at d1 d2 d3 h4
  rw [← hs, ← hW] at h4
  obtain ⟨T, hT⟩ := heff_exists d1 d2 d3
  obtain ⟨ψ, hψ, hψd⟩ : ∃ ψ, dot1 A B 2 0 = .ok ψ ∧ ψ.dims = [n, i, j, n'] := by
    refine ⟨_, by simp [dot1, hA, hB]; rfl, ?_⟩
    simp
  obtain ⟨ψ', k1, k2, k3⟩ := hT ψ hψd
  obtain ⟨E, v, u1, u2⟩ := lanczos_nonzero T (toV [n, i, j, n'] ψ)
  obtain ⟨θ, t1, t2, t3⟩ := twoSitesUpdateBlk_ok hT hψd u1
  refine ⟨A, B, W1, W2, Le, Re, H2, ψ, ψ', E, θ, n, i, m, j, n', T, gA, gB, gW1, gW2, h1, h2, h3, hψ, hA, hB, hψd,
    ⟨A, B, W1, W2, Le, Re, H2, gA, gB, gW1, gW2, hψ, h1, h2, h3, k1⟩, k3, t1, t2, by rw [t3]; exact u1, ?_, ?_⟩
  · intro θ φ hθ hφ
    obtain ⟨θ', g1, g2, g3⟩ := h4 θ φ hθ (hφ.trans hθ.symm)
    obtain ⟨θ'', k1, k2, k3⟩ := hT θ hθ
    have : θ' = θ'' := Except.ok.inj (g1.symm.trans k1)
    subst this
    rw [← k3, inner_toV, ← hθ, g3]
    simp [onesLike]
  · rintro E' θ' ⟨A1, B1, W3, W4, Le1, Re1, H21, ψ1, e1, e2, e3, e4, e5, e6, e7, e8, e9⟩
    rw [gA] at e1; cases e1
    rw [gB] at e2; cases e2
    rw [gW1] at e3; cases e3
    rw [gW2] at e4; cases e4
    rw [hψ] at e5; cases e5
    rw [h1] at e6; cases e6
    rw [h2] at e7; cases e7
    rw [h3] at e8; cases e8
    rw [t1] at e9; cases e9
    exact ⟨rfl, rfl⟩

/-- A two-site tensor that is no eigenvector of the effective Hamiltonian is not annihilated by the eigensolver. -/
theorem found_moving (Ws s : List (Blk 𝕜)) (o : Nat) (hF : Fit s Ws s) (hc : Closed s) (hcW : Closed Ws) (ho : o + 1 < s.length)
    (hst : ∀ ψ ψ', PairTensors Ws s o ψ ψ' → ¬ Stationary ψ ψ') (E : ℝ) (θ : Blk 𝕜) (hf : Found Ws s o E θ) :
    ∃ q ∈ configs θ.dims, θ.f q ≠ 0 := by
  obtain ⟨A, B, W1, W2, Le, Re, H2, ψ, ψ', E', θ', n, i, m, j, n', T, gA, gB, gW1, gW2, h1, h2, h3, hψ, hA, hB, hψd, hpt, k3, t1, t2, u1, _, huniq⟩ :=
    cold_found Ws s o hF hc hcW ho
  obtain ⟨rfl, rfl⟩ := huniq E θ hf
  obtain ⟨E2, v, u2, u3⟩ := lanczos_nonzero T (toV [n, i, j, n'] ψ)
  rw [u1] at u2
  cases u2
  have hv := u3 (by
    intro z hz
    refine hst ψ ψ' hpt ⟨z, fun q hq => ?_⟩
    rw [hψd] at hq
    rw [← k3] at hz
    exact congrArg (fun x : Vec 𝕜 [n, i, j, n'] => x ⟨q, hq⟩) hz)
  by_contra hne
  refine hv ?_
  ext q
  by_contra hq
  exact hne ⟨q.1, by rw [t2]; exact q.2, hq⟩

/-- One update at any pair of any closed chain: no orthonormality and no norm is asked for. -/
theorem cold_update (Ws s : List (Blk 𝕜)) {fac : Blk 𝕜 → Blk 𝕜 × Blk 𝕜 × Blk 𝕜} (hfac : DenseSvd fac) (o : Nat) (fwd : Bool)
    (cutoff : ℝ) (hcut : 0 ≤ cutoff) (minB maxB : Nat) (hmin : 1 ≤ minB)
    (hF : Fit s Ws s) (hc : Closed s) (hcW : Closed Ws) (ho : o + 1 < s.length)
    (hst : ∀ E θ, Found Ws s o E θ → ∃ q ∈ configs θ.dims, θ.f q ≠ 0)
    (hsm : ∀ A B, s[o]? = some A → s[o + 1]? = some B → (A.dims.take 2 ++ B.dims.drop 1).prod < 2 ^ 63) :
    ∃ E θ A' B', Found Ws s o E θ ∧ (cutDmrg Ws fac cutoff minB maxB).fresh o fwd s = .ok (E, withPair s o A' B') ∧
      Fit (withPair s o A' B') Ws (withPair s o A' B') ∧ Closed (withPair s o A' B') ∧ phys (withPair s o A' B') = phys s ∧
      (fwd = true → LeftOrth A') ∧ (fwd = false → RightOrth B') ∧ bondAt (withPair s o A' B') o ≤ max minB maxB ∧
      PairFits s o A' B' (bondAt (withPair s o A' B') o) ∧
      (∀ φ, dot1 A' B' 2 0 = .ok φ → ∑ q ∈ configs φ.dims, ‖φ.f q‖ ^ 2 = 1) ∧
      (PairCanonical s o → normSq (withPair s o A' B') = 1 ∧
        ((∃ x y : List Nat → 𝕜, ∀ o ∈ configs θ.dims, θ.f o = x (o.take 2) * y (o.drop 2)) →
          ∃ z : 𝕜, ∀ σ ∈ configs (phys s), pairAmp (s.take o) θ (s.drop (o + 2)) σ 0 0 = z * amp (withPair s o A' B') σ 0 0)) := by
  have hWl : Ws.length = s.length := (Fit.lengths hF).1
  have hlb := left_blkR Ws s (fun X => LA.svdCut fac X 2 cutoff minB maxB fun x => x ^ 2) o (by omega) hWl
  have hrb := right_blkR Ws s (fun X => LA.svdCut fac X 2 cutoff minB maxB fun x => x ^ 2) (o + 2) hWl (by omega)
  obtain ⟨A, B, W1, W2, Le, Re, H2, ψ, ψ', E, θ, n, i, m, j, n', T, gA, gB, gW1, gW2, h1, h2, h3, hψ, hA, hB, hψd, hpt, k3, t1, t2, u1, _, _⟩ :=
    cold_found Ws s o hF hc hcW ho
  obtain ⟨hs, hset⟩ := list_pair gA gB
  have hfound : Found Ws s o E θ := ⟨A, B, W1, W2, Le, Re, H2, ψ, gA, gB, gW1, gW2, hψ, h1, h2, h3, t1⟩
  have hθ0 : toV [n, i, j, n'] θ ≠ 0 := by
    obtain ⟨q, hq, hne⟩ := hst E θ hfound
    intro hz
    rw [t2] at hq
    exact hne (congrArg (fun x : Vec 𝕜 [n, i, j, n'] => x ⟨q, hq⟩) hz)
  have h63 : θ.dims.prod < 2 ^ 63 := by
    have := hsm A B gA gB
    rw [hA, hB] at this
    rw [t2]; exact this
  obtain ⟨u, d, w, φ, k, c1, c2, c3, c4, c5, c9, crank⟩ := cut_nonzero hfac θ n i j n' t2 hθ0 h63 cutoff hcut minB maxB hmin
  obtain ⟨A', B', q1, q2, q3, q4, q5, q6⟩ := new_sites c4 c3 fwd
  rw [c5] at q1
  have hupd : blkUpdR Ws (fun X => LA.svdCut fac X 2 cutoff minB maxB fun x => x ^ 2) fwd o
      ((cutDmrg Ws fac cutoff minB maxB).left s o) ((cutDmrg Ws fac cutoff minB maxB).right s (o + 2)) A B = .ok (E, A', B') := by
    unfold blkUpdR cutDmrg
    rw [hlb, hrb, h1, h2, hψ, gW1, gW2]
    simp only [bind, Except.bind, BT.orUb, h3, t1, c1]
    cases fwd with
    | true =>
      simp only [if_true, bind, Except.bind] at q1 ⊢
      cases hm : mulLast w (unitSum d) with
      | error f => rw [hm] at q1; cases q1
      | ok vd =>
        rw [hm] at q1
        simp only at q1 ⊢
        cases hpm : BT.permBlk [2, 0, 1] (conjBlk star vd) with
        | error f => rw [hpm] at q1; cases q1
        | ok nx =>
          rw [hpm] at q1
          cases q1
          rfl
    | false =>
      simp only [Bool.false_eq_true, if_false, bind, Except.bind] at q1 ⊢
      cases hm : mulLast u (unitSum d) with
      | error f => rw [hm] at q1; cases q1
      | ok ud =>
        rw [hm] at q1
        simp only at q1 ⊢
        cases hpm : BT.permBlk [2, 0, 1] (conjBlk star w) with
        | error f => rw [hpm] at q1; cases q1
        | ok nx =>
          rw [hpm] at q1
          cases q1
          rfl
  have hfresh : (cutDmrg Ws fac cutoff minB maxB).fresh o fwd s = .ok (E, withPair s o A' B') := by
    have e : (cutDmrg Ws fac cutoff minB maxB).upd = blkUpdR Ws (fun X => LA.svdCut fac X 2 cutoff minB maxB fun x => x ^ 2) := by
      unfold cutDmrg blkDmrgR
      rfl
    rw [← e] at hupd
    unfold Dmrg.fresh
    rw [gA, gB]
    simp only
    rw [hupd]
    simp only [Except.map]
    rfl
  have hphys : phys (s.take o ++ A' :: B' :: s.drop (o + 2)) = phys s := by
    conv_rhs => rw [hs]
    simp [phys, hA, hB, q2, q3]
  have hends := ends_replace (pre := s.take o) (post := s.drop (o + 2)) (A := A) (B := B) (A' := A') (B' := B')
    (by rw [hA, q2]; rfl) (by rw [hB, q3]; rfl)
  rw [← hs] at hends
  have hlk := linked_replace gA gB hF.ket hA hB q2 q3
  have hbond : bondAt (withPair s o A' B') o = k := by
    unfold bondAt withPair
    rw [List.getElem?_set_ne (by omega), List.getElem?_set_self (by omega)]
    simp [q2]
  have hw : withPair s o A' B' = s.take o ++ A' :: B' :: s.drop (o + 2) := hset A' B'
  refine ⟨E, θ, A', B', hfound, hfresh, ?_, ?_, ?_, q5, q6, by rw [hbond]; exact c9, ?_, ?_, ?_⟩
  · rw [hset] at hlk
    rw [hw]
    exact ⟨hlk, hF.op, hlk, hphys.trans hF.cols, hphys.trans hF.rows⟩
  · rw [hw]
    exact ⟨hends.1.trans hc.1, hends.2.trans hc.2⟩
  · rw [hw]; exact hphys
  · rw [hbond]
    exact ⟨A, B, n, i, m, j, n', gA, gB, hA, hB, q2, q3⟩
  · intro φ' hφ'
    simp [dot1, q2, q3] at hφ'
    have hd' : φ'.dims = [n, i, j, n'] := by rw [← hφ']
    have hf' : ∀ q ∈ configs [n, i, j, n'], φ'.f q = φ.f q := by
      intro q hq
      obtain ⟨x, c, c', y, rfl⟩ : ∃ x c c' y, q = [x, c, c', y] := by
        obtain ⟨x, c, c', y, h⟩ := List.length_eq_four.1 (show q.length = 4 by rw [(mem_configs.1 hq).length_eq]; rfl)
        exact ⟨x, c, c', y, h⟩
      have hr := mem_configs.1 hq
      unfold InRange at hr
      simp at hr
      rw [q4 x c c' y hr.1 hr.2.1 hr.2.2.1 hr.2.2.2, ← hφ']
      simp
    rw [hd', sum_congr rfl fun q hq => by rw [hf' q hq]]
    have hn := c3
    rw [EuclideanSpace.norm_eq, Real.sqrt_eq_one] at hn
    rw [← hn, ← sum_coe_sort]
    rfl
  · intro hcan
    obtain ⟨hN, hprod⟩ := pair_overlap hF hc hcW hcan gA gB gW1 gW2 hA hB
    obtain ⟨g1, g2⟩ := hprod A' B' φ k q2 q3 c2 q4
    have hn := hN φ φ c2 c2
    rw [re_pair_norm, inner_self_eq_norm_sq_to_K, c3] at hn
    constructor
    · unfold normSq
      rw [g1, sum_congr rfl fun σ hσ => by rw [← g2 σ hσ]]
      have : ((1 : ℝ) : 𝕜) ^ 2 = ((1 : ℝ) : 𝕜) := by push_cast; ring
      rw [this] at hn
      exact (by exact_mod_cast hn.symm)
    · intro hr
      rw [t2] at hr
      obtain ⟨z, hz⟩ := crank hr
      refine ⟨z, fun σ hσ => ?_⟩
      rw [← g2 σ hσ]
      have hσ' := hσ
      have hph : phys s = phys (s.take o) ++ i :: j :: phys (s.drop (o + 2)) := by
        conv_lhs => rw [hs]
        simp [phys, hA, hB]
      rw [hph] at hσ'
      exact pairAmp_scale (s.take o) (s.drop (o + 2)) t2 c2 z (fun q hq => congrArg (fun x : Vec 𝕜 [n, i, j, n'] => x ⟨q, hq⟩) hz) σ hσ'

end DM
end QuantiT
