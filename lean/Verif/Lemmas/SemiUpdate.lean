import Verif.Lemmas.SemiPair
import Verif.Lemmas.Rayleigh
import Verif.Spec.CutDmrg
/-
One two-site update of a chain that is canonical apart from unused elements of its bonds, up to the decomposition of the
new two-site tensor.
-/
namespace QuantiT
namespace DM
open Finset Spec MP
variable {𝕜 : Type} [RCLike 𝕜]

theorem update_span {V : Type} [NormedAddCommGroup V] [InnerProductSpace 𝕜 V] {H : V →ₗ[𝕜] V} {s v : V} {E : ℝ}
    (h : twoSitesUpdate H s = .ok (E, v)) : ∃ x y : 𝕜, v = x • s + y • H s := by
  unfold twoSitesUpdate at h
  simp only [bind, Except.bind] at h
  cases hr : eig2x2 (lanczos H s).2.1 (lanczos H s).2.2.1 (lanczos H s).2.2.2 with
  | error f => rw [hr] at h; cases h
  | ok r =>
    rw [hr] at h
    simp only [Except.ok.injEq, Prod.mk.injEq] at h
    obtain ⟨z, hz⟩ : ∃ z : 𝕜, (lanczos H s).1 = z • (H s - ((RCLike.re (inner 𝕜 s (H s)) : ℝ) : 𝕜) • s) := by
      unfold lanczos
      simp only
      split
      · exact ⟨_, rfl⟩
      · exact ⟨1, (one_smul _ _).symm⟩
    rw [hz] at h
    refine ⟨(r.2.1 : 𝕜) - (r.2.2 : 𝕜) * (z * ((RCLike.re (inner 𝕜 s (H s)) : ℝ) : 𝕜)), (r.2.2 : 𝕜) * z, ?_⟩
    rw [← h.2]
    module

theorem supported_smul_add {pre post : List (Blk 𝕜)} {θ φ χ : Blk 𝕜} {ds : List Nat} (hθ : θ.dims = ds) (hφ : φ.dims = ds) (hχ : χ.dims = ds)
    (h1 : Supported pre post θ) (h2 : Supported pre post φ) (x y : 𝕜) (h : toV ds χ = x • toV ds θ + y • toV ds φ) : Supported pre post χ := by
  intro a c c' b hq hz
  rw [hχ] at hq
  have := congrArg (fun z : Vec 𝕜 ds => z ⟨[a, c, c', b], hq⟩) h
  have e : χ.f [a, c, c', b] = x * θ.f [a, c, c', b] + y * φ.f [a, c, c', b] := this
  rw [e, h1 a c c' b (by rw [hθ]; exact hq) hz, h2 a c c' b (by rw [hφ]; exact hq) hz]
  simp

/-- `pair_core` for a chain that is canonical apart from unused elements. -/
theorem pair_core_semi (Ws s : List (Blk 𝕜)) (o : Nat)
    (hF : Fit s Ws s) (hc : Closed s) (hcW : Closed Ws) (hH : HermitianOp Ws (phys s)) (ho : o + 1 < s.length)
    (hcan : PairSemi s o) (hn : normSq s = 1) :
    ∃ A B W1 W2 Le Re H2 ψ n i m j n', ∃ T : Vec 𝕜 [n, i, j, n'] →ₗ[𝕜] Vec 𝕜 [n, i, j, n'],
      s[o]? = some A ∧ s[o + 1]? = some B ∧ Ws[o]? = some W1 ∧ Ws[o + 1]? = some W2 ∧
      leftEnvs star (s.take o) (Ws.take o) (onesLike [1, 1, 1]) = .ok Le ∧
      rightEnvs star (s.drop (o + 2)) (Ws.drop (o + 2)) (onesLike [1, 1, 1]) = .ok Re ∧ twoSite W1 W2 = .ok H2 ∧
      dot1 A B 2 0 = .ok ψ ∧ A.dims = [n, i, m] ∧ B.dims = [m, j, n'] ∧ ψ.dims = [n, i, j, n'] ∧ T.IsSymmetric ∧
      ‖toV [n, i, j, n'] ψ‖ = 1 ∧ RCLike.re (inner 𝕜 (toV [n, i, j, n'] ψ) (T (toV [n, i, j, n'] ψ))) = energy Ws s ∧
      Supported (s.take o) (s.drop (o + 2)) ψ ∧
      (∀ θ : Blk 𝕜, θ.dims = [n, i, j, n'] → ∃ θ', hamil2site θ H2 Le Re = .ok θ' ∧ θ'.dims = [n, i, j, n'] ∧
        toV [n, i, j, n'] θ' = T (toV [n, i, j, n'] θ) ∧ Supported (s.take o) (s.drop (o + 2)) θ') ∧
      (∀ θ φ : Blk 𝕜, θ.dims = [n, i, j, n'] → φ.dims = [n, i, j, n'] →
        inner 𝕜 (toV [n, i, j, n'] φ) (T (toV [n, i, j, n'] θ)) = pairSandwich (s.take o) θ φ (s.drop (o + 2)) Ws (phys s) 0 0 0 0 0 0) ∧
      (∀ θ φ : Blk 𝕜, θ.dims = [n, i, j, n'] → φ.dims = [n, i, j, n'] → Supported (s.take o) (s.drop (o + 2)) θ →
        inner 𝕜 (toV [n, i, j, n'] φ) (toV [n, i, j, n'] θ) = ∑ σ ∈ configs (phys s),
          pairAmp (s.take o) θ (s.drop (o + 2)) σ 0 0 * star (pairAmp (s.take o) φ (s.drop (o + 2)) σ 0 0)) ∧
      (∀ θ : Blk 𝕜, θ.dims = [n, i, j, n'] → ∀ σ ∈ configs (phys s),
        pairAmp (s.take o) (supp (s.take o) (s.drop (o + 2)) θ) (s.drop (o + 2)) σ 0 0 = pairAmp (s.take o) θ (s.drop (o + 2)) σ 0 0) ∧
      ∀ (θ A' B' : Blk 𝕜) (k : Nat), θ.dims = [n, i, j, n'] → A'.dims = [n, i, k] → B'.dims = [k, j, n'] →
        (∀ x c c' y, x < n → c < i → c' < j → y < n' → θ.f [x, c, c', y] = ∑ m ∈ range k, A'.f [x, c, m] * B'.f [m, c', y]) →
        Fit (withPair s o A' B') Ws (withPair s o A' B') ∧ Closed (withPair s o A' B') ∧ phys (withPair s o A' B') = phys s ∧
        (∀ σ ∈ configs (phys s), pairAmp (s.take o) θ (s.drop (o + 2)) σ 0 0 = amp (withPair s o A' B') σ 0 0) := by
  have hWl : Ws.length = s.length := (Fit.lengths hF).1
  obtain ⟨A, gA⟩ : ∃ A, s[o]? = some A := ⟨_, List.getElem?_eq_getElem (by omega)⟩
  obtain ⟨B, gB⟩ : ∃ B, s[o + 1]? = some B := ⟨_, List.getElem?_eq_getElem ho⟩
  obtain ⟨W1, gW1⟩ : ∃ W, Ws[o]? = some W := ⟨_, List.getElem?_eq_getElem (by omega)⟩
  obtain ⟨W2, gW2⟩ : ∃ W, Ws[o + 1]? = some W := ⟨_, List.getElem?_eq_getElem (by omega)⟩
  obtain ⟨hs, hset⟩ := list_pair gA gB
  obtain ⟨hW, _⟩ := list_pair gW1 gW2
  obtain ⟨hpL, hpS⟩ := pairSemi_pre hcan
  obtain ⟨hqR, hqS⟩ := pairSemi_post hcan
  have hF' := hF
  rw [hs, hW] at hF'
  have hc' := hc
  rw [hs] at hc'
  have hcW' := hcW
  rw [hW] at hcW'
  obtain ⟨Le, Re, H2, n, i, m, j, n', T, hA, hB, hp, hp0, f1, f2, h1, h2, h3, hT, hE⟩ :=
    pair_setup0 (s.take o) (s.drop (o + 2)) (Ws.take o) (Ws.drop (o + 2)) A B W1 W2 hF' (by simp; omega) hc' hcW'
  have hph : phys s = phys (s.take o) ++ i :: j :: phys (s.drop (o + 2)) := by
    conv_lhs => rw [hs]
    simp [phys, hA, hB]
  rw [← hs, ← hW] at hE
  have hN : ∀ θ φ : Blk 𝕜, θ.dims = [n, i, j, n'] → φ.dims = [n, i, j, n'] → Supported (s.take o) (s.drop (o + 2)) θ →
        inner 𝕜 (toV [n, i, j, n'] φ) (toV [n, i, j, n'] θ) = ∑ σ ∈ configs (phys s),
          pairAmp (s.take o) θ (s.drop (o + 2)) σ 0 0 * star (pairAmp (s.take o) φ (s.drop (o + 2)) σ 0 0) := by
    intro θ φ hθ hφ hS
    have := pair_isometry_semi (s.take o) (s.drop (o + 2)) θ φ n i j n' 1 1 hθ hφ f1 f2 hpL hqR hpS hqS hS
    rw [inner_toV, hph, ← hθ, ← this]
    simp
  -- the two-site tensor
  obtain ⟨ψ, hψ, hψd, hψf⟩ : ∃ ψ, dot1 A B 2 0 = .ok ψ ∧ ψ.dims = [n, i, j, n'] ∧
      ∀ x s t y, ψ.f [x, s, t, y] = ∑ k ∈ range m, A.f [x, s, k] * B.f [k, t, y] := by
    refine ⟨_, by simp [dot1, hA, hB]; rfl, ?_, ?_⟩
    · simp
    · intro x s t y; rfl
  have hψS : Supported (s.take o) (s.drop (o + 2)) ψ :=
    pairSemi_supported hcan gA gB hA hB hF.ket hψd fun x s t y _ _ _ _ => hψf x s t y
  have hchain := chain_of_pair (pre := s.take o) (post := s.drop (o + 2)) (Ws := Ws) hA hB hψd (fun x s t y _ _ _ _ => hψf x s t y) hp hp0
  rw [← hs] at hchain
  have hψn : ‖toV [n, i, j, n'] ψ‖ = 1 := by
    have := hN ψ ψ hψd hψd hψS
    rw [re_pair_norm, inner_self_eq_norm_sq_to_K, ← hchain.1, hn] at this
    have : ‖toV [n, i, j, n'] ψ‖ ^ 2 = 1 := by exact_mod_cast this
    exact (pow_eq_one_iff_of_nonneg (norm_nonneg _) (by norm_num)).1 this
  have hψE : RCLike.re (inner 𝕜 (toV [n, i, j, n'] ψ) (T (toV [n, i, j, n'] ψ))) = energy Ws s := by
    rw [hE ψ ψ hψd hψd, hchain.2]
  have hsym : T.IsSymmetric := isSymmetric_of hH hE
  refine ⟨A, B, W1, W2, Le, Re, H2, ψ, n, i, m, j, n', T, gA, gB, gW1, gW2, h1, h2, h3, hψ, hA, hB, hψd, hsym, hψn, hψE, hψS, ?_, hE, hN, ?_, ?_⟩
  · intro θ hθ
    obtain ⟨θ', k1, k2, k3⟩ := hT θ hθ
    exact ⟨θ', k1, k2, k3, image_supported f1 f2 hph hE θ θ' hθ k2 k3⟩
  · intro θ hθ σ hσ
    refine pairAmp_supported (s.take o) (s.drop (o + 2)) (supp (s.take o) (s.drop (o + 2)) θ) θ n i j n' 1 1 hθ hθ f1 f2 ?_ σ (by rw [← hph]; exact hσ) 0 0 (by omega)
    intro x c c' y _ _ _ _ z1 z2
    unfold supp
    exact if_neg fun h => by
      rcases h with h | h
      · exact z1 h
      · exact z2 h
  · intro θ A' B' k t2 q2 q3 q4
    unfold withPair
    have hlk := linked_replace gA gB hF.ket hA hB q2 q3
    rw [hset] at hlk ⊢
    have hphys : phys (s.take o ++ A' :: B' :: s.drop (o + 2)) = phys s := by
      conv_rhs => rw [hs]
      simp [phys, hA, hB, q2, q3]
    have hends := ends_replace (pre := s.take o) (post := s.drop (o + 2)) (A := A) (B := B) (A' := A') (B' := B')
      (by rw [hA, q2]; rfl) (by rw [hB, q3]; rfl)
    rw [← hs] at hends
    refine ⟨⟨hlk, hF.op, hlk, hphys.trans hF.cols, hphys.trans hF.rows⟩, ⟨hends.1.trans hc.1, hends.2.trans hc.2⟩, hphys, ?_⟩
    intro σ hσ
    exact pairAmp_prod (s.take o) (s.drop (o + 2)) A' B' θ n i k j n' q2 q3 t2 q4 hp σ (by rw [hphys]; exact hσ) 0 0 hp0

/-- `update_full` for a chain that is canonical apart from unused elements. -/
theorem update_full_semi (Ws s : List (Blk 𝕜)) (o : Nat)
    (hF : Fit s Ws s) (hc : Closed s) (hcW : Closed Ws) (hH : HermitianOp Ws (phys s)) (ho : o + 1 < s.length)
    (hcan : PairSemi s o) (hn : normSq s = 1) (hreg : Regular Ws s o) :
    ∃ A B W1 W2 Le Re H2 ψ E θ n i m j n', s[o]? = some A ∧ s[o + 1]? = some B ∧ Ws[o]? = some W1 ∧ Ws[o + 1]? = some W2 ∧
      leftEnvs star (s.take o) (Ws.take o) (onesLike [1, 1, 1]) = .ok Le ∧
      rightEnvs star (s.drop (o + 2)) (Ws.drop (o + 2)) (onesLike [1, 1, 1]) = .ok Re ∧ twoSite W1 W2 = .ok H2 ∧
      dot1 A B 2 0 = .ok ψ ∧ twoSitesUpdateBlk ψ H2 Le Re = .ok (E, θ) ∧ A.dims = [n, i, m] ∧ B.dims = [m, j, n'] ∧
      θ.dims = [n, i, j, n'] ∧ ‖toV [n, i, j, n'] θ‖ = 1 ∧ Supported (s.take o) (s.drop (o + 2)) θ ∧ E ≤ energy Ws s ∧
      ((∃ ψ ψ', PairTensors Ws s o ψ ψ' ∧ Improvable ψ ψ' (energy Ws s)) → E < energy Ws s) ∧
      (∀ ψ ψ', PairTensors Ws s o ψ ψ' → ∀ (x y : 𝕜) (θ : Blk 𝕜), θ.dims = ψ.dims →
        (∀ o ∈ configs ψ.dims, θ.f o = x * ψ.f o + y * ψ'.f o) →
        E * ∑ σ ∈ configs (phys s), ‖pairAmp (s.take o) θ (s.drop (o + 2)) σ 0 0‖ ^ 2
          ≤ RCLike.re (pairSandwich (s.take o) θ θ (s.drop (o + 2)) Ws (phys s) 0 0 0 0 0 0)) ∧
      E = vecEnergy Ws (phys s) (fun σ => pairAmp (s.take o) θ (s.drop (o + 2)) σ 0 0) ∧
      (∀ θ φ : Blk 𝕜, θ.dims = [n, i, j, n'] → φ.dims = [n, i, j, n'] → Supported (s.take o) (s.drop (o + 2)) θ →
        inner 𝕜 (toV [n, i, j, n'] φ) (toV [n, i, j, n'] θ) = ∑ σ ∈ configs (phys s),
          pairAmp (s.take o) θ (s.drop (o + 2)) σ 0 0 * star (pairAmp (s.take o) φ (s.drop (o + 2)) σ 0 0)) ∧
      (∀ θ : Blk 𝕜, θ.dims = [n, i, j, n'] → ∀ σ ∈ configs (phys s),
        pairAmp (s.take o) (supp (s.take o) (s.drop (o + 2)) θ) (s.drop (o + 2)) σ 0 0 = pairAmp (s.take o) θ (s.drop (o + 2)) σ 0 0) ∧
      ∀ (θ A' B' : Blk 𝕜) (k : Nat), θ.dims = [n, i, j, n'] → A'.dims = [n, i, k] → B'.dims = [k, j, n'] →
        (∀ x c c' y, x < n → c < i → c' < j → y < n' → θ.f [x, c, c', y] = ∑ m ∈ range k, A'.f [x, c, m] * B'.f [m, c', y]) →
        Fit (withPair s o A' B') Ws (withPair s o A' B') ∧ Closed (withPair s o A' B') ∧ phys (withPair s o A' B') = phys s ∧
        (∀ σ ∈ configs (phys s), pairAmp (s.take o) θ (s.drop (o + 2)) σ 0 0 = amp (withPair s o A' B') σ 0 0) := by
  obtain ⟨A, B, W1, W2, Le, Re, H2, ψ, n, i, m, j, n', T, gA, gB, gW1, gW2, h1, h2, h3, hψ, hA, hB, hψd, hsym, hψn, hψE, hψS, hT', hE, hN, hsupp, hnew⟩ :=
    pair_core_semi Ws s o hF hc hcW hH ho hcan hn
  obtain ⟨ψ', k1, k2, k3, k4⟩ := hT' ψ hψd
  have hT : ∀ θ : Blk 𝕜, θ.dims = [n, i, j, n'] → ∃ θ', hamil2site θ H2 Le Re = .ok θ' ∧ θ'.dims = [n, i, j, n'] ∧
        toV [n, i, j, n'] θ' = T (toV [n, i, j, n'] θ) := fun θ hθ => by
    obtain ⟨θ', a, b, c, _⟩ := hT' θ hθ
    exact ⟨θ', a, b, c⟩
  have hpt : PairTensors Ws s o ψ ψ' := ⟨A, B, W1, W2, Le, Re, H2, gA, gB, gW1, gW2, hψ, h1, h2, h3, k1⟩
  have hres : ‖T (toV [n, i, j, n'] ψ) - ((energy Ws s : ℝ) : 𝕜) • toV [n, i, j, n'] ψ‖ ^ 2
      = ∑ o ∈ configs ψ.dims, ‖ψ'.f o - (energy Ws s : 𝕜) * ψ.f o‖ ^ 2 := by
    rw [← k3, hψd]
    exact norm_toV [n, i, j, n'] (⟨[n, i, j, n'], fun o => ψ'.f o - (energy Ws s : 𝕜) * ψ.f o⟩ : Blk 𝕜)
  have himp : Improvable ψ ψ' (energy Ws s) → 1e-15 ≤ ‖T (toV [n, i, j, n'] ψ)
      - ((RCLike.re (inner 𝕜 (toV [n, i, j, n'] ψ) (T (toV [n, i, j, n'] ψ))) : ℝ) : 𝕜) • toV [n, i, j, n'] ψ‖ := by
    intro h
    rw [hψE]
    unfold Improvable at h
    rw [← hres] at h
    exact le_of_sq_le_sq (by exact h) (norm_nonneg _)
  -- the eigensolver
  obtain ⟨E, v, u1, u2, u3, u4, u5, u6⟩ : ∃ E v, twoSitesUpdate T (toV [n, i, j, n'] ψ) = .ok (E, v) ∧ ‖v‖ = 1 ∧
      E = RCLike.re (inner 𝕜 v (T v)) ∧ E ≤ energy Ws s ∧ (Improvable ψ ψ' (energy Ws s) → E < energy Ws s) ∧
      ∀ x y : 𝕜, E * ‖x • toV [n, i, j, n'] ψ + y • T (toV [n, i, j, n'] ψ)‖ ^ 2
        ≤ RCLike.re (inner 𝕜 (x • toV [n, i, j, n'] ψ + y • T (toV [n, i, j, n'] ψ))
            (T (x • toV [n, i, j, n'] ψ + y • T (toV [n, i, j, n'] ψ)))) := by
    by_cases hi : Improvable ψ ψ' (energy Ws s)
    · obtain ⟨E, v, a1, a2, a3, a4, a5⟩ := C54_update_partial T hsym _ hψn (himp hi)
      rw [hψE] at a4
      exact ⟨E, v, a1, a2, a3, a4.le, fun _ => a4, a5⟩
    · rcases hreg ψ ψ' hpt with h | ⟨h, h'⟩
      · exact absurd h hi
      · have he : T (toV [n, i, j, n'] ψ) = ((energy Ws s : ℝ) : 𝕜) • toV [n, i, j, n'] ψ := by
          rw [← k3]
          ext o
          exact h' o.1 (by rw [hψd]; exact o.2)
        refine ⟨energy Ws s, _, C54_eigenvector_partial T _ hψn _ h he, hψn, hψE.symm, le_refl _, fun h => absurd h hi, ?_⟩
        intro x y
        rw [he, smul_smul, ← add_smul, map_smul, he, inner_smul_left, inner_smul_right, inner_smul_right, inner_self_eq_norm_sq_to_K,
          hψn, norm_smul, hψn]
        generalize x + y * ((energy Ws s : ℝ) : 𝕜) = z
        have : starRingEnd 𝕜 z * (z * (((energy Ws s : ℝ) : 𝕜) * ((1 : ℝ) : 𝕜) ^ 2)) = ((energy Ws s * ‖z‖ ^ 2 : ℝ) : 𝕜) := by
          rw [← mul_assoc, RCLike.conj_mul]; push_cast; ring
        rw [this, RCLike.ofReal_re]
        simp
  obtain ⟨θ, t1, t2, t3⟩ := twoSitesUpdateBlk_ok hT hψd u1
  have hθS : Supported (s.take o) (s.drop (o + 2)) θ := by
    obtain ⟨x, y, hxy⟩ := update_span u1
    rw [← t3, ← k3] at hxy
    exact supported_smul_add hψd k2 t2 hψS k4 x y hxy
  refine ⟨A, B, W1, W2, Le, Re, H2, ψ, E, θ, n, i, m, j, n', gA, gB, gW1, gW2, h1, h2, h3, hψ, t1, hA, hB, t2, by rw [t3]; exact u2, hθS, u4,
    ?_, ?_, ?_, hN, hsupp, hnew⟩
  · rintro ⟨φ, φ', ⟨A1, B1, W3, W4, Le1, Re1, H3, b1, b2, b3, b4, b5, b6, b7, b8, b9⟩, hi⟩
    rw [gA] at b1; cases b1
    rw [gB] at b2; cases b2
    rw [gW1] at b3; cases b3
    rw [gW2] at b4; cases b4
    rw [hψ] at b5; cases b5
    rw [h1] at b6; cases b6
    rw [h2] at b7; cases b7
    rw [h3] at b8; cases b8
    rw [k1] at b9; cases b9
    exact u5 hi
  · rintro φ φ' ⟨A1, B1, W3, W4, Le1, Re1, H3, b1, b2, b3, b4, b5, b6, b7, b8, b9⟩ x y ξ hξd hξ
    rw [gA] at b1; cases b1
    rw [gB] at b2; cases b2
    rw [gW1] at b3; cases b3
    rw [gW2] at b4; cases b4
    rw [hψ] at b5; cases b5
    rw [h1] at b6; cases b6
    rw [h2] at b7; cases b7
    rw [h3] at b8; cases b8
    rw [k1] at b9; cases b9
    have hV : toV [n, i, j, n'] ξ = x • toV [n, i, j, n'] ψ + y • T (toV [n, i, j, n'] ψ) := by
      rw [← k3]
      ext o
      exact hξ o.1 (by rw [hψd]; exact o.2)
    have hξ4 := hξd.trans hψd
    have hS : Supported (s.take o) (s.drop (o + 2)) ξ := by
      have hV' := hV
      rw [← k3] at hV'
      exact supported_smul_add hψd k2 hξ4 hψS k4 x y hV'
    have hnn := hN ξ ξ hξ4 hξ4 hS
    rw [re_pair_norm, inner_self_eq_norm_sq_to_K] at hnn
    have hnn' : ‖toV [n, i, j, n'] ξ‖ ^ 2 = ∑ σ ∈ configs (phys s), ‖pairAmp (s.take o) ξ (s.drop (o + 2)) σ 0 0‖ ^ 2 := by exact_mod_cast hnn
    have := u6 x y
    rw [← hV] at this
    rw [hE ξ ξ hξ4 hξ4, hnn'] at this
    exact this
  · rw [u3, ← t3, hE θ θ t2 t2]
    rfl

/-- What makes the chain with a new pair canonical apart from unused elements, around the site where the sweep goes on. -/
theorem semi_replace {s : List (Blk 𝕜)} {o : Nat} (hcan : PairSemi s o) (hlk : Linked 3 (s.map Blk.dims)) {A B A' B' : Blk 𝕜} {n i m j n' k : Nat}
    (gA : s[o]? = some A) (gB : s[o + 1]? = some B) (hA : A.dims = [n, i, m]) (hB : B.dims = [m, j, n'])
    (hA' : A'.dims = [n, i, k]) (hB' : B'.dims = [k, j, n']) (fwd : Bool)
    (hL : fwd = true → LeftSemi A' ∧ ∀ x, x < k → ZeroCol A' x → ZeroRow B' x)
    (hR : fwd = false → RightSemi B' ∧ ∀ x, x < k → ZeroRow B' x → ZeroCol A' x)
    (dA : ∀ x, x < n → ZeroLast (s.take o) x → ZeroRow A' x) (dB : ∀ y, y < n' → ZeroHead (s.drop (o + 2)) y → ZeroCol B' y) :
    SemiCanonical (withPair s o A' B') (if fwd then o + 1 else o) := by
  have l1 := (List.getElem?_eq_some_iff.1 gA).1
  have l2 := (List.getElem?_eq_some_iff.1 gB).1
  have e0 : ∀ x, x ≠ o → x ≠ o + 1 → (withPair s o A' B')[x]? = s[x]? := by
    intro x h1 h2
    unfold withPair
    rw [List.getElem?_set_ne (by omega), List.getElem?_set_ne (by omega)]
  have e1 : (withPair s o A' B')[o]? = some A' := by
    unfold withPair
    rw [List.getElem?_set_ne (by omega), List.getElem?_set_self (by omega)]
  have e2 : (withPair s o A' B')[o + 1]? = some B' := by
    unfold withPair
    rw [List.getElem?_set_self (by simp; omega)]
  constructor
  · intro x X hX hx
    by_cases h : x < o
    · rw [e0 x (by omega) (by omega)] at hX
      exact hcan.left x X hX h
    · cases fwd with
      | false => simp at hx; omega
      | true =>
        have : x = o := by simp at hx; omega
        subst this
        rw [e1] at hX
        cases hX
        exact (hL rfl).1
  · intro x X hX hx
    by_cases h : o + 1 < x
    · rw [e0 x (by omega) (by omega)] at hX
      exact hcan.right x X hX h
    · cases fwd with
      | true => simp at hx; omega
      | false =>
        have : x = o + 1 := by simp at hx; omega
        subst this
        rw [e2] at hX
        cases hX
        exact (hR rfl).1
  · intro x X Y hX hY hx y hy hz
    by_cases h : x + 1 < o
    · rw [e0 x (by omega) (by omega)] at hX
      rw [e0 (x + 1) (by omega) (by omega)] at hY
      exact hcan.skipLeft x X Y hX hY (by omega) y hy hz
    · by_cases h' : x + 1 = o
      · subst h'
        rw [e0 x (by omega) (by omega)] at hX
        rw [e1] at hY
        cases hY
        have h2 := hlk.2 x X.dims A.dims (by simp [hX]) (by simp [gA])
        have h3 : X.dims.getD 2 0 = n := by
          rw [List.getD_eq_getElem?_getD, h2, hA]; rfl
        refine dA y (by omega) ⟨X, ?_, hz⟩
        rw [List.getLast?_eq_getElem?, List.length_take, Nat.min_eq_left l1.le, List.getElem?_take]
        simpa using hX
      · cases fwd with
        | false => simp at hx; omega
        | true =>
          have : x = o := by simp at hx; omega
          subst this
          rw [e1] at hX
          rw [e2] at hY
          cases hX
          cases hY
          rw [hA'] at hy
          exact (hL rfl).2 y hy hz
  · intro x X Y hX hY hx y hy hz
    by_cases h : o + 1 < x
    · rw [e0 x (by omega) (by omega)] at hX
      rw [e0 (x + 1) (by omega) (by omega)] at hY
      exact hcan.skipRight x X Y hX hY (by omega) y hy hz
    · by_cases h' : x = o + 1
      · subst h'
        rw [e2] at hX
        rw [e0 _ (by omega) (by omega)] at hY
        cases hX
        have h2 := hlk.2 (o + 1) B.dims Y.dims (by simp [gB]) (by simp [hY])
        have h3 : Y.dims.getD 0 0 = n' := by
          rw [List.getD_eq_getElem?_getD, ← h2, hB]; rfl
        refine dB y (by omega) ⟨Y, ?_, hz⟩
        rw [List.head?_drop]
        exact hY
      · cases fwd with
        | true => simp at hx; omega
        | false =>
          have : x = o := by simp at hx; omega
          subst this
          rw [e1] at hX
          rw [e2] at hY
          cases hX
          cases hY
          rw [hB'] at hy
          exact (hR rfl).2 y hy hz

/-! ### Energies of close states -/

/-- An operator given as an MPO as a linear map of vectors of amplitudes. -/
noncomputable def opMap (Ws : List (Blk 𝕜)) (ds : List Nat) : Vec 𝕜 ds →ₗ[𝕜] Vec 𝕜 ds where
  toFun x := WithLp.toLp 2 fun τ => ∑ σ, x σ * opEntry Ws τ.1 σ.1 0 0
  map_add' x y := by
    ext τ
    simp [add_mul, sum_add_distrib]
  map_smul' z x := by
    ext τ
    simp [mul_sum, mul_assoc]

theorem energy_close (Ws : List (Blk 𝕜)) (ds : List Nat) (hH : HermitianOp Ws ds) (lo hi : ℝ) (hlo : BoundedBelow Ws ds lo) (hhi : BoundedAbove Ws ds hi)
    (v u : List Nat → 𝕜) (hv : vecNormSq ds v = 1) (hu : vecNormSq ds u = 1) (c : ℝ) (hov : ∑ σ ∈ configs ds, v σ * star (u σ) = (c : 𝕜)) :
    |vecEnergy Ws ds v - vecEnergy Ws ds u| ≤ (hi - lo) * √(1 - c ^ 2) := by
  let vec : (List Nat → 𝕜) → Vec 𝕜 ds := fun v => toV ds (⟨ds, v⟩ : Blk 𝕜)
  have hin : ∀ a b : List Nat → 𝕜, inner 𝕜 (vec a) (vec b) = ∑ σ ∈ configs ds, b σ * star (a σ) := fun a b => inner_toV _ _ _
  have hopv : ∀ a : List Nat → 𝕜, opMap Ws ds (vec a) = vec fun τ => ∑ σ ∈ configs ds, a σ * opEntry Ws τ σ 0 0 := by
    intro a
    ext τ
    show ∑ σ : {o // o ∈ configs ds}, a σ.1 * opEntry Ws τ.1 σ.1 0 0 = _
    rw [sum_coe_sort (configs ds) fun σ => a σ * opEntry Ws τ.1 σ 0 0]
    rfl
  have hform : ∀ a b : List Nat → 𝕜, inner 𝕜 (vec b) (opMap Ws ds (vec a))
      = ∑ σ ∈ configs ds, ∑ τ ∈ configs ds, a σ * opEntry Ws τ σ 0 0 * star (b τ) := by
    intro a b
    rw [hopv, hin, sum_comm]
    exact sum_congr rfl fun τ _ => sum_mul _ _ _
  have hsur : ∀ x : Vec 𝕜 ds, ∃ a, x = vec a := by
    intro x
    refine ⟨fun o => if h : o ∈ configs ds then x ⟨o, h⟩ else 0, ?_⟩
    ext o
    show _ = (if h : o.1 ∈ configs ds then x ⟨o.1, h⟩ else 0)
    rw [dif_pos o.2]
  have hsym : (opMap Ws ds).IsSymmetric := by
    intro x y
    obtain ⟨a, rfl⟩ := hsur x
    obtain ⟨b, rfl⟩ := hsur y
    rw [← inner_conj_symm, hform, hform, map_sum, sum_comm]
    refine sum_congr rfl fun τ hτ => ?_
    rw [map_sum]
    refine sum_congr rfl fun σ hσ => ?_
    rw [hH τ hτ σ hσ]
    simp only [map_mul, RCLike.star_def, RCLike.conj_conj]
    ring
  have hnv : ∀ a, ‖vec a‖ ^ 2 = vecNormSq ds a := fun a => norm_toV _ _
  have he : ∀ a, RCLike.re (inner 𝕜 (vec a) (opMap Ws ds (vec a))) = vecEnergy Ws ds a := fun a => by rw [hform]; rfl
  have n1 : ‖vec v‖ = 1 := (pow_eq_one_iff_of_nonneg (norm_nonneg _) (by norm_num)).1 ((hnv v).trans hv)
  have n2 : ‖vec u‖ = 1 := (pow_eq_one_iff_of_nonneg (norm_nonneg _) (by norm_num)).1 ((hnv u).trans hu)
  have := rayleigh_close (opMap Ws ds) hsym lo hi (fun x => by
      obtain ⟨a, rfl⟩ := hsur x
      rw [he, hnv]; exact hlo a) (fun x => by
      obtain ⟨a, rfl⟩ := hsur x
      rw [he, hnv]; exact hhi a) (vec v) (vec u) n1 n2
  rw [he, he, hin, hov, RCLike.ofReal_re] at this
  exact this

end DM
end QuantiT
