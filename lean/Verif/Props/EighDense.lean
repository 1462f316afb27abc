import Verif.Spec.EighDense
import Verif.Props.SvdDense
import Mathlib.Data.Fin.Tuple.Sort
/-
C113: eigenvalue decomposition of dense tensors.
-/
namespace QuantiT
namespace LA
open Finset Spec BT MP
variable {𝕜 : Type} [RCLike 𝕜]

theorem eighDense_ok {fac : Blk 𝕜 → Blk 𝕜 × Blk 𝕜} (hfac : DenseEigh fac) (A : Blk 𝕜) (ds : List Nat) (hA : A.dims = ds ++ ds) :
    ∃ m d u, eighDense fac A ds.length = .ok (d, u) ∧ OrthoColumns u ds ds.prod ∧ d.dims = [ds.prod] ∧
      (∃ σ : Nat → ℝ, (∀ j k, j ≤ k → k < ds.prod → σ j ≤ σ k) ∧ ∀ k, k < ds.prod → d.f [k] = (σ k : 𝕜)) ∧
      (∀ e f, InRange e ds → InRange f ds → m.f [flat ds e, flat ds f] = A.f (e ++ f)) ∧
      ∀ e f, InRange e ds → InRange f ds → lowerHerm m (flat ds e) (flat ds f) = svdTerms u d u ds.prod e f := by
  obtain ⟨m, m1, m2, m3⟩ := reshape_to_matrix A ds ds hA
  obtain ⟨s1, s2⟩ := hfac.sizes m ds.prod m2
  obtain ⟨u, u1, u2, u3⟩ := reshape_of_matrix (fac m).2 ds ds.prod s2
  refine ⟨m, (fac m).1, u, ?_, ⟨u2, ?_⟩, s1, hfac.values m ds.prod m2, m3, ?_⟩
  · unfold eighDense
    rw [if_neg (by rw [hA]; simp)]
    dsimp only
    have e1 : A.dims.take ds.length = ds := by rw [hA]; simp
    have e2 : A.dims.drop ds.length = ds := by rw [hA]; simp
    rw [e1, e2, if_neg (by simp)]
    simp only [bind, Except.bind, m1, s1, u1]
  · intro a b ha hb
    have h := hfac.ortho m ds.prod m2 a b ha hb
    rw [← h, sum_configs_flat]
    refine sum_congr rfl fun r hr => ?_
    have hr := mem_range.1 hr
    rw [u3 _ _ (unflat_inRange hr) ha, u3 _ _ (unflat_inRange hr) hb, flat_unflat hr]
  · intro e f he hf
    have h := hfac.product m ds.prod m2 _ _ (flat_lt he) (flat_lt hf)
    rw [h]
    unfold svdTerms
    refine sum_congr rfl fun k hk => ?_
    have hk := mem_range.1 hk
    rw [u3 _ _ he hk, u3 _ _ hf hk]

/-- **C113** (the decomposition).  `eigh(A, split)` of a hermitian tensor whose first `split` dimensions are as the others: the eigenvalues in
ascending order, orthonormal eigenvectors with the dimensions of the rows of `A`, `u · diag d · u†` is `A`, and every column of `u` is an
eigenvector. -/
theorem C113_eigh {fac : Blk 𝕜 → Blk 𝕜 × Blk 𝕜} (hfac : DenseEigh fac) (A : Blk 𝕜) (ds : List Nat) (hA : A.dims = ds ++ ds) (hH : HermitianTensor A ds) :
    ∃ d u, eighDense fac A ds.length = .ok (d, u) ∧ OrthoColumns u ds ds.prod ∧ d.dims = [ds.prod] ∧
      (∃ σ : Nat → ℝ, (∀ j k, j ≤ k → k < ds.prod → σ j ≤ σ k) ∧ ∀ k, k < ds.prod → d.f [k] = (σ k : 𝕜)) ∧
      (∀ e f, InRange e ds → InRange f ds → A.f (e ++ f) = svdTerms u d u ds.prod e f) ∧
      ∀ e k, InRange e ds → k < ds.prod → ∑ f ∈ configs ds, A.f (e ++ f) * u.f (f ++ [k]) = d.f [k] * u.f (e ++ [k]) := by
  obtain ⟨m, d, u, a1, a2, a3, a4, a5, a6⟩ := eighDense_ok hfac A ds hA
  have hprod : ∀ e f, InRange e ds → InRange f ds → A.f (e ++ f) = svdTerms u d u ds.prod e f := by
    intro e f he hf
    rw [← a6 e f he hf, ← a5 e f he hf]
    unfold lowerHerm
    have hs : ∀ e f, InRange e ds → InRange f ds → m.f [flat ds e, flat ds f] = star (m.f [flat ds f, flat ds e]) := by
      intro e f he hf
      rw [a5 e f he hf, a5 f e hf he]
      exact hH e f he hf
    split
    · rfl
    · split
      · exact hs e f he hf
      · have : flat ds e = flat ds f := by omega
        rw [← this]
        have h := hs e e he he
        exact (RCLike.conj_eq_iff_re.1 h.symm).symm
  refine ⟨d, u, a1, a2, a3, a4, hprod, fun e k he hk => ?_⟩
  have : ∀ f ∈ configs ds, A.f (e ++ f) * u.f (f ++ [k]) = ∑ j ∈ range ds.prod, u.f (e ++ [j]) * d.f [j] * (star (u.f (f ++ [j])) * u.f (f ++ [k])) := by
    intro f hf
    rw [hprod e f he (mem_configs.1 hf)]
    unfold svdTerms
    rw [sum_mul]
    exact sum_congr rfl fun j _ => by ring
  rw [sum_congr rfl this, sum_comm]
  have h2 : ∀ j ∈ range ds.prod, ∑ f ∈ configs ds, u.f (e ++ [j]) * d.f [j] * (star (u.f (f ++ [j])) * u.f (f ++ [k]))
      = if j = k then d.f [k] * u.f (e ++ [k]) else 0 := by
    intro j hj
    rw [← mul_sum, a2.ortho j k (mem_range.1 hj) hk]
    split
    · next h => rw [h]; ring
    · ring
  rw [sum_congr rfl h2, sum_ite_eq' (range ds.prod) k, if_pos (mem_range.2 hk)]

/-- **C113** fails: a tensor that is not hermitian is not refused, and what is returned is not a decomposition of it. -/
theorem C113_eigh_fails {fac : Blk 𝕜 → Blk 𝕜 × Blk 𝕜} (hfac : DenseEigh fac) (A : Blk 𝕜) (ds : List Nat) (hA : A.dims = ds ++ ds) (hH : ¬ HermitianTensor A ds) :
    ∃ d u, eighDense fac A ds.length = .ok (d, u) ∧ ∃ e f, InRange e ds ∧ InRange f ds ∧ A.f (e ++ f) ≠ svdTerms u d u ds.prod e f := by
  obtain ⟨m, d, u, a1, a2, a3, ⟨σ, _, a4⟩, a5, a6⟩ := eighDense_ok hfac A ds hA
  refine ⟨d, u, a1, ?_⟩
  by_contra hc
  push Not at hc
  refine hH fun e f he hf => ?_
  rw [hc e f he hf, hc f e hf he]
  unfold svdTerms
  rw [star_sum]
  refine sum_congr rfl fun k hk => ?_
  rw [a4 k (mem_range.1 hk), star_mul', star_mul', star_star, RCLike.star_def, RCLike.conj_ofReal]
  ring

/-- **C113** (rectangular matrices).  `eigh` refuses a tensor whose two groups of dimensions have different sizes. -/
theorem C113_rectangular (fac : Blk 𝕜 → Blk 𝕜 × Blk 𝕜) (A : Blk 𝕜) (left right : List Nat) (hA : A.dims = left ++ right) (h : left.prod ≠ right.prod) :
    eighDense fac A left.length = Res.throw .invalidArgument := by
  unfold eighDense
  rw [if_neg (by rw [hA]; simp)]
  dsimp only
  have e1 : A.dims.take left.length = left := by rw [hA]; simp
  have e2 : A.dims.drop left.length = right := by rw [hA]; simp
  rw [e1, e2, if_pos h]

theorem eighCut_ok {fac : Blk 𝕜 → Blk 𝕜 × Blk 𝕜} (hfac : DenseEigh fac) (A : Blk 𝕜) (ds : List Nat) (hA : A.dims = ds ++ ds) (h0 : 1 ≤ ds.prod)
    (h63 : ds.prod < 2 ^ 63) (tol : ℝ) (htol : 0 ≤ tol) (minS maxS : Nat) (hmin : 1 ≤ minS) :
    ∃ d u k0, eighDense fac A ds.length = .ok (d, u) ∧ OrthoColumns u ds ds.prod ∧ d.dims = [ds.prod] ∧
      NeededSize (fun x => x) tol (vectorRows u) minS k0 ∧ (vectorRows u).n = ds.prod ∧
      (vectorRows u).rows = (List.range ds.prod).map (fun r => (List.range ds.prod).map fun k => ‖u.f (unflat ds r ++ [k])‖) ∧
      eighCut fac A ds.length tol minS maxS (fun x => x) = .ok
        (⟨[max (min minS ds.prod) (min k0 maxS)], d.f⟩, ⟨ds ++ [max (min minS ds.prod) (min k0 maxS)], u.f⟩) := by
  obtain ⟨m, d, u, a1, a2, a3, _, _, _⟩ := eighDense_ok hfac A ds hA
  have hn : (vectorRows u).n = ds.prod := by unfold vectorRows; rw [a2.dims]; simp
  have hr : (vectorRows u).rows = (List.range ds.prod).map (fun r => (List.range ds.prod).map fun k => ‖u.f (unflat ds r ++ [k])‖) := by
    unfold vectorRows; rw [a2.dims]; simp
  obtain ⟨k0, b1, b2⟩ := C37_exact (vectorRows u) (by rw [hr, hn]; simp) (by omega) (by rw [hn]; exact h63) tol (fun x => x) (fun x h => h) htol minS maxS hmin
  refine ⟨d, u, k0, a1, a2, a3, b1, hn, hr, ?_⟩
  have hk0 : k0 ≤ ds.prod := by have := b1.1.2.1; rwa [hn] at this
  unfold eighCut
  simp only [a1, bind, Except.bind, b2, hn]
  generalize hK : max (min minS ds.prod) (min k0 maxS) = K
  rw [sliceLast_nat a2.dims (by omega), sliceLast_nat (ds := []) a3 (by omega)]
  rfl

/-- **C113** (the truncated decomposition).  What is returned is the first `k` eigenvalues and eigenvectors of `eigh(A, split)`, where `k`
respects the limits: at least `min_size` if there are as many, and at most `max_size` unless `min_size` is larger.  Without limits it
is at least one. -/
theorem C113_cut_partial {fac : Blk 𝕜 → Blk 𝕜 × Blk 𝕜} (hfac : DenseEigh fac) (A : Blk 𝕜) (ds : List Nat) (hA : A.dims = ds ++ ds) (h0 : 1 ≤ ds.prod)
    (h63 : ds.prod < 2 ^ 63) (tol : ℝ) (htol : 0 ≤ tol) (minS maxS : Nat) (hmin : 1 ≤ minS) :
    ∃ d u k k', eighDense fac A ds.length = .ok (d, u) ∧
      eighCut fac A ds.length tol minS maxS (fun x => x) = .ok (⟨[k], d.f⟩, ⟨ds ++ [k], u.f⟩) ∧
      min minS ds.prod ≤ k ∧ k ≤ ds.prod ∧ k ≤ max minS maxS ∧
      eighTol fac A ds.length tol (fun x => x) = .ok (⟨[k'], d.f⟩, ⟨ds ++ [k'], u.f⟩) ∧ 1 ≤ k' ∧ k' ≤ ds.prod ∧
      (minS = 1 → ds.prod ≤ maxS → k = k') := by
  obtain ⟨d, u, k0, a1, a2, a3, a4, a5, a6, a7⟩ := eighCut_ok hfac A ds hA h0 h63 tol htol minS maxS hmin
  obtain ⟨d', u', k1, b1, b2, b3, b4, b5, b6, b7⟩ := eighCut_ok hfac A ds hA h0 h63 tol htol 1 (2 ^ 64 - 1) le_rfl
  rw [a1] at b1
  simp only [Except.ok.injEq, Prod.mk.injEq] at b1
  obtain ⟨rfl, rfl⟩ := b1
  have hk0 : k0 ≤ ds.prod := by have := a4.1.2.1; rwa [a5] at this
  have hk1 : k1 ≤ ds.prod := by have := b4.1.2.1; rwa [b5] at this
  have e64 : (2 : Nat) ^ 64 - 1 = 18446744073709551615 := by norm_num
  have e63 : (2 : Nat) ^ 63 = 9223372036854775808 := by norm_num
  rw [e63] at h63
  refine ⟨d, u, _, _, a1, a7, by omega, by omega, by omega, b7, by omega, by omega, ?_⟩
  intro hm hM
  subst hm
  have := le_antisymm (a4.2 b4.1) (b4.2 a4.1)
  rw [e64]
  omega

/-- **C113** fails for the truncated decomposition: the sums are over the entries of the eigenvectors (see C39), so that with a tolerance
below `1/√n` nothing is dropped, even if all eigenvalues are zero ... -/
theorem C113_kept_fails {fac : Blk 𝕜 → Blk 𝕜 × Blk 𝕜} (hfac : DenseEigh fac) (A : Blk 𝕜) (ds : List Nat) (hA : A.dims = ds ++ ds) (h0 : 1 ≤ ds.prod)
    (h63 : ds.prod < 2 ^ 63) (tol : ℝ) (htol : 0 ≤ tol) (hsmall : tol ^ 2 * ds.prod < 1) (minS maxS : Nat) (hmin : 1 ≤ minS) (hmax : ds.prod ≤ maxS) :
    ∃ d u, eighCut fac A ds.length tol minS maxS (fun x => x) = .ok (d, u) ∧ d.dims = [ds.prod] := by
  obtain ⟨d, u, k0, a1, a2, a3, a4, a5, a6, a7⟩ := eighCut_ok hfac A ds hA h0 h63 tol htol minS maxS hmin
  refine ⟨_, _, a7, ?_⟩
  have hk0 : k0 ≤ ds.prod := by have := a4.1.2.1; rwa [a5] at this
  have hk : k0 = ds.prod := by
    by_contra hne
    have hlt : k0 ≤ ds.prod - 1 := by omega
    have hl := losesAtMost_mono (pw := fun x : ℝ => x) (fun x h => h) hlt a4.1.2.2
    rw [a6] at hl
    have hsum := a2.ortho (ds.prod - 1) (ds.prod - 1) (by omega) (by omega)
    rw [if_pos rfl, sum_configs_flat] at hsum
    have hcol : ∀ r ∈ range ds.prod, ‖u.f (unflat ds r ++ [ds.prod - 1])‖ ≤ tol := by
      intro r hr
      have h := hl _ (List.mem_map_of_mem (List.mem_range.2 (mem_range.1 hr)))
      rw [weight_drop _ _ _ (by rw [List.length_map, List.length_range]; omega)] at h
      rw [List.drop_eq_nil_of_le (by rw [List.length_map, List.length_range]; omega), weight_nil, zero_add] at h
      have h1 : ds.prod - 1 < ds.prod := by omega
      simpa [h1] using h
    have h1 : (1 : ℝ) = ∑ r ∈ range ds.prod, ‖u.f (unflat ds r ++ [ds.prod - 1])‖ ^ 2 := by
      have := congrArg RCLike.re hsum
      rw [map_sum, RCLike.one_re] at this
      rw [← this]
      refine sum_congr rfl fun r _ => ?_
      rw [RCLike.star_def, RCLike.conj_mul]
      norm_cast
    have h2 : ∑ r ∈ range ds.prod, ‖u.f (unflat ds r ++ [ds.prod - 1])‖ ^ 2 ≤ ∑ _r ∈ range ds.prod, tol ^ 2 :=
      sum_le_sum fun r hr => pow_le_pow_left₀ (norm_nonneg _) (hcol r hr) 2
    rw [sum_const, card_range, nsmul_eq_mul] at h2
    linarith
  simp only [hk]
  congr 1
  omega

/-- ... and with a tolerance of `n` everything but the `min_size` lowest eigenvalues is dropped, however large the others are. -/
theorem C113_dropped_fails {fac : Blk 𝕜 → Blk 𝕜 × Blk 𝕜} (hfac : DenseEigh fac) (A : Blk 𝕜) (ds : List Nat) (hA : A.dims = ds ++ ds) (h0 : 1 ≤ ds.prod)
    (h63 : ds.prod < 2 ^ 63) (tol : ℝ) (htol : (ds.prod : ℝ) ≤ tol) (minS maxS : Nat) (hmin : 1 ≤ minS) :
    ∃ d u, eighCut fac A ds.length tol minS maxS (fun x => x) = .ok (d, u) ∧ d.dims = [min minS ds.prod] := by
  obtain ⟨d, u, k0, a1, a2, a3, a4, a5, a6, a7⟩ := eighCut_ok hfac A ds hA h0 h63 tol (le_trans (Nat.cast_nonneg _) htol) minS maxS hmin
  refine ⟨_, _, a7, ?_⟩
  have hentry : ∀ r < ds.prod, ∀ k < ds.prod, ‖u.f (unflat ds r ++ [k])‖ ≤ 1 := by
    intro r hr k hk
    have hsum := a2.ortho k k hk hk
    rw [if_pos rfl, sum_configs_flat] at hsum
    have h1 : (1 : ℝ) = ∑ r ∈ range ds.prod, ‖u.f (unflat ds r ++ [k])‖ ^ 2 := by
      have := congrArg RCLike.re hsum
      rw [map_sum, RCLike.one_re] at this
      rw [← this]
      refine sum_congr rfl fun r _ => ?_
      rw [RCLike.star_def, RCLike.conj_mul]
      norm_cast
    have h2 := single_le_sum (f := fun r => ‖u.f (unflat ds r ++ [k])‖ ^ 2) (fun _ _ => by positivity) (mem_range.2 hr)
    rw [← h1] at h2
    nlinarith [norm_nonneg (u.f (unflat ds r ++ [k]))]
  have hk : k0 ≤ min minS ds.prod := by
    refine a4.2 ⟨by rw [a5], by rw [a5]; exact min_le_right _ _, ?_⟩
    refine losesAtMost_mono (pw := fun x : ℝ => x) (fun x h => h) (Nat.zero_le _) ?_
    intro l hl
    rw [a6] at hl
    obtain ⟨r, hr, rfl⟩ := List.mem_map.1 hl
    have hr := List.mem_range.1 hr
    rw [List.drop_zero]
    unfold weight
    refine le_trans ?_ htol
    have : ((((List.range ds.prod).map fun k => ‖u.f (unflat ds r ++ [k])‖).map fun x => |x|).sum : ℝ)
        ≤ (((List.range ds.prod).map fun k => ‖u.f (unflat ds r ++ [k])‖).map fun x => |x|).length • (1 : ℝ) := by
      refine List.sum_le_card_nsmul _ _ fun x hx => ?_
      obtain ⟨y, hy, rfl⟩ := List.mem_map.1 hx
      obtain ⟨k, hk, rfl⟩ := List.mem_map.1 hy
      rw [abs_norm]
      exact hentry r hr k (List.mem_range.1 hk)
    refine this.trans ?_
    simp
  simp only
  congr 1
  omega

/-- A routine that does its job exists. -/
theorem denseEigh_exists (𝕜 : Type) [RCLike 𝕜] : ∃ fac : Blk 𝕜 → Blk 𝕜 × Blk 𝕜, DenseEigh fac := by
  have key : ∀ m : Blk 𝕜, ∃ (d : Nat → ℝ) (u : Nat → Nat → 𝕜), (∀ j k, j ≤ k → k < m.dims.headD 0 → d j ≤ d k) ∧
      (∀ r c, r < m.dims.headD 0 → c < m.dims.headD 0 → lowerHerm m r c = ∑ k ∈ range (m.dims.headD 0), u r k * (d k : 𝕜) * star (u c k)) ∧
      ∀ a b, a < m.dims.headD 0 → b < m.dims.headD 0 → ∑ r ∈ range (m.dims.headD 0), star (u r a) * u r b = if a = b then 1 else 0 := by
    intro m
    generalize m.dims.headD 0 = n
    obtain ⟨d, u, h⟩ := eigh_exists n (lowerHerm m)
    obtain ⟨h1, h2⟩ := h fun r c _ _ => by
      unfold lowerHerm
      rcases lt_trichotomy r c with hrc | rfl | hrc
      · rw [if_neg (by omega), if_pos hrc, if_pos hrc]
      · simp
      · rw [if_pos hrc, if_neg (by omega), if_pos hrc, star_star]
    let π := Tuple.sort fun i : Fin n => d i
    let p : Nat → Nat := fun k => if h : k < n then π ⟨k, h⟩ else k
    have hp : ∀ (k : Nat) (h : k < n), p k = π ⟨k, h⟩ := fun k h => dif_pos h
    refine ⟨fun k => d (p k), fun r k => u r (p k), ?_, ?_, ?_⟩
    · intro j k hjk hk
      have := Tuple.monotone_sort (fun i : Fin n => d i) (show (⟨j, by omega⟩ : Fin n) ≤ ⟨k, hk⟩ from hjk)
      simp only [hp j (by omega), hp k hk]
      exact this
    · intro r c hr hc
      rw [h1 r c hr hc, Finset.sum_range, Finset.sum_range, ← Equiv.sum_comp π]
      refine sum_congr rfl fun k _ => ?_
      simp only [hp k k.2]
    · intro a b ha hb
      simp only [hp a ha, hp b hb]
      rw [h2 _ _ (π ⟨a, ha⟩).2 (π ⟨b, hb⟩).2]
      congr 1
      simp [Fin.val_inj]
  choose d u h1 h2 h3 using key
  refine ⟨fun m => (⟨[m.dims.headD 0], fun k => ((d m (k.getD 0 0) : ℝ) : 𝕜)⟩, ⟨[m.dims.headD 0, m.dims.headD 0], fun k => u m (k.getD 0 0) (k.getD 1 0)⟩),
    ?_, ?_, ?_, ?_⟩
  · intro m n hm
    simp [hm]
  · intro m n hm
    have := h1 m
    simp only [hm, List.headD_cons] at this
    exact ⟨d m, this, fun k _ => rfl⟩
  · intro m n hm
    have := h3 m
    simp only [hm, List.headD_cons] at this
    exact this
  · intro m n hm
    have := h2 m
    simp only [hm, List.headD_cons] at this
    exact this

/-- A matrix with a zero eigenvalue: nothing is dropped at a tolerance of one half, and one value only, the lowest, is kept at a tolerance of two. -/
example : ∃ (fac : Blk ℂ → Blk ℂ × Blk ℂ) (A : Blk ℂ), DenseEigh fac ∧ A.dims = [2] ++ [2] ∧ HermitianTensor A [2] ∧ A.f [0, 1] = Complex.I ∧
    (∃ d u, eighDense fac A 1 = .ok (d, u) ∧ d.dims = [2]) ∧
    (∃ d u, eighCut fac A 1 (1 / 2) 1 5 (fun x => x) = .ok (d, u) ∧ d.dims = [2]) ∧
    ∃ d u, eighCut fac A 1 2 1 5 (fun x => x) = .ok (d, u) ∧ d.dims = [1] := by
  obtain ⟨fac, hf⟩ := denseEigh_exists ℂ
  let A : Blk ℂ := ⟨[2, 2], fun k => if k = [0, 1] then Complex.I else if k = [1, 0] then -Complex.I else 1⟩
  have hH : HermitianTensor A [2] := by
    intro e f he hf
    obtain ⟨x, rfl⟩ := List.length_eq_one_iff.1 he.length_eq
    obtain ⟨y, rfl⟩ := List.length_eq_one_iff.1 hf.length_eq
    have hx : x < 2 := by simpa [InRange] using he
    have hy : y < 2 := by simpa [InRange] using hf
    interval_cases x <;> interval_cases y <;> simp [A]
  obtain ⟨d, u, a, _, b, _⟩ := C113_eigh hf A [2] rfl hH
  refine ⟨fac, A, hf, rfl, hH, by simp [A], ⟨d, u, a, b⟩, ?_, ?_⟩
  · exact C113_kept_fails hf A [2] rfl (by decide) (by decide) (1 / 2) (by norm_num) (by norm_num) 1 5 le_rfl (by decide)
  · exact C113_dropped_fails hf A [2] rfl (by decide) (by decide) 2 (by norm_num) 1 5 le_rfl

/-- A matrix that is not hermitian. -/
example : ∃ (fac : Blk ℂ → Blk ℂ × Blk ℂ) (A : Blk ℂ), DenseEigh fac ∧ A.dims = [2] ++ [2] ∧ ¬ HermitianTensor A [2] ∧
    ∃ d u, eighDense fac A 1 = .ok (d, u) ∧ ∃ e f, InRange e [2] ∧ InRange f [2] ∧ A.f (e ++ f) ≠ svdTerms u d u 2 e f := by
  obtain ⟨fac, hf⟩ := denseEigh_exists ℂ
  let A : Blk ℂ := ⟨[2, 2], fun k => if k = [0, 1] then 1 else 0⟩
  have hH : ¬ HermitianTensor A [2] := by
    intro h
    have := h [0] [1] (by simp [InRange]) (by simp [InRange])
    simp [A] at this
  exact ⟨fac, A, hf, rfl, hH, C113_eigh_fails hf A [2] rfl hH⟩

end LA
end QuantiT
