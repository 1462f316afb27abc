import Verif.Model.SvdDense
import Verif.Spec.SvdDense
import Verif.Lemmas.EckartYoung
import Verif.Lemmas.Network
import Verif.Lemmas.Sums
import Verif.Props.Truncate
/-
The split SVD of a dense tensor: entries of the reshaped matrices, sums over groups of dimensions.
-/
namespace QuantiT
namespace LA
open Finset Spec BT MP
variable {𝕜 : Type} [RCLike 𝕜]

theorem sum_configs_flat {R : Type} [AddCommMonoid R] (ds : List Nat) (g : List Nat → R) :
    ∑ e ∈ configs ds, g e = ∑ r ∈ range ds.prod, g (unflat ds r) := by
  refine sum_nbij' (flat ds) (unflat ds) ?_ ?_ ?_ ?_ ?_
  · intro e he; exact mem_range.2 (flat_lt (mem_configs.1 he))
  · intro r hr; exact mem_configs.2 (unflat_inRange (mem_range.1 hr))
  · intro e he; exact unflat_flat (mem_configs.1 he)
  · intro r hr; exact flat_unflat (mem_range.1 hr)
  · intro e he; rw [unflat_flat (mem_configs.1 he)]

theorem unflat_pair {n m x y : Nat} (hx : x < n) (hy : y < m) : unflat [n, m] (x * m + y) = [x, y] := by
  have h := unflat_flat (is := [x, y]) (ns := [n, m]) (.cons hx (.cons hy .nil))
  simpa [flat] using h

/-- Entries of a tensor seen as a matrix. -/
theorem reshape_to_matrix {R : Type} (A : Blk R) (left right : List Nat) (hA : A.dims = left ++ right) :
    ∃ m, reshapeBlk [left.prod, right.prod] A = .ok m ∧ m.dims = [left.prod, right.prod] ∧
      ∀ e f, InRange e left → InRange f right → m.f [flat left e, flat right f] = A.f (e ++ f) := by
  refine ⟨⟨[left.prod, right.prod], fun o => A.f (unflat A.dims (flat [left.prod, right.prod] o))⟩, ?_, rfl, ?_⟩
  · unfold reshapeBlk
    rw [if_pos (by rw [hA]; simp)]
  · intro e f he hf
    show A.f (unflat A.dims (flat [left.prod, right.prod] [flat left e, flat right f])) = _
    rw [hA]
    have : flat [left.prod, right.prod] [flat left e, flat right f] = flat left e * right.prod + flat right f := by simp [flat]
    rw [this, unflat_append_flat he hf]

/-- Entries of a matrix seen as a tensor whose last dimension is that of the columns. -/
theorem reshape_of_matrix {R : Type} (m : Blk R) (left : List Nat) (K : Nat) (hm : m.dims = [left.prod, K]) :
    ∃ u, reshapeBlk (left ++ [K]) m = .ok u ∧ u.dims = left ++ [K] ∧
      ∀ e a, InRange e left → a < K → u.f (e ++ [a]) = m.f [flat left e, a] := by
  refine ⟨⟨left ++ [K], fun o => m.f (unflat m.dims (flat (left ++ [K]) o))⟩, ?_, rfl, ?_⟩
  · unfold reshapeBlk
    rw [if_pos (by rw [hm]; simp)]
  · intro e a he ha
    show m.f (unflat m.dims (flat (left ++ [K]) (e ++ [a]))) = _
    rw [hm, flat_append (List.Forall₂.length_eq he)]
    have : flat left e * [K].prod + flat [K] [a] = flat left e * K + a := by simp [flat]
    rw [this, unflat_pair (flat_lt he) ha]

/-- The split SVD of a tensor. -/
theorem svdDense_ok {fac : Blk 𝕜 → Blk 𝕜 × Blk 𝕜 × Blk 𝕜} (hfac : DenseSvd fac) (A : Blk 𝕜) (split : Nat) (hs : split ≤ A.dims.length) :
    ∃ (u d v : Blk 𝕜) (σ : Nat → ℝ), svdDense fac A split = .ok (u, d, v) ∧
      OrthoColumns u (A.dims.take split) (min (A.dims.take split).prod (A.dims.drop split).prod) ∧
      OrthoColumns v (A.dims.drop split) (min (A.dims.take split).prod (A.dims.drop split).prod) ∧
      d.dims = [min (A.dims.take split).prod (A.dims.drop split).prod] ∧ Antitone σ ∧ (∀ k, 0 ≤ σ k) ∧
      (∀ k, k < min (A.dims.take split).prod (A.dims.drop split).prod → d.f [k] = (σ k : 𝕜)) ∧
      ∀ e ∈ configs (A.dims.take split), ∀ f ∈ configs (A.dims.drop split),
        A.f (e ++ f) = svdTerms u d v (min (A.dims.take split).prod (A.dims.drop split).prod) e f := by
  have hA : A.dims = A.dims.take split ++ A.dims.drop split := (List.take_append_drop _ _).symm
  generalize hl : A.dims.take split = left at *
  generalize hr : A.dims.drop split = right at *
  obtain ⟨m, m1, m2, m3⟩ := reshape_to_matrix A left right hA
  obtain ⟨s1, s2, s3⟩ := hfac.sizes m [] left.prod right.prod (by rw [m2]; rfl)
  simp only [List.nil_append] at s1 s2 s3
  obtain ⟨σ, o1, o2, o3⟩ := hfac.values m left.prod right.prod m2
  generalize hK : min left.prod right.prod = K at *
  obtain ⟨u, u1, u2, u3⟩ := reshape_of_matrix (fac m).1 left K s1
  obtain ⟨v, v1, v2, v3⟩ := reshape_of_matrix (fac m).2.2 right K s3
  refine ⟨u, (fac m).2.1, v, σ, ?_, ⟨u2, ?_⟩, ⟨v2, ?_⟩, s2, o1, o2, o3, ?_⟩
  · unfold svdDense
    rw [if_neg (by omega)]
    simp only [bind, Except.bind, hl, hr, m1, s2, u1, v1]
  · intro a b ha hb
    have h := (hfac.ortho m [] left.prod right.prod (by rw [m2]; rfl) [] a b .nil (by rw [hK]; exact ha) (by rw [hK]; exact hb)).1
    rw [← h, sum_configs_flat]
    refine sum_congr rfl fun r hr => ?_
    have hr := mem_range.1 hr
    rw [u3 _ _ (unflat_inRange hr) ha, u3 _ _ (unflat_inRange hr) hb, flat_unflat hr]
    rfl
  · intro a b ha hb
    have h := (hfac.ortho m [] left.prod right.prod (by rw [m2]; rfl) [] a b .nil (by rw [hK]; exact ha) (by rw [hK]; exact hb)).2
    rw [← h, sum_configs_flat]
    refine sum_congr rfl fun r hr => ?_
    have hr := mem_range.1 hr
    rw [v3 _ _ (unflat_inRange hr) ha, v3 _ _ (unflat_inRange hr) hb, flat_unflat hr]
    rfl
  · intro e he f hf
    have he := mem_configs.1 he
    have hf := mem_configs.1 hf
    have h := hfac.product m [] left.prod right.prod (by rw [m2]; rfl) [] _ _ .nil (flat_lt he) (flat_lt hf)
    simp only [List.nil_append, hK] at h
    rw [← m3 e f he hf, h]
    unfold svdTerms
    refine sum_congr rfl fun k hk => ?_
    have hk := mem_range.1 hk
    rw [u3 _ _ he hk, v3 _ _ hf hk]

/-- Squares of a sum of orthonormal terms. -/
theorem frob_terms {ι κ : Type} (I : Finset ι) (J : Finset κ) (K : ℕ) (u : ι → ℕ → 𝕜) (σ : ℕ → ℝ) (v : κ → ℕ → 𝕜)
    (hu : ∀ a b, a < K → b < K → ∑ i ∈ I, star (u i a) * u i b = if a = b then 1 else 0)
    (hv : ∀ a b, a < K → b < K → ∑ j ∈ J, star (v j a) * v j b = if a = b then 1 else 0) :
    ∑ i ∈ I, ∑ j ∈ J, ‖∑ k ∈ range K, u i k * (σ k : 𝕜) * star (v j k)‖ ^ 2 = ∑ k ∈ range K, σ k ^ 2 := by
  let V := EuclideanSpace 𝕜 I
  let col : (ι → 𝕜) → V := fun f => WithLp.toLp 2 fun i => f i.1
  have ncol : ∀ f, ‖col f‖ ^ 2 = ∑ i ∈ I, ‖f i‖ ^ 2 := fun f => by
    rw [EuclideanSpace.norm_sq_eq]
    exact sum_coe_sort I fun i => ‖f i‖ ^ 2
  have hn : ∀ k < K, ‖col fun i => u i k‖ ^ 2 = 1 := by
    intro k hk
    have h := hu k k hk hk
    rw [if_pos rfl] at h
    refine (ncol fun i => u i k).trans ?_
    have : ((∑ i ∈ I, ‖u i k‖ ^ 2 : ℝ) : 𝕜) = 1 := by
      rw [← h]; push_cast
      exact sum_congr rfl fun i _ => by rw [RCLike.star_def, RCLike.conj_mul]
    exact_mod_cast this
  have h := sum_norm_columns J K σ v hv fun k => col fun i => u i k
  rw [sum_comm]
  calc _ = ∑ j ∈ J, ‖∑ k ∈ range K, ((σ k : 𝕜) * star (v j k)) • col fun i => u i k‖ ^ 2 := by
        refine sum_congr rfl fun j _ => ?_
        rw [← ncol fun i => ∑ k ∈ range K, u i k * (σ k : 𝕜) * star (v j k)]
        congr 2
        ext i
        rw [WithLp.ofLp_sum, Finset.sum_apply]
        show ∑ k ∈ range K, u i.1 k * (σ k : 𝕜) * star (v j k) = ∑ k ∈ range K, ((σ k : 𝕜) * star (v j k)) * u i.1 k
        exact sum_congr rfl fun k _ => by ring
    _ = _ := by
        rw [h]
        exact sum_congr rfl fun k hk => by rw [hn k (mem_range.1 hk), mul_one]

theorem sliceLast_nat {R : Type} {t : Blk R} {ds : List Nat} {n k : Nat} (ht : t.dims = ds ++ [n]) (hk : k ≤ n) :
    sliceLast t ((k : Int) - 1 + 1) = ⟨ds ++ [k], t.f⟩ := by
  unfold sliceLast
  simp only [ht]
  rw [if_neg (by omega)]
  congr 1
  simp
  omega

/-- The truncated SVD of a tensor: what is kept, inside a whole SVD of it. -/
theorem svdCut_core {fac : Blk 𝕜 → Blk 𝕜 × Blk 𝕜 × Blk 𝕜} (hfac : DenseSvd fac) (A : Blk 𝕜) (split : Nat) (hs : split ≤ A.dims.length)
    (h0 : 0 < A.dims.prod) (h63 : A.dims.prod < 2 ^ 63) (tol : ℝ) (htol : 0 ≤ tol) (minS maxS : Nat) (hmin : 1 ≤ minS) :
    ∃ (u d v : Blk 𝕜) (σ : Nat → ℝ) (k K : Nat), svdCut fac A split tol minS maxS (fun x => x ^ 2) = .ok (u, d, v) ∧
      K = min (A.dims.take split).prod (A.dims.drop split).prod ∧
      u.dims = A.dims.take split ++ [k] ∧ v.dims = A.dims.drop split ++ [k] ∧ d.dims = [k] ∧
      (∀ a b, a < K → b < K → ∑ e ∈ configs (A.dims.take split), star (u.f (e ++ [a])) * u.f (e ++ [b]) = if a = b then 1 else 0) ∧
      (∀ a b, a < K → b < K → ∑ e ∈ configs (A.dims.drop split), star (v.f (e ++ [a])) * v.f (e ++ [b]) = if a = b then 1 else 0) ∧
      Antitone σ ∧ (∀ k, 0 ≤ σ k) ∧ (∀ k, k < K → d.f [k] = (σ k : 𝕜)) ∧
      (∀ e ∈ configs (A.dims.take split), ∀ f ∈ configs (A.dims.drop split), A.f (e ++ f) = svdTerms u d v K e f) ∧
      1 ≤ k ∧ min minS K ≤ k ∧ k ≤ K ∧ k ≤ max minS maxS ∧ (k < maxS → ∑ m ∈ Ico k K, σ m ^ 2 ≤ tol ^ 2) ∧
      ∀ j < k, minS ≤ j → tol ^ 2 < ∑ m ∈ Ico j K, σ m ^ 2 := by
  obtain ⟨u, d, v, σ, a1, a2, a3, a4, a5, a6, a7, a8⟩ := svdDense_ok hfac A split hs
  have hp : (A.dims.take split).prod * (A.dims.drop split).prod = A.dims.prod := by
    rw [← List.prod_append, List.take_append_drop]
  have hK1 : 1 ≤ min (A.dims.take split).prod (A.dims.drop split).prod := by
    rw [← hp] at h0
    have := Nat.pos_of_mul_pos_left h0
    have := Nat.pos_of_mul_pos_right h0
    omega
  have hK2 : min (A.dims.take split).prod (A.dims.drop split).prod < 2 ^ 63 := by
    refine lt_of_le_of_lt ?_ h63
    rw [← hp]
    have : 1 ≤ (A.dims.drop split).prod := by omega
    exact (Nat.min_le_left _ _).trans (Nat.le_mul_of_pos_right _ this)
  generalize hK : min (A.dims.take split).prod (A.dims.drop split).prod = K at *
  have hrow : valueRows d = ⟨K, [(List.range K).map σ]⟩ := by
    unfold valueRows
    rw [a4]
    simp only [List.getLastD_cons, List.getLastD_nil, Rows.mk.injEq, true_and, List.cons.injEq, and_true]
    apply List.map_congr_left
    intro k hk
    rw [a7 k (List.mem_range.1 hk), RCLike.ofReal_re]
  have hw : ∀ k, weight (fun x : ℝ => x ^ 2) (((List.range K).map σ).drop k) = ∑ m ∈ Ico k K, σ m ^ 2 := by
    intro k
    unfold weight
    rw [← List.map_drop, List.map_map]
    have : ((fun x : ℝ => |x| ^ 2) ∘ σ) = fun m => σ m ^ 2 := by
      funext m; simp
    rw [this, List.range_eq_range', List.drop_range', Nat.zero_add, Nat.mul_one]
    rfl
  obtain ⟨k, b1, b2, b3, b4, b5, b6, b7⟩ := C37_truncation (valueRows d) (by rw [hrow]; simp) (by rw [hrow]; exact hK1) (by rw [hrow]; exact hK2)
    tol (fun x => x ^ 2) (fun x _ => sq_nonneg x) htol minS maxS hmin
  rw [hrow] at b3 b4 b6 b7
  simp only [LosesAtMost, List.mem_singleton, forall_eq, hw, not_le] at b3 b4 b6 b7
  refine ⟨⟨A.dims.take split ++ [k], u.f⟩, ⟨[k], d.f⟩, ⟨A.dims.drop split ++ [k], v.f⟩, σ, k, K, ?_, rfl, rfl, rfl, rfl, a2.ortho, a3.ortho, a5, a6, a7,
    a8, b1, b3, b4, b5, b6, b7⟩
  unfold svdCut truncateDense
  simp only [a1, bind, Except.bind, b2]
  rw [sliceLast_nat a2.dims b4, sliceLast_nat a3.dims b4, sliceLast_nat (ds := []) a4 b4]
  rfl

end LA
end QuantiT
