import Verif.Props.EighDense
/-
C113: eigenvalue decomposition of dense tensors whose rows and columns are grouped differently.
-/
namespace QuantiT
namespace LA
open Finset Spec BT MP
variable {𝕜 : Type} [RCLike 𝕜]

/-- A tensor of sizes `left` and `right` is hermitian as a matrix, its rows and columns counted in row-major order. -/
def HermitianMatrix (A : Blk 𝕜) (left right : List Nat) : Prop :=
  ∀ r c, r < left.prod → c < left.prod → A.f (unflat left r ++ unflat right c) = star (A.f (unflat left c ++ unflat right r))

/-- **C113** (other dimensions in the columns).  `eigh(A, split)` only needs as many rows as columns: for a tensor with any dimensions that is
hermitian as a matrix the eigenvectors have the dimensions of the rows, and `u · diag d · u†` is the matrix. -/
theorem C113_regrouped {fac : Blk 𝕜 → Blk 𝕜 × Blk 𝕜} (hfac : DenseEigh fac) (A : Blk 𝕜) (left right : List Nat) (hA : A.dims = left ++ right)
    (hp : left.prod = right.prod) (hH : HermitianMatrix A left right) :
    ∃ d u, eighDense fac A left.length = .ok (d, u) ∧ OrthoColumns u left left.prod ∧ d.dims = [left.prod] ∧
      (∃ σ : Nat → ℝ, (∀ j k, j ≤ k → k < left.prod → σ j ≤ σ k) ∧ ∀ k, k < left.prod → d.f [k] = (σ k : 𝕜)) ∧
      ∀ r c, r < left.prod → c < left.prod → A.f (unflat left r ++ unflat right c) = svdTerms u d u left.prod (unflat left r) (unflat left c) := by
  obtain ⟨m, m1, m2, m3⟩ := reshape_to_matrix A left right hA
  have m2 : m.dims = [left.prod, left.prod] := by rw [m2, hp]
  obtain ⟨s1, s2⟩ := hfac.sizes m left.prod m2
  obtain ⟨u, u1, u2, u3⟩ := reshape_of_matrix (fac m).2 left left.prod s2
  have hm : ∀ r c, r < left.prod → c < left.prod → m.f [r, c] = A.f (unflat left r ++ unflat right c) := by
    intro r c hr hc
    have hc' : c < right.prod := by omega
    rw [← m3 _ _ (unflat_inRange hr) (unflat_inRange hc'), flat_unflat hr, flat_unflat hc']
  refine ⟨(fac m).1, u, ?_, ⟨u2, ?_⟩, s1, hfac.values m left.prod m2, ?_⟩
  · unfold eighDense
    rw [if_neg (by rw [hA]; simp)]
    dsimp only
    have e1 : A.dims.take left.length = left := by rw [hA]; simp
    have e2 : A.dims.drop left.length = right := by rw [hA]; simp
    rw [e1, e2, if_neg (by simp [hp])]
    simp only [bind, Except.bind, m1, s1, u1]
  · intro a b ha hb
    have h := hfac.ortho m left.prod m2 a b ha hb
    rw [← h, sum_configs_flat]
    refine sum_congr rfl fun r hr => ?_
    have hr := mem_range.1 hr
    rw [u3 _ _ (unflat_inRange hr) ha, u3 _ _ (unflat_inRange hr) hb, flat_unflat hr]
  · intro r c hr hc
    have h := hfac.product m left.prod m2 r c hr hc
    have hl : lowerHerm m r c = m.f [r, c] := by
      unfold lowerHerm
      split
      · rfl
      · split
        · rw [hm c r hc hr, hm r c hr hc]
          exact (hH r c hr hc).symm
        · obtain rfl : r = c := by omega
          have h' := hH r r hr hr
          rw [← hm r r hr hr] at h'
          exact RCLike.conj_eq_iff_re.1 h'.symm
    rw [← hm r c hr hc, ← hl, h]
    unfold svdTerms
    refine sum_congr rfl fun k hk => ?_
    have hk := mem_range.1 hk
    rw [u3 _ _ (unflat_inRange hr) hk, u3 _ _ (unflat_inRange hc) hk, flat_unflat hr, flat_unflat hc]

/-- The premises are met by the identity from one index of four elements to two of two. -/
example : HermitianMatrix (⟨[2, 2, 4], fun o => if 2 * o.getD 0 0 + o.getD 1 0 = o.getD 2 0 then 1 else 0⟩ : Blk ℝ) [2, 2] [4] := by
  intro r c hr hc
  simp only [List.prod_cons, List.prod_nil] at hr hc
  interval_cases r <;> interval_cases c <;> simp [unflat]

end LA
end QuantiT
