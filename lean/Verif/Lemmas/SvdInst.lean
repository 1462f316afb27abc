import Verif.Model.CutDmrg
import Verif.Props.SvdDense
import Verif.Props.Update
/-
The split of a dense tensor by `svd(A, split)` (C85) has what the theorems about chains assume of the SVD of a site and of a pair of sites.
-/
namespace QuantiT
namespace DM
open Finset Spec MP
variable {𝕜 : Type} [RCLike 𝕜]

theorem svdOk_dense {fac : Blk 𝕜 → Blk 𝕜 × Blk 𝕜 × Blk 𝕜} (hfac : DenseSvd fac) : SvdOk (svdOf fac) := by
  constructor
  · intro A l s r hA
    obtain ⟨u, d, v, h1, h2, h3, h4, ⟨σ, _, _, h5⟩, h6⟩ := LA.C85_split hfac A [l, s] [r] hA
    have e : svdOf fac A 2 = (u, d, v) := by unfold svdOf; rw [show (2 : Nat) = [l, s].length from rfl, h1]
    refine ⟨min [l, s].prod [r].prod, ?_⟩
    rw [e]
    refine ⟨h2.dims, h4, h3.dims, fun m hm => by rw [h5 m hm]; exact RCLike.conj_ofReal _, ?_, ?_⟩
    · intro i c j hi hc hj
      exact h6 [i, c] [j] (by unfold InRange; simp [hi, hc]) (by unfold InRange; simp [hj])
    · intro a b ha hb
      have := h2.ortho a b ha hb
      simp only [sum_configs_cons', sum_configs_nil] at this
      exact this
  · intro A l s r hA
    obtain ⟨u, d, v, h1, h2, h3, h4, _, h6⟩ := LA.C85_split hfac A [l] [s, r] hA
    have e : svdOf fac A 1 = (u, d, v) := by unfold svdOf; rw [show (1 : Nat) = [l].length from rfl, h1]
    refine ⟨min [l].prod [s, r].prod, ?_⟩
    rw [e]
    refine ⟨h2.dims, h4, h3.dims, ?_, ?_⟩
    · intro i c j hi hc hj
      exact h6 [i] [c, j] (by unfold InRange; simp [hi]) (by unfold InRange; simp [hc, hj])
    · intro a b ha hb
      have := h3.ortho a b ha hb
      simp only [sum_configs_cons', sum_configs_nil] at this
      exact this

theorem svdPair_dense {fac : Blk 𝕜 → Blk 𝕜 × Blk 𝕜 × Blk 𝕜} (hfac : DenseSvd fac) (X : Blk 𝕜) (l s t r : Nat) (hX : X.dims = [l, s, t, r]) :
    ∃ k, SvdPair X (svdOf fac X 2).1 (svdOf fac X 2).2.1 (svdOf fac X 2).2.2 l s t r k := by
  obtain ⟨u, d, v, h1, h2, h3, h4, ⟨σ, _, _, h5⟩, h6⟩ := LA.C85_split hfac X [l, s] [t, r] hX
  have e : svdOf fac X 2 = (u, d, v) := by unfold svdOf; rw [show (2 : Nat) = [l, s].length from rfl, h1]
  refine ⟨min [l, s].prod [t, r].prod, ?_⟩
  rw [e]
  refine ⟨h2.dims, h4, h3.dims, fun m hm => by rw [h5 m hm]; exact RCLike.conj_ofReal _, ?_, ?_, ?_⟩
  · intro a b ha hb
    have := h2.ortho a b ha hb
    simp only [sum_configs_cons', sum_configs_nil] at this
    exact this
  · intro a b ha hb
    have := h3.ortho a b ha hb
    simp only [sum_configs_cons', sum_configs_nil] at this
    exact this
  · intro i c c' j hi hc hc' hj
    exact h6 [i, c] [c', j] (by unfold InRange; simp [hi, hc]) (by unfold InRange; simp [hc', hj])

end DM
end QuantiT
