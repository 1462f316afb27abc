import Verif.Props.CouplingComplex
/-
C123: exactly which complex couplings of the Heisenberg chain are right.
-/
namespace QuantiT
namespace HM
open Spec Finset

theorem edges_head (W : Blk ℂ) (n : Nat) (hd : W.dims = [5, 2, 5, 2]) :
    ∃ Ws, edges (n + 2) W 5 = .ok (narrow 0 4 5 W :: Ws) := by
  refine ⟨(List.replicate (n + 1) W).modify n (narrow 2 0 1), ?_⟩
  unfold edges
  rw [hd]
  rfl

theorem edges_inj (W W' : Blk ℂ) (n : Nat) (hd : W.dims = [5, 2, 5, 2]) (hd' : W'.dims = [5, 2, 5, 2])
    (h : edges (n + 2) W 5 = edges (n + 2) W' 5) : narrow 0 4 5 W = narrow 0 4 5 W' := by
  obtain ⟨Ws, e⟩ := edges_head W n hd
  obtain ⟨Ws', e'⟩ := edges_head W' n hd'
  rw [e, e'] at h
  exact (List.cons.inj (Except.ok.inj h)).1

/-- **C123, complex couplings, exactly.**  `Heisenberg(J, L)` with a complex coupling gives the tensors of the Hamiltonian with that
coupling if and only if the coupling is four times an integer between -63 and 64, for every length of at least two. -/
theorem C123_complex_exact (z : ℂ) (L : Nat) (hL : 2 ≤ L) :
    heisenbergT (.complex z) L = heisenberg z L ↔ ∃ k : ℤ, -63 ≤ k ∧ k ≤ 64 ∧ z = 4 * k := by
  constructor
  · intro g
    obtain ⟨Ws, g1, _⟩ := C55_heisenberg z L hL
    have hr : -256 < z.re ∧ z.re < 258 := by
      by_contra hc
      have := (C123_complex_large_fails z L (by omega)).2 (by
        rcases lt_or_ge (-256) z.re with h1 | h1
        · rcases lt_or_ge z.re 258 with h2 | h2
          · exact absurd ⟨h1, h2⟩ hc
          · exact .inr h2
        · exact .inl h1)
      rw [g, g1] at this
      cases this
    obtain ⟨s1, s2⟩ := stores_ok z hr.1 hr.2
    obtain ⟨n, rfl⟩ : ∃ n, L = n + 2 := ⟨L - 2, by omega⟩
    have key : ((TY.trunc (-z.re / 4) : ℝ) : ℂ) = -z / 4 := by
      unfold heisenbergT heisenbergTensorT at g
      simp only [Num.neg, Num.quarter, storeFor, Num.twice, s1 _ pauli_cases.1, s1 _ pauli_cases.2, s2, bind, Except.bind] at g
      unfold heisenberg heisenbergImpl at g
      have := congrFun (congrArg Blk.f (edges_inj _ _ n (by rfl) (by rfl) g)) [0, 0, 3, 0]
      simpa [narrow, heisenbergTensor, putOp, pauliSz, put, mulS] using this
    have him : z.im = 0 := by
      have := congrArg Complex.im key
      simpa using this.symm
    have hre : TY.trunc (-z.re / 4) = -z.re / 4 := by
      have := congrArg Complex.re key
      simpa using this
    obtain ⟨m, hm⟩ : ∃ m : ℤ, TY.trunc (-z.re / 4) = m := by
      unfold TY.trunc
      split_ifs
      · exact ⟨_, rfl⟩
      · exact ⟨_, rfl⟩
    have hz : z.re = 4 * ((-m : ℤ) : ℝ) := by push_cast; linarith
    refine ⟨-m, ?_, ?_, ?_⟩
    · have : (-64 : ℝ) < ((-m : ℤ) : ℝ) := by linarith [hr.1]
      have : (-64 : ℤ) < -m := by exact_mod_cast this
      omega
    · have : ((-m : ℤ) : ℝ) < 65 := by linarith [hr.2]
      have : -m < (65 : ℤ) := by exact_mod_cast this
      omega
    · apply Complex.ext
      · rw [hz]; simp
      · rw [him]; simp
  · rintro ⟨k, h, h', rfl⟩
    exact complex_multiple k h h' L hL

/-- Both sides occur: `8 + 0i` is right, `6 + 0i` and `8 + i` are not. -/
example : heisenbergT (.complex 8) 3 = heisenberg 8 3 ∧ heisenbergT (.complex 6) 3 ≠ heisenberg 6 3 ∧
    heisenbergT (.complex (8 + Complex.I)) 3 ≠ heisenberg (8 + Complex.I) 3 := by
  refine ⟨(C123_complex_exact _ 3 (by omega)).2 ⟨2, by omega, by omega, by norm_num⟩, fun h => ?_, fun h => ?_⟩
  · obtain ⟨k, _, _, e⟩ := (C123_complex_exact _ 3 (by omega)).1 h
    have : (6 : ℤ) = 4 * k := by exact_mod_cast e
    omega
  · obtain ⟨k, _, _, e⟩ := (C123_complex_exact _ 3 (by omega)).1 h
    have := congrArg Complex.im e
    simp at this

end HM
end QuantiT
