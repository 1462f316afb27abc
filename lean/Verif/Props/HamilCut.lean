import Verif.Lemmas.HamilCut
/-
C84, C104: the compressed Hamiltonians.
-/
set_option linter.unusedSectionVars false
namespace QuantiT
namespace BN
open Spec BT MP HM Finset
variable {G : Type} [AddCommGroup G] [LinearOrder G]

theorem coalesce_hamil {fac : Blk ℝ → Blk ℝ × Blk ℝ × Blk ℝ} (hfac : DenseSvd fac) (eps : ℝ) (he0 : 0 < eps) (he1 : eps ≤ 1 / 2)
    {H : List (BT G ℝ)} {ph : Dim G} {L D d : Nat} (h0 : 0 < L) (hlen : H.length = L) (hc : Compressible H) (ho : OuterOf ph D H) :
    ∃ N out, (∀ fuel, N ≤ fuel → coalesceB fuel fac eps 0 H = some (.ok out)) ∧ out.length = L ∧ Chained 4 out ∧ OuterOf ph D out ∧
      LeftIndependent out ∧ mpoMatrix L d (out.map denseOf) = mpoMatrix L d (H.map denseOf) := by
  obtain ⟨N, out, c1, c2, c3, c4, c5, c6, c7, -⟩ := C104_coalesce_partial hfac eps he0 he1 H (by rintro rfl; simp at hlen; omega) hc
  refine ⟨N, out, c1, c2.trans hlen, c3, ?_, c7, ?_⟩
  · intro T hT
    obtain ⟨i, hi⟩ := List.mem_iff_getElem?.1 hT
    have hl := (List.getElem?_eq_some_iff.1 hi).1
    obtain ⟨X, hX⟩ : ∃ X, H[i]? = some X := ⟨_, List.getElem?_eq_getElem (by omega)⟩
    obtain ⟨x1, x2, x3, x4⟩ := ho X (List.mem_of_getElem? hX)
    have e1 := congrArg (fun l : List G => l[i]?) c4.rule
    have e2 := congrArg (fun l : List (Dim G) => l[i]?) c4.rows
    have e3 := congrArg (fun l : List (Dim G) => l[i]?) c4.cols
    simp only [List.getElem?_map, hi, hX, Option.map_some, Option.some.injEq] at e1 e2 e3
    exact ⟨e1.trans x1, e2.trans x2, e3.trans x3, (c6 i X T hX hi).1.trans x4⟩
  · ext s t
    exact c5 _ _ _ _

theorem heisenberg_compressible (J : ℝ) (L : Nat) (hL : 2 ≤ L) (phys : BT G ℝ) (ph : Dim G) (hs : phys.shape = [ph])
    (hn : ph.length < 2 ^ 63) (hps : ∀ s ∈ ph, 0 < s.1) (h2 : dimSize ph = 2) (hq0 : chargeAt ph 0 + chargeAt ph 0 = chargeAt ph 1)
    (hq1 : chargeAt ph 1 + chargeAt ph 1 = chargeAt ph 0) (hJ : 4 / 10 ^ 4 < |J|) :
    ∃ H, heisenbergBlocks J L phys = .ok H ∧ H.length = L ∧ Compressible H ∧ OuterOf ph 5 H ∧
      leftDim H = [(1, 0)] ∧ rightDim H = [(1, -0)] := by
  obtain ⟨n, rfl⟩ : ∃ n, L = n + 2 := ⟨L - 2, by omega⟩
  rw [heisenbergBlocks_eq J n phys ph hs h2]
  have hb : dimSize [(1, (0 : G)), (1, chargeAt ph 0), (1, chargeAt ph 1), (1, 0), (1, 0)] = 3 + 2 := rfl
  have hJ' : 1 / 10 ^ 4 < |-J / 4| := by
    rw [abs_div, abs_neg, abs_of_pos (by norm_num : (0 : ℝ) < 4)]
    linarith
  have hJ0 : -J / 4 ≠ 0 := by
    intro h
    rw [h, abs_zero] at hJ'
    norm_num at hJ'
  obtain ⟨out, o1, o2, o3⟩ := hamil_ok hb h2 (by omega) rfl n (heisenberg_entries (-J / 4) (heisenberg_bond _ _) hq0 hq1 (.inr hJ'))
  have hW := heisenberg_channels (-J / 4)
  have hwait : (heisenbergTensor (-J / 4)).f [3 + 1, 0, 4, 0] ≠ 0 := by
    rw [hW.wait 0 0 (by omega) (by omega)]
    simp [del]
  have h10 : (heisenbergTensor (-J / 4)).f [3 + 1, 1, 1, 0] ≠ 0 := by
    rw [hW.first 0 1 0 (by omega) (by omega) (by omega),
      show fn (heisA (-J / 4) 0) 1 0 = 2 * (-J / 4) * 1 from (fn_apply (heisA (-J / 4) 0) (1 : Fin 2) (0 : Fin 2)).trans rfl, mul_one]
    exact mul_ne_zero two_ne_zero hJ0
  have h01 : (heisenbergTensor (-J / 4)).f [3 + 1, 0, 2, 1] ≠ 0 := by
    rw [hW.first 1 0 1 (by omega) (by omega) (by omega),
      show fn (heisA (-J / 4) 1) 0 1 = 2 * (-J / 4) * 1 from (fn_apply (heisA (-J / 4) 1) (0 : Fin 2) (1 : Fin 2)).trans rfl, mul_one]
    exact mul_ne_zero two_ne_zero hJ0
  refine ⟨out, o1, o2, hamil_compressible hb h2 (by omega) hW (by simp) hn (by simp) hps (by norm_num) ?_ n out o2 o3, hamil_outer hb n out o2 o3, hamil_ends hb o2 o3⟩
  intro c hc
  interval_cases c
  · exact ⟨4, 0, 0, by omega, by omega, by omega, by omega, rfl, hwait⟩
  · exact ⟨1, 1, 0, by omega, by omega, by omega, by omega, rfl, h10⟩
  · exact ⟨2, 0, 1, by omega, by omega, by omega, by omega, rfl, h01⟩
  · exact ⟨4, 0, 0, by omega, by omega, by omega, by omega, rfl, hwait⟩
  · exact ⟨4, 0, 0, by omega, by omega, by omega, by omega, rfl, hwait⟩

theorem hubbard_compressible (U mu : ℝ) (L : Nat) (hL : 2 ≤ L) (phys : BT G ℝ) (ph : Dim G) (hs : phys.shape = [ph])
    (hn : ph.length < 2 ^ 63) (hps : ∀ s ∈ ph, 0 < s.1) (h4 : dimSize ph = 4) (hq0 : chargeAt ph 0 + chargeAt ph 0 = 0)
    (hq1 : chargeAt ph 0 + chargeAt ph 3 = chargeAt ph 1 + chargeAt ph 2) (hm : mu = 0 ∨ 1 / 10 ^ 4 < |mu|)
    (hU : U - 2 * mu = 0 ∨ 1 / 10 ^ 4 < |U - 2 * mu|) :
    ∃ H, hubbardBlocks U mu L phys = .ok H ∧ H.length = L ∧ Compressible H ∧ OuterOf ph 6 H ∧
      leftDim H = [(1, chargeAt ph 0)] ∧ rightDim H = [(1, -chargeAt ph 0)] := by
  obtain ⟨n, rfl⟩ : ∃ n, L = n + 2 := ⟨L - 2, by omega⟩
  rw [hubbardBlocks_eq U mu n phys ph hs h4]
  have hb : dimSize [(1, chargeAt ph 0), (1, chargeAt ph 1), (1, chargeAt ph 2), (1, -chargeAt ph 1), (1, -chargeAt ph 2),
    (1, chargeAt ph 0)] = 4 + 2 := rfl
  obtain ⟨out, o1, o2, o3⟩ := hamil_ok hb h4 (by omega) rfl n (hubbard_entries U mu (hubbard_bond _ _ _) hq0 hq1 hm hU)
  have hW := hubbard_channels U mu
  have hwait : (hubbardTensor U mu).f [4 + 1, 0, 5, 0] ≠ 0 := by
    rw [hW.wait 0 0 (by omega) (by omega)]
    simp [del]
  have hch : ∀ i, i < 4 → ∃ s t, s < 4 ∧ t < 4 ∧ (hubbardTensor U mu).f [4 + 1, s, i + 1, t] ≠ 0 := by
    intro i hi
    have key : ∃ s t : Fin 4, hubA (R := ℝ) i s t ≠ 0 := by
      interval_cases i
      · exact ⟨1, 0, by simp [hubA, cUp, phase, Matrix.mul_apply, Fin.sum_univ_four]⟩
      · exact ⟨2, 0, by simp [hubA, cDn, phase, Matrix.mul_apply, Fin.sum_univ_four]⟩
      · exact ⟨0, 1, by simp [hubA, cUp, phase, Matrix.mul_apply, Fin.sum_univ_four]⟩
      · exact ⟨0, 2, by simp [hubA, cDn, phase, Matrix.mul_apply, Fin.sum_univ_four]⟩
    obtain ⟨s, t, h⟩ := key
    exact ⟨s, t, s.2, t.2, by rw [hW.first i s t hi s.2 t.2, fn_apply]; exact h⟩
  refine ⟨out, o1, o2, hamil_compressible hb h4 (by omega) hW (by simp) hn (by simp) hps (by norm_num) ?_ n out o2 o3, hamil_outer hb n out o2 o3, hamil_ends hb o2 o3⟩
  intro c hc
  rcases Nat.eq_zero_or_pos c with rfl | h0
  · exact ⟨5, 0, 0, by omega, by omega, by omega, by omega, rfl, hwait⟩
  · by_cases h5 : c = 5
    · subst h5
      exact ⟨5, 0, 0, by omega, by omega, by omega, by omega, rfl, hwait⟩
    · obtain ⟨s, t, h1, h2, h3⟩ := hch (c - 1) (by omega)
      rw [show c - 1 + 1 = c by omega] at h3
      exact ⟨c, s, t, h0, by omega, h1, h2, rfl, h3⟩

/-- **C84.**  `Heisenberg(J, length, phys_shape)`: with two states whose charges satisfy `2 p₀ = p₁` and `2 p₁ = p₀`, and with a coupling
above 4e-4, the result is a chain of block tensors with neutral selection rules for the Heisenberg Hamiltonian, with bonds of at most
five elements, none of them redundant. -/
theorem C84_heisenberg_coalesced {fac : Blk ℝ → Blk ℝ × Blk ℝ × Blk ℝ} (hfac : DenseSvd fac) (eps : ℝ) (he0 : 0 < eps) (he1 : eps ≤ 1 / 2)
    (J : ℝ) (L : Nat) (hL : 2 ≤ L) (phys : BT G ℝ) (ph : Dim G) (hs : phys.shape = [ph])
    (hn : ph.length < 2 ^ 63) (hps : ∀ s ∈ ph, 0 < s.1) (h2 : dimSize ph = 2) (hq0 : chargeAt ph 0 + chargeAt ph 0 = chargeAt ph 1)
    (hq1 : chargeAt ph 1 + chargeAt ph 1 = chargeAt ph 0) (hJ : 4 / 10 ^ 4 < |J|) :
    ∃ N out, (∀ fuel, N ≤ fuel → heisenbergB fuel fac eps J L phys = some (.ok out)) ∧ out.length = L ∧ Chained 4 out ∧
      OuterOf ph 5 out ∧ LeftIndependent out ∧
      mpoMatrix L 2 (out.map denseOf) = ∑ i ∈ range (L - 1),
        (-J / 4) • ((2 : ℝ) • onPair i sPlus sMinus + (2 : ℝ) • onPair i sMinus sPlus + onPair i sigmaZ sigmaZ) := by
  obtain ⟨H, h1, h3, h4, h5, -⟩ := heisenberg_compressible J L hL phys ph hs hn hps h2 hq0 hq1 hJ
  obtain ⟨H', g1, -, -, -, g5⟩ := C84_heisenberg_partial J L hL phys ph hs hn h2 hq0 hq1 (.inr hJ)
  rw [h1] at g1
  cases g1
  obtain ⟨N, out, c1, c2, c3, c4, c5, c6⟩ := coalesce_hamil (d := 2) hfac eps he0 he1 (by omega) h3 h4 h5
  exact ⟨N, out, fun fuel hf => by rw [heisenbergB, h1, andThen_ok, c1 fuel hf], c2, c3, c4, c5, c6.trans g5⟩

/-- **C84.**  `Hubbard(U, mu, length, phys_shape)`: with four states whose charges satisfy `2 p₀ = 0` and `p₀ + p₃ = p₁ + p₂`, and with `mu`
and `U - 2 mu` zero or above 1e-4, the result is a chain of block tensors with neutral selection rules for the Hubbard Hamiltonian, with
bonds of at most six elements, none of them redundant. -/
theorem C84_hubbard_coalesced {fac : Blk ℝ → Blk ℝ × Blk ℝ × Blk ℝ} (hfac : DenseSvd fac) (eps : ℝ) (he0 : 0 < eps) (he1 : eps ≤ 1 / 2)
    (U mu : ℝ) (L : Nat) (hL : 2 ≤ L) (phys : BT G ℝ) (ph : Dim G) (hs : phys.shape = [ph])
    (hn : ph.length < 2 ^ 63) (hps : ∀ s ∈ ph, 0 < s.1) (h4 : dimSize ph = 4) (hq0 : chargeAt ph 0 + chargeAt ph 0 = 0)
    (hq1 : chargeAt ph 0 + chargeAt ph 3 = chargeAt ph 1 + chargeAt ph 2) (hm : mu = 0 ∨ 1 / 10 ^ 4 < |mu|)
    (hU : U - 2 * mu = 0 ∨ 1 / 10 ^ 4 < |U - 2 * mu|) :
    ∃ N out, (∀ fuel, N ≤ fuel → hubbardB fuel fac eps U mu L phys = some (.ok out)) ∧ out.length = L ∧ Chained 4 out ∧
      OuterOf ph 6 out ∧ LeftIndependent out ∧
      mpoMatrix L 4 (out.map denseOf) =
        ∑ i ∈ range L, (onSite i (U • (cUp.transpose * cUp * (cDn.transpose * cDn))
            - mu • (cUp.transpose * cUp + cDn.transpose * cDn))) +
        ∑ i ∈ range (L - 1), (
          ((annihilate L i .up).transpose * annihilate L (i + 1) .up
            + (annihilate L (i + 1) .up).transpose * annihilate L i .up) +
          ((annihilate L i .dn).transpose * annihilate L (i + 1) .dn
            + (annihilate L (i + 1) .dn).transpose * annihilate L i .dn)) := by
  obtain ⟨H, h1, h3, h5, h6, -⟩ := hubbard_compressible U mu L hL phys ph hs hn hps h4 hq0 hq1 hm hU
  obtain ⟨H', g1, -, -, -, g5⟩ := C84_hubbard_partial U mu L hL phys ph hs hn h4 hq0 hq1 hm hU
  rw [h1] at g1
  cases g1
  obtain ⟨N, out, c1, c2, c3, c4, c5, c6⟩ := coalesce_hamil (d := 4) hfac eps he0 he1 (by omega) h3 h5 h6
  exact ⟨N, out, fun fuel hf => by rw [hubbardB, h1, andThen_ok, c1 fuel hf], c2, c3, c4, c5, c6.trans g5⟩

/-! ### Examples -/

/-- Electrons with conserved particle number; half filling at `U = 4`.  The chain before the compression meets the hypotheses of C104. -/
example : ∃ H, hubbardBlocks (4 : ℝ) 2 3 (⟨[[(1, (0 : ℤ)), (2, 1), (1, 2)]], 0, []⟩ : BT ℤ ℝ) = .ok H ∧ H.length = 3 ∧ Compressible H :=
  (hubbard_compressible (4 : ℝ) 2 3 (by omega) (⟨[[(1, (0 : ℤ)), (2, 1), (1, 2)]], 0, []⟩ : BT ℤ ℝ) [(1, 0), (2, 1), (1, 2)] rfl
    (by simp) (by simp) rfl (by decide) (by decide) (.inr (by rw [abs_of_pos (by norm_num)]; norm_num)) (.inl (by norm_num))).imp
    fun _ h => ⟨h.1, h.2.1, h.2.2.1⟩

example : ∃ fac N out, DenseSvd fac ∧
    (∀ fuel, N ≤ fuel → hubbardB fuel fac (1 / 2 ^ 52) 4 2 3 (⟨[[(1, (0 : ℤ)), (2, 1), (1, 2)]], 0, []⟩ : BT ℤ ℝ) = some (.ok out)) ∧ out.length = 3 := by
  obtain ⟨fac, hfac⟩ := LA.denseSvd_exists ℝ
  obtain ⟨N, out, h1, h2, -⟩ := C84_hubbard_coalesced hfac (1 / 2 ^ 52) (by positivity) (by norm_num) 4 2 3 (by omega)
    (⟨[[(1, (0 : ℤ)), (2, 1), (1, 2)]], 0, []⟩ : BT ℤ ℝ) [(1, 0), (2, 1), (1, 2)] rfl
    (by simp) (by simp) rfl (by decide) (by decide) (.inr (by rw [abs_of_pos (by norm_num)]; norm_num)) (.inl (by norm_num))
  exact ⟨fac, N, out, hfac, h1, h2⟩

example : ∃ fac N out, DenseSvd fac ∧
    (∀ fuel, N ≤ fuel → heisenbergB fuel fac (1 / 2 ^ 52) 1 3 (⟨[[(2, (0 : ℤ))]], 0, []⟩ : BT ℤ ℝ) = some (.ok out)) ∧ out.length = 3 := by
  obtain ⟨fac, hfac⟩ := LA.denseSvd_exists ℝ
  obtain ⟨N, out, h1, h2, -⟩ := C84_heisenberg_coalesced hfac (1 / 2 ^ 52) (by positivity) (by norm_num) 1 3 (by omega)
    (⟨[[(2, (0 : ℤ))]], 0, []⟩ : BT ℤ ℝ) [(2, 0)] rfl (by simp) (by simp) rfl rfl rfl (by norm_num)
  exact ⟨fac, N, out, hfac, h1, h2⟩

end BN
end QuantiT
