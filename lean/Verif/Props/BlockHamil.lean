import Verif.Lemmas.BlockModels2
import Mathlib.Data.ZMod.Basic
/-
C84: the Heisenberg and Hubbard Hamiltonians with conserved quantities.
-/
set_option linter.unusedSectionVars false
namespace QuantiT
namespace BN
open Spec BT MP HM Finset
variable {G K : Type} [AddCommGroup G] [DecidableEq G] [Field K] [LinearOrder K] [IsStrictOrderedRing K]

theorem elementQtt_chargeAt {phys : BT G K} {ph : Dim G} (hs : phys.shape = [ph]) {x : Nat} (hx : x < dimSize ph) :
    elementQtt phys.shape 0 x = .ok (chargeAt ph x) := by
  obtain ⟨s, h1, h2⟩ := (C17_element_qtt phys.shape 0 ph (by rw [hs]; rfl) x).1 hx
  rw [h2]
  obtain ⟨⟨b, o⟩, hl⟩ := locate_isSome.mpr hx
  rw [decompose1_eq hl] at h1
  rw [chargeAt_eq hl h1]

theorem heisenbergBlocks_eq (J : K) (n : Nat) (phys : BT G K) (ph : Dim G) (hs : phys.shape = [ph]) (h2 : dimSize ph = 2) :
    heisenbergBlocks J (n + 2) phys = toBMPO (chainOf n 3 (heisenbergTensor (-J / 4)))
      (⟨bulk [(1, 0), (1, chargeAt ph 0), (1, chargeAt ph 1), (1, 0), (1, 0)] ph, 0, []⟩ : BT G K) := by
  unfold heisenbergBlocks
  rw [elementQtt_chargeAt hs (by omega), elementQtt_chargeAt hs (by omega)]
  simp only [bind, Except.bind]
  rw [localShape_eq _ _ _ _ rfl hs]
  have : HM.heisenberg J (n + 2) = .ok (chainOf n 3 (heisenbergTensor (-J / 4))) := edges_eq (heisenberg_channels (-J / 4)) n
  simp only [this]

theorem hubbardBlocks_eq (U mu : K) (n : Nat) (phys : BT G K) (ph : Dim G) (hs : phys.shape = [ph]) (h4 : dimSize ph = 4) :
    hubbardBlocks U mu (n + 2) phys = toBMPO (chainOf n 4 (hubbardTensor U mu))
      (⟨bulk [(1, chargeAt ph 0), (1, chargeAt ph 1), (1, chargeAt ph 2), (1, -chargeAt ph 1), (1, -chargeAt ph 2),
        (1, chargeAt ph 0)] ph, 0, []⟩ : BT G K) := by
  unfold hubbardBlocks
  rw [elementQtt_chargeAt hs (by omega), elementQtt_chargeAt hs (by omega), elementQtt_chargeAt hs (by omega)]
  simp only [bind, Except.bind]
  rw [localShape_eq _ _ _ _ rfl hs]
  have : HM.hubbard U mu (n + 2) = .ok (chainOf n 4 (hubbardTensor U mu)) := edges_eq (hubbard_channels U mu) n
  simp only [this]

theorem fn_cases {d : Nat} (M : Matrix (Fin d) (Fin d) K) (Q : Nat → Nat → K → Prop)
    (h : ∀ s t : Fin d, M s t ≠ 0 → Q s t (M s t)) : ∀ s t, s < d → t < d → fn M s t ≠ 0 → Q s t (fn M s t) := by
  intro s t hs ht h0
  have e := fn_apply M ⟨s, hs⟩ ⟨t, ht⟩
  simp only at e
  rw [e] at h0 ⊢
  exact h ⟨s, hs⟩ ⟨t, ht⟩ h0

theorem heisenberg_entries (J : K) {p : Nat → G} {c : Nat → G} (hc : c 0 = 0 ∧ c 1 = p 0 ∧ c 2 = p 1 ∧ c 3 = 0 ∧ c 4 = 0)
    (h1 : p 0 + p 0 = p 1) (h2 : p 1 + p 1 = p 0) (hJ : J = 0 ∨ 1 / 10 ^ 4 < |J|) :
    ∀ a s b t, a < 5 → s < 2 → b < 5 → t < 2 → (heisenbergTensor J).f [a, s, b, t] ≠ 0 →
      c a + p s = c b + p t ∧ 1 / 10 ^ 4 < |(heisenbergTensor J).f [a, s, b, t]| := by
  obtain ⟨c0, c1, c2, c3, c4⟩ := hc
  have one : (1 : K) / 10 ^ 4 < |1| := by rw [abs_one]; norm_num
  have J1 : J ≠ 0 → 1 / 10 ^ 4 < |J| := fun h => hJ.resolve_left h
  have J2 : 2 * J ≠ 0 → 1 / 10 ^ 4 < |2 * J| := fun h => by
    have := J1 (fun h' => h (by rw [h', mul_zero]))
    rw [abs_mul, abs_of_pos (by norm_num : (0 : K) < 2)]
    have := abs_nonneg J
    linarith
  refine channel_entries (P := fun x => 1 / 10 ^ 4 < |x|) (heisenberg_channels J) one ?_ ?_ ?_
  · intro i s t hi hs ht h0
    refine fn_cases (heisA J i) (fun s t x => c (3 + 1) + p s = c (i + 1) + p t ∧ 1 / 10 ^ 4 < |x|) ?_ s t hs ht h0
    intro s t
    interval_cases i <;> fin_cases s <;> fin_cases t <;>
      simp [heisA, sMinus, sPlus, sigmaZ, c1, c2, c3, c4, h1, h2] <;>
      first | simpa using J1 | simpa using J2
  · intro i s t hi hs ht h0
    refine fn_cases (heisB i) (fun s t x => c (i + 1) + p s = c 0 + p t ∧ 1 / 10 ^ 4 < |x|) ?_ s t hs ht h0
    intro s t
    interval_cases i <;> fin_cases s <;> fin_cases t <;>
      simp [heisB, sMinus, sPlus, sigmaZ, c0, c1, c2, c3, h1, h2] <;> norm_num
  · intro s t hs ht h0
    exact absurd (by unfold fn; split_ifs <;> rfl) h0

theorem hubA_0 : (hubA 0 : Matrix (Fin 4) (Fin 4) K) = !![0, 0, 0, 0; 1, 0, 0, 0; 0, 0, 0, 0; 0, 0, -1, 0] := by
  ext s t; fin_cases s <;> fin_cases t <;> simp [hubA, cUp, phase, Matrix.mul_apply, Fin.sum_univ_four]
theorem hubA_1 : (hubA 1 : Matrix (Fin 4) (Fin 4) K) = !![0, 0, 0, 0; 0, 0, 0, 0; 1, 0, 0, 0; 0, 1, 0, 0] := by
  ext s t; fin_cases s <;> fin_cases t <;> simp [hubA, cDn, phase, Matrix.mul_apply, Fin.sum_univ_four]
theorem hubA_2 : (hubA 2 : Matrix (Fin 4) (Fin 4) K) = !![0, 1, 0, 0; 0, 0, 0, 0; 0, 0, 0, -1; 0, 0, 0, 0] := by
  ext s t; fin_cases s <;> fin_cases t <;> simp [hubA, cUp, phase, Matrix.mul_apply, Fin.sum_univ_four]
theorem hubA_3 : (hubA 3 : Matrix (Fin 4) (Fin 4) K) = !![0, 0, 1, 0; 0, 0, 0, 1; 0, 0, 0, 0; 0, 0, 0, 0] := by
  ext s t; fin_cases s <;> fin_cases t <;> simp [hubA, cDn, phase, Matrix.mul_apply, Fin.sum_univ_four]
theorem hubLoc_eq (U mu : K) : hubLoc U mu = !![0, 0, 0, 0; 0, -mu, 0, 0; 0, 0, -mu, 0; 0, 0, 0, U - 2 * mu] := by
  ext s t; fin_cases s <;> fin_cases t <;>
    simp [hubLoc, cUp, cDn, Matrix.mul_apply, Matrix.sub_apply, Fin.sum_univ_four]
  ring

theorem hubbard_entries (U mu : K) {p : Nat → G} {c : Nat → G}
    (hc : c 0 = p 0 ∧ c 1 = p 1 ∧ c 2 = p 2 ∧ c 3 = -p 1 ∧ c 4 = -p 2 ∧ c 5 = p 0)
    (h1 : p 0 + p 0 = 0) (h2 : p 0 + p 3 = p 1 + p 2) (hm : mu = 0 ∨ 1 / 10 ^ 4 < |mu|)
    (hU : U - 2 * mu = 0 ∨ 1 / 10 ^ 4 < |U - 2 * mu|) :
    ∀ a s b t, a < 6 → s < 4 → b < 6 → t < 4 → (hubbardTensor U mu).f [a, s, b, t] ≠ 0 →
      c a + p s = c b + p t ∧ 1 / 10 ^ 4 < |(hubbardTensor U mu).f [a, s, b, t]| := by
  obtain ⟨c0, c1, c2, c3, c4, c5⟩ := hc
  have one : (1 : K) / 10 ^ 4 < |1| := by rw [abs_one]; norm_num
  have mone : (1 : K) / 10 ^ 4 < |-1| := by rw [abs_neg, abs_one]; norm_num
  have n0 : -p 0 = p 0 := (eq_neg_of_add_eq_zero_left h1).symm
  have e3 : p 3 = p 0 + (p 1 + p 2) := by rw [← h2, ← add_assoc, h1, zero_add]
  refine channel_entries (P := fun x => 1 / 10 ^ 4 < |x|) (hubbard_channels U mu) one ?_ ?_ ?_
  · intro i s t hi hs ht h0
    refine fn_cases (hubA i) (fun s t x => c (4 + 1) + p s = c (i + 1) + p t ∧ 1 / 10 ^ 4 < |x|) ?_ s t hs ht h0
    intro s t hne
    interval_cases i
    · rw [hubA_0] at hne ⊢
      fin_cases s <;> fin_cases t <;> simp [c5, c1] at hne ⊢ <;> refine ⟨?_, by norm_num⟩
      · abel
      · rw [h2]
    · rw [hubA_1] at hne ⊢
      fin_cases s <;> fin_cases t <;> simp [c5, c2] at hne ⊢ <;> refine ⟨?_, by norm_num⟩
      · abel
      · rw [h2, add_comm]
    · rw [hubA_2] at hne ⊢
      fin_cases s <;> fin_cases t <;> simp [c5, c3] at hne ⊢ <;> refine ⟨?_, by norm_num⟩
      · exact h1
      · rw [e3]; abel
    · rw [hubA_3] at hne ⊢
      fin_cases s <;> fin_cases t <;> simp [c5, c4] at hne ⊢ <;> refine ⟨?_, by norm_num⟩
      · exact h1
      · rw [e3]; abel
  · intro i s t hi hs ht h0
    refine fn_cases (hubB i) (fun s t x => c (i + 1) + p s = c 0 + p t ∧ 1 / 10 ^ 4 < |x|) ?_ s t hs ht h0
    intro s t hne
    interval_cases i
    · fin_cases s <;> fin_cases t <;> simp [hubB, cUp, c0, c1] at hne ⊢ <;> refine ⟨?_, by norm_num⟩
      · abel
      · rw [h2]
    · fin_cases s <;> fin_cases t <;> simp [hubB, cDn, c0, c2] at hne ⊢ <;> refine ⟨?_, by norm_num⟩
      · abel
      · rw [h2, add_comm]
    · fin_cases s <;> fin_cases t <;> simp [hubB, cUp, c0, c3] at hne ⊢ <;> refine ⟨?_, by norm_num⟩
      · exact h1.symm
      · rw [e3]; abel
    · fin_cases s <;> fin_cases t <;> simp [hubB, cDn, c0, c4] at hne ⊢ <;> refine ⟨?_, by norm_num⟩
      · exact h1.symm
      · rw [e3]; abel
  · intro s t hs ht h0
    refine fn_cases (hubLoc U mu) (fun s t x => c (4 + 1) + p s = c 0 + p t ∧ 1 / 10 ^ 4 < |x|) ?_ s t hs ht h0
    intro s t hne
    rw [hubLoc_eq] at hne ⊢
    have m1 := fun h : mu ≠ 0 => hm.resolve_left h
    have m2 := fun h : U - 2 * mu ≠ 0 => hU.resolve_left h
    fin_cases s <;> fin_cases t <;> simp [c5, c0] at hne ⊢
    · simpa using m1 hne
    · simpa using m1 hne
    · simpa using m2 hne

/-- The charges at the positions of a bond of sections of size one. -/
theorem heisenberg_bond (p0 p1 : G) : chargeAt [(1, (0 : G)), (1, p0), (1, p1), (1, 0), (1, 0)] 0 = 0 ∧
    chargeAt [(1, (0 : G)), (1, p0), (1, p1), (1, 0), (1, 0)] 1 = p0 ∧ chargeAt [(1, (0 : G)), (1, p0), (1, p1), (1, 0), (1, 0)] 2 = p1 ∧
    chargeAt [(1, (0 : G)), (1, p0), (1, p1), (1, 0), (1, 0)] 3 = 0 ∧ chargeAt [(1, (0 : G)), (1, p0), (1, p1), (1, 0), (1, 0)] 4 = 0 :=
  ⟨rfl, rfl, rfl, rfl, rfl⟩

theorem mpoMatrix_eq {d n : Nat} (hd : 0 < d) {Ws Ws' : List (Blk K)}
    (h : ∀ (s t : Nat → Nat), (∀ i, s i < d) → (∀ i, t i < d) → mpoEntry Ws s t 0 0 = mpoEntry Ws' s t 0 0) :
    mpoMatrix n d Ws = mpoMatrix n d Ws' := by
  have hx : ∀ (s : Fin n → Fin d) i, extend s i < d := by
    intro s i; unfold extend; split_ifs
    · exact (s _).isLt
    · exact hd
  ext s t
  exact h _ _ (hx s) (hx t)

/-- **C84.**  `Heisenberg(J, length, phys_shape)`, before the compression: with two states whose charges satisfy
`2 p₀ = p₁` and `2 p₁ = p₀` and a coupling that is zero or above 4e-4, the result is a chain of block tensors with neutral
selection rules for the Heisenberg Hamiltonian. -/
theorem C84_heisenberg_partial (J : K) (L : Nat) (hL : 2 ≤ L) (phys : BT G K) (ph : Dim G) (hs : phys.shape = [ph])
    (hn : ph.length < 2 ^ 63) (h2 : dimSize ph = 2) (hq0 : chargeAt ph 0 + chargeAt ph 0 = chargeAt ph 1)
    (hq1 : chargeAt ph 1 + chargeAt ph 1 = chargeAt ph 0) (hJ : J = 0 ∨ 4 / 10 ^ 4 < |J|) :
    ∃ out, heisenbergBlocks J L phys = .ok out ∧ out.length = L ∧ Chained 4 out ∧ (∀ T ∈ out, T.rule = 0) ∧
      mpoMatrix L 2 (out.map denseOf) = ∑ i ∈ range (L - 1),
        (-J / 4) • ((2 : K) • onPair i sPlus sMinus + (2 : K) • onPair i sMinus sPlus + onPair i sigmaZ sigmaZ) := by
  obtain ⟨n, rfl⟩ : ∃ n, L = n + 2 := ⟨L - 2, by omega⟩
  rw [heisenbergBlocks_eq J n phys ph hs h2]
  have hb : dimSize [(1, (0 : G)), (1, chargeAt ph 0), (1, chargeAt ph 1), (1, 0), (1, 0)] = 3 + 2 := rfl
  obtain ⟨out, o1, o2, o3⟩ := hamil_ok hb h2 (by omega) rfl n (heisenberg_entries (-J / 4) (heisenberg_bond _ _) hq0 hq1 (by
    rcases hJ with h | h
    · left; rw [h]; simp
    · right
      rw [abs_div, abs_neg, abs_of_pos (by norm_num : (0 : K) < 4)]
      linarith))
  obtain ⟨c1, c2⟩ := hamil_chain hb h2 rfl (by simp) hn n out o2 o3
  refine ⟨out, o1, o2, c1, ?_, ?_⟩
  · intro T hT
    obtain ⟨i, hi⟩ := List.mem_iff_getElem?.1 hT
    exact (o3 i _ T (List.getElem?_eq_getElem (by rw [chainOf_length, ← o2]; exact (List.getElem?_eq_some_iff.1 hi).1)) hi).2.1
  · obtain ⟨Ws, w1, _, _, w4⟩ := C55_heisenberg J (n + 2) hL
    have : Ws = chainOf n 3 (heisenbergTensor (-J / 4)) :=
      Except.ok.inj (w1.symm.trans (edges_eq (heisenberg_channels (-J / 4)) n))
    rw [← w4, this]
    exact mpoMatrix_eq (by omega) c2

/-- **C84.**  With any other charges `Heisenberg(J, length, phys_shape)` throws `invalid_argument`, whatever the coupling:
the charges given to the bonds are those of the states, not of the spin operators. -/
theorem C84_heisenberg_fails (J : K) (L : Nat) (hL : 2 ≤ L) (phys : BT G K) (ph : Dim G) (hs : phys.shape = [ph])
    (h2 : dimSize ph = 2)
    (hq : ¬ (chargeAt ph 0 + chargeAt ph 0 = chargeAt ph 1 ∧ chargeAt ph 1 + chargeAt ph 1 = chargeAt ph 0)) :
    heisenbergBlocks J L phys = Res.throw .invalidArgument := by
  obtain ⟨n, rfl⟩ : ∃ n, L = n + 2 := ⟨L - 2, by omega⟩
  rw [heisenbergBlocks_eq J n phys ph hs h2]
  have hb : dimSize [(1, (0 : G)), (1, chargeAt ph 0), (1, chargeAt ph 1), (1, 0), (1, 0)] = 3 + 2 := rfl
  have hW := heisenberg_channels (-J / 4)
  by_cases h0 : chargeAt ph 0 + chargeAt ph 0 = chargeAt ph 1
  · refine hamil_throw_charge hb h2 (by omega) rfl n 2 1 0 (by omega) (by omega) (by omega) ?_ ?_
    · rw [(heisenberg_bond _ _).1, (heisenberg_bond _ _).2.2.1, zero_add]
      exact fun h => hq ⟨h0, h⟩
    · rw [hW.second 1 1 0 (by omega) (by omega) (by omega), show fn (heisB 1) 1 0 = (1 : K) from
        (fn_apply (heisB 1) (1 : Fin 2) (0 : Fin 2)).trans rfl, abs_one]
      norm_num
  · refine hamil_throw_charge hb h2 (by omega) rfl n 1 0 1 (by omega) (by omega) (by omega) ?_ ?_
    · rw [(heisenberg_bond _ _).1, (heisenberg_bond _ _).2.1, zero_add]
      exact h0
    · rw [hW.second 0 0 1 (by omega) (by omega) (by omega), show fn (heisB 0) 0 1 = (1 : K) from
        (fn_apply (heisB 0) (0 : Fin 2) (1 : Fin 2)).trans rfl, abs_one]
      norm_num

theorem hubbard_bond (p0 p1 p2 : G) : chargeAt [(1, p0), (1, p1), (1, p2), (1, -p1), (1, -p2), (1, p0)] 0 = p0 ∧
    chargeAt [(1, p0), (1, p1), (1, p2), (1, -p1), (1, -p2), (1, p0)] 1 = p1 ∧
    chargeAt [(1, p0), (1, p1), (1, p2), (1, -p1), (1, -p2), (1, p0)] 2 = p2 ∧
    chargeAt [(1, p0), (1, p1), (1, p2), (1, -p1), (1, -p2), (1, p0)] 3 = -p1 ∧
    chargeAt [(1, p0), (1, p1), (1, p2), (1, -p1), (1, -p2), (1, p0)] 4 = -p2 ∧
    chargeAt [(1, p0), (1, p1), (1, p2), (1, -p1), (1, -p2), (1, p0)] 5 = p0 :=
  ⟨rfl, rfl, rfl, rfl, rfl, rfl⟩

/-- **C84.**  `Hubbard(U, mu, length, phys_shape)`, before the compression: with four states whose charges satisfy `2 p₀ = 0`
and `p₀ + p₃ = p₁ + p₂`, and with `mu` and `U - 2 mu` zero or above 1e-4, the result is a chain of block tensors with neutral
selection rules for the Hubbard Hamiltonian. -/
theorem C84_hubbard_partial (U mu : K) (L : Nat) (hL : 2 ≤ L) (phys : BT G K) (ph : Dim G) (hs : phys.shape = [ph])
    (hn : ph.length < 2 ^ 63) (h4 : dimSize ph = 4) (hq0 : chargeAt ph 0 + chargeAt ph 0 = 0)
    (hq1 : chargeAt ph 0 + chargeAt ph 3 = chargeAt ph 1 + chargeAt ph 2) (hm : mu = 0 ∨ 1 / 10 ^ 4 < |mu|)
    (hU : U - 2 * mu = 0 ∨ 1 / 10 ^ 4 < |U - 2 * mu|) :
    ∃ out, hubbardBlocks U mu L phys = .ok out ∧ out.length = L ∧ Chained 4 out ∧ (∀ T ∈ out, T.rule = 0) ∧
      mpoMatrix L 4 (out.map denseOf) =
        ∑ i ∈ range L, (onSite i (U • (cUp.transpose * cUp * (cDn.transpose * cDn))
            - mu • (cUp.transpose * cUp + cDn.transpose * cDn))) +
        ∑ i ∈ range (L - 1), (
          ((annihilate L i .up).transpose * annihilate L (i + 1) .up
            + (annihilate L (i + 1) .up).transpose * annihilate L i .up) +
          ((annihilate L i .dn).transpose * annihilate L (i + 1) .dn
            + (annihilate L (i + 1) .dn).transpose * annihilate L i .dn)) := by
  obtain ⟨n, rfl⟩ : ∃ n, L = n + 2 := ⟨L - 2, by omega⟩
  rw [hubbardBlocks_eq U mu n phys ph hs h4]
  have hb : dimSize [(1, chargeAt ph 0), (1, chargeAt ph 1), (1, chargeAt ph 2), (1, -chargeAt ph 1), (1, -chargeAt ph 2),
    (1, chargeAt ph 0)] = 4 + 2 := rfl
  obtain ⟨out, o1, o2, o3⟩ := hamil_ok hb h4 (by omega) rfl n (hubbard_entries U mu (hubbard_bond _ _ _) hq0 hq1 hm hU)
  obtain ⟨c1, c2⟩ := hamil_chain hb h4 rfl (by simp) hn n out o2 o3
  refine ⟨out, o1, o2, c1, ?_, ?_⟩
  · intro T hT
    obtain ⟨i, hi⟩ := List.mem_iff_getElem?.1 hT
    exact (o3 i _ T (List.getElem?_eq_getElem (by rw [chainOf_length, ← o2]; exact (List.getElem?_eq_some_iff.1 hi).1)) hi).2.1
  · obtain ⟨Ws, w1, _, _, w4⟩ := C56_hubbard U mu (n + 2) hL
    have : Ws = chainOf n 4 (hubbardTensor U mu) :=
      Except.ok.inj (w1.symm.trans (edges_eq (hubbard_channels U mu) n))
    rw [← w4, this]
    exact mpoMatrix_eq (by omega) c2

/-- **C84.**  With any other charges `Hubbard(U, mu, length, phys_shape)` throws `invalid_argument`.  A charge of the empty
state that is not its own inverse is enough: the particle number counted from any other origin. -/
theorem C84_hubbard_fails (U mu : K) (L : Nat) (hL : 2 ≤ L) (phys : BT G K) (ph : Dim G) (hs : phys.shape = [ph])
    (h4 : dimSize ph = 4)
    (hq : ¬ (chargeAt ph 0 + chargeAt ph 0 = 0 ∧ chargeAt ph 0 + chargeAt ph 3 = chargeAt ph 1 + chargeAt ph 2)) :
    hubbardBlocks U mu L phys = Res.throw .invalidArgument := by
  obtain ⟨n, rfl⟩ : ∃ n, L = n + 2 := ⟨L - 2, by omega⟩
  rw [hubbardBlocks_eq U mu n phys ph hs h4]
  have hb : dimSize [(1, chargeAt ph 0), (1, chargeAt ph 1), (1, chargeAt ph 2), (1, -chargeAt ph 1), (1, -chargeAt ph 2),
    (1, chargeAt ph 0)] = 4 + 2 := rfl
  have hW := hubbard_channels U mu
  by_cases h0 : chargeAt ph 0 + chargeAt ph 0 = 0
  · refine hamil_throw_charge hb h4 (by omega) rfl n 1 2 3 (by omega) (by omega) (by omega) ?_ ?_
    · rw [(hubbard_bond _ _ _).1, (hubbard_bond _ _ _).2.1]
      exact fun h => hq ⟨h0, h.symm⟩
    · rw [hW.second 0 2 3 (by omega) (by omega) (by omega), show fn (hubB 0) 2 3 = (1 : K) from
        (fn_apply (hubB 0) (2 : Fin 4) (3 : Fin 4)).trans rfl, abs_one]
      norm_num
  · refine hamil_throw_charge hb h4 (by omega) rfl n 3 1 0 (by omega) (by omega) (by omega) ?_ ?_
    · rw [(hubbard_bond _ _ _).1, (hubbard_bond _ _ _).2.2.2.1, neg_add_cancel]
      exact fun h => h0 h.symm
    · rw [hW.second 2 1 0 (by omega) (by omega) (by omega), show fn (hubB 2) 1 0 = (1 : K) from
        (fn_apply (hubB 2) (1 : Fin 4) (0 : Fin 4)).trans rfl, abs_one]
      norm_num

/-- **C84.**  A small coupling makes `Heisenberg(J, length, phys_shape)` throw: the blocks with the entries `J/2` are below
the cutoff, and the check then finds them missing. -/
theorem C84_small_heisenberg_fails (J : K) (L : Nat) (hL : 2 ≤ L) (phys : BT G K) (ph : Dim G) (hs : phys.shape = [ph])
    (h2 : dimSize ph = 2) (hJ : 4 / 10 ^ 8 ≤ |J|) (hJ' : |J| ≤ 2 / 10 ^ 4) :
    heisenbergBlocks J L phys = Res.throw .invalidArgument := by
  obtain ⟨n, rfl⟩ : ∃ n, L = n + 2 := ⟨L - 2, by omega⟩
  rw [heisenbergBlocks_eq J n phys ph hs h2]
  have hb : dimSize [(1, (0 : G)), (1, chargeAt ph 0), (1, chargeAt ph 1), (1, 0), (1, 0)] = 3 + 2 := rfl
  have hW := heisenberg_channels (-J / 4)
  have e1 : |(heisenbergTensor (-J / 4)).f [3 + 1, 1, 1, 0]| = |J| / 2 := by
    rw [hW.first 0 1 0 (by omega) (by omega) (by omega),
      show fn (heisA (-J / 4) 0) 1 0 = 2 * (-J / 4) * 1 from (fn_apply (heisA (-J / 4) 0) (1 : Fin 2) (0 : Fin 2)).trans rfl,
      mul_one, show 2 * (-J / 4) = -(J / 2) by ring, abs_neg, abs_div, abs_of_pos (by norm_num : (0 : K) < 2)]
  refine hamil_throw_small hb (by simp) h2 (by omega) rfl n 1 1 0 (by omega) (by omega) (by omega) ?_ ?_ ?_
  · intro s t h1 h3 _ _ hne
    rw [hW.first 0 s t (by omega) h1 h3]
    interval_cases s <;> interval_cases t <;> simp_all [heisA, sMinus, fn]
  · rw [e1]; linarith
  · rw [e1]; linarith

/-- **C84.**  The same happens to `Hubbard(U, mu, length, phys_shape)` with a small chemical potential, when the four states
are in four sections. -/
theorem C84_small_hubbard_fails (U mu : K) (L : Nat) (hL : 2 ≤ L) (phys : BT G K) (q0 q1 q2 q3 : G)
    (hs : phys.shape = [[(1, q0), (1, q1), (1, q2), (1, q3)]]) (hm : 2 / 10 ^ 8 ≤ |mu|) (hm' : |mu| ≤ 1 / 10 ^ 4) :
    hubbardBlocks U mu L phys = Res.throw .invalidArgument := by
  obtain ⟨n, rfl⟩ : ∃ n, L = n + 2 := ⟨L - 2, by omega⟩
  rw [hubbardBlocks_eq U mu n phys _ hs rfl]
  have hb : ∀ p0 p1 p2 : G, dimSize [(1, p0), (1, p1), (1, p2), (1, -p1), (1, -p2), (1, p0)] = 4 + 2 := fun _ _ _ => rfl
  have hW := hubbard_channels U mu
  have e1 : |(hubbardTensor U mu).f [4 + 1, 1, 0, 1]| = |mu| := by
    rw [hW.onsite 1 1 (by omega) (by omega),
      show fn (hubLoc U mu) 1 1 = -mu from (fn_apply (hubLoc U mu) (1 : Fin 4) (1 : Fin 4)).trans (by rw [hubLoc_eq]; rfl), abs_neg]
  have hu : ∀ x ∈ [(1, q0), (1, q1), (1, q2), (1, q3)], x.1 = 1 := by simp
  refine hamil_throw_small (hb _ _ _) (by simp) rfl (by show 0 < 4; omega) rfl n 1 0 1 (by show 1 < 4; omega) (by omega)
    (by show 1 < 4; omega) ?_ (by rw [e1]; exact hm') (by rw [e1]; exact hm)
  intro s t h1 h3 g1 g2 hne
  obtain ⟨⟨x, o⟩, hx⟩ := locate_isSome.2 h1
  obtain ⟨⟨y, o'⟩, hy⟩ := locate_isSome.2 h3
  have := locate_unit hu hx
  have := locate_unit hu hy
  rw [hx] at g1
  rw [hy] at g2
  simp [locate] at g1 g2
  exact absurd (by rw [show s = 1 by omega, show t = 1 by omega]) hne

/-! ### Examples -/

/-- Spins without conservation: a trivial charge for both states.  The coupling of the ferromagnet is allowed. -/
example : ∃ out, heisenbergBlocks (1 : ℚ) 3 (⟨[[(2, (0 : ℤ))]], 0, []⟩ : BT ℤ ℚ) = .ok out ∧ out.length = 3 :=
  (C84_heisenberg_partial (1 : ℚ) 3 (by omega) (⟨[[(2, (0 : ℤ))]], 0, []⟩ : BT ℤ ℚ) [(2, 0)] rfl (by simp) rfl rfl rfl
    (.inr (by norm_num))).imp fun _ h => ⟨h.1, h.2.1⟩

/-- Charges in `ℤ/3`, one section per state. -/
example : ∃ out, heisenbergBlocks (1 : ℚ) 3 (⟨[[(1, (1 : ZMod 3)), (1, 2)]], 0, []⟩ : BT (ZMod 3) ℚ) = .ok out ∧ out.length = 3 :=
  (C84_heisenberg_partial (1 : ℚ) 3 (by omega) (⟨[[(1, (1 : ZMod 3)), (1, 2)]], 0, []⟩ : BT (ZMod 3) ℚ) [(1, 1), (1, 2)] rfl
    (by simp) rfl (by decide) (by decide) (.inr (by norm_num))).imp fun _ h => ⟨h.1, h.2.1⟩

/-- The conserved magnetisation, `+1` and `-1`. -/
example : heisenbergBlocks (1 : ℚ) 3 (⟨[[(1, (1 : ℤ)), (1, -1)]], 0, []⟩ : BT ℤ ℚ) = Res.throw .invalidArgument :=
  C84_heisenberg_fails (1 : ℚ) 3 (by omega) _ [(1, 1), (1, -1)] rfl rfl (by decide)

example : heisenbergBlocks (1 / 10 ^ 5 : ℚ) 3 (⟨[[(2, (0 : ℤ))]], 0, []⟩ : BT ℤ ℚ) = Res.throw .invalidArgument :=
  C84_small_heisenberg_fails (1 / 10 ^ 5 : ℚ) 3 (by omega) _ [(2, 0)] rfl rfl
    (by rw [abs_of_pos (by norm_num)]; norm_num) (by rw [abs_of_pos (by norm_num)]; norm_num)

/-- Electrons with conserved particle number; half filling at `U = 4`. -/
example : ∃ out, hubbardBlocks (4 : ℚ) 2 3 (⟨[[(1, (0 : ℤ)), (2, 1), (1, 2)]], 0, []⟩ : BT ℤ ℚ) = .ok out ∧ out.length = 3 :=
  (C84_hubbard_partial (4 : ℚ) 2 3 (by omega) (⟨[[(1, (0 : ℤ)), (2, 1), (1, 2)]], 0, []⟩ : BT ℤ ℚ) [(1, 0), (2, 1), (1, 2)] rfl
    (by simp) rfl (by decide) (by decide) (.inr (by rw [abs_of_pos (by norm_num)]; norm_num)) (.inl (by norm_num))).imp
    fun _ h => ⟨h.1, h.2.1⟩

/-- The same number counted from half filling. -/
example : hubbardBlocks (4 : ℚ) 2 3 (⟨[[(1, (-1 : ℤ)), (2, 0), (1, 1)]], 0, []⟩ : BT ℤ ℚ) = Res.throw .invalidArgument :=
  C84_hubbard_fails (4 : ℚ) 2 3 (by omega) _ [(1, -1), (2, 0), (1, 1)] rfl rfl (by decide)

example : hubbardBlocks (4 : ℚ) (1 / 10 ^ 5) 3 (⟨[[(1, (0 : ℤ)), (1, 1), (1, 1), (1, 2)]], 0, []⟩ : BT ℤ ℚ)
    = Res.throw .invalidArgument :=
  C84_small_hubbard_fails 4 (1 / 10 ^ 5) 3 (by omega) _ 0 1 1 2 rfl (by rw [abs_of_pos (by norm_num)]; norm_num)
    (by rw [abs_of_pos (by norm_num)]; norm_num)

end BN
end QuantiT
