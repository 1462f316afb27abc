import Verif.Lemmas.Ground
import Mathlib.Tactic.NoncommRing
/-
The matrices of the two Hamiltonians: hermiticity, and the exchange form of the Heisenberg model.
-/
namespace QuantiT
namespace DM
open Finset Spec MP Matrix HM
variable {𝕜 : Type} [RCLike 𝕜]

theorem tensorOp_conj {L d : Nat} (A : Nat → Matrix (Fin d) (Fin d) 𝕜) :
    (tensorOp A : Matrix (Fin L → Fin d) (Fin L → Fin d) 𝕜)ᴴ = tensorOp fun k => (A k)ᴴ := by
  ext s t
  simp [tensorOp, conjTranspose_apply, star_prod]

/-! ### Heisenberg -/

/-- The exchange of the states of sites `i` and `i + 1`. -/
def exchange {L : Nat} {d : Nat} (i : Nat) (hi : i + 1 < L) (s : Fin L → Fin d) : Fin L → Fin d :=
  fun k => s (Equiv.swap ⟨i, by omega⟩ ⟨i + 1, hi⟩ k)

theorem exchange_exchange {L d i : Nat} (hi : i + 1 < L) (s : Fin L → Fin d) : exchange i hi (exchange i hi s) = s := by
  funext k
  simp [exchange]

theorem onPair_apply {L d i : Nat} (hi : i + 1 < L) (A B : Matrix (Fin d) (Fin d) 𝕜) (s t : Fin L → Fin d) :
    (onPair i A B : Matrix (Fin L → Fin d) (Fin L → Fin d) 𝕜) s t
      = A (s ⟨i, by omega⟩) (t ⟨i, by omega⟩) * B (s ⟨i + 1, hi⟩) (t ⟨i + 1, hi⟩) *
        if ∀ k : Fin L, k.val ≠ i → k.val ≠ i + 1 → s k = t k then 1 else 0 := by
  unfold onPair tensorOp
  rw [← mul_prod_erase univ _ (mem_univ (⟨i, by omega⟩ : Fin L)),
    ← mul_prod_erase _ _ (show (⟨i + 1, hi⟩ : Fin L) ∈ univ.erase ⟨i, by omega⟩ by simp)]
  simp only [if_true, Nat.add_eq_left, one_ne_zero, if_false]
  rw [mul_assoc]
  congr 2
  split_ifs with h
  · refine prod_eq_one fun k hk => ?_
    have h1 : k.val ≠ i + 1 := fun h => (mem_erase.1 hk).1 (Fin.ext h)
    have h2 : k.val ≠ i := fun h => (mem_erase.1 (mem_erase.1 hk).2).1 (Fin.ext h)
    rw [if_neg h2, if_neg h1, h k h2 h1, one_apply_eq]
  · push Not at h
    obtain ⟨k, h2, h1, h3⟩ := h
    refine prod_eq_zero (i := k) (by simp [Fin.ext_iff, h1, h2]) ?_
    rw [if_neg h2, if_neg h1, one_apply_ne h3]

theorem pair_exchange {L i : Nat} (hi : i + 1 < L) :
    (onPair i sigmaX sigmaX - onPair i iSigmaY iSigmaY + onPair i sigmaZ sigmaZ : Matrix (Fin L → Fin 2) (Fin L → Fin 2) 𝕜)
      = fun s t => 2 * (if exchange i hi s = t then 1 else 0) - if s = t then 1 else 0 := by
  ext s t
  rw [Matrix.add_apply, Matrix.sub_apply, onPair_apply hi, onPair_apply hi, onPair_apply hi]
  have hx : (exchange i hi s = t) ↔ (s ⟨i, by omega⟩ = t ⟨i + 1, hi⟩ ∧ s ⟨i + 1, hi⟩ = t ⟨i, by omega⟩ ∧
      ∀ k : Fin L, k.val ≠ i → k.val ≠ i + 1 → s k = t k) := by
    constructor
    · rintro rfl
      refine ⟨by simp [exchange], by simp [exchange], fun k h1 h2 => ?_⟩
      unfold exchange
      rw [Equiv.swap_apply_of_ne_of_ne (fun h => h1 (congrArg Fin.val h)) (fun h => h2 (congrArg Fin.val h))]
    · rintro ⟨h1, h2, h3⟩
      funext k
      unfold exchange
      by_cases ha : k = ⟨i, by omega⟩
      · subst ha; rw [Equiv.swap_apply_left, h2]
      · by_cases hb : k = ⟨i + 1, hi⟩
        · subst hb; rw [Equiv.swap_apply_right, h1]
        · rw [Equiv.swap_apply_of_ne_of_ne ha hb]
          exact h3 k (fun h => ha (Fin.ext h)) (fun h => hb (Fin.ext h))
  have he : (s = t) ↔ (s ⟨i, by omega⟩ = t ⟨i, by omega⟩ ∧ s ⟨i + 1, hi⟩ = t ⟨i + 1, hi⟩ ∧
      ∀ k : Fin L, k.val ≠ i → k.val ≠ i + 1 → s k = t k) := by
    constructor
    · rintro rfl
      exact ⟨rfl, rfl, fun _ _ _ => rfl⟩
    · rintro ⟨h1, h2, h3⟩
      funext k
      by_cases ha : k = ⟨i, by omega⟩
      · subst ha; exact h1
      · by_cases hb : k = ⟨i + 1, hi⟩
        · subst hb; exact h2
        · exact h3 k (fun h => ha (Fin.ext h)) (fun h => hb (Fin.ext h))
  by_cases hr : ∀ k : Fin L, k.val ≠ i → k.val ≠ i + 1 → s k = t k
  · rw [if_pos hr]
    have hx' : (exchange i hi s = t) ↔ (s ⟨i, by omega⟩ = t ⟨i + 1, hi⟩ ∧ s ⟨i + 1, hi⟩ = t ⟨i, by omega⟩) := by
      rw [hx]; exact ⟨fun h => ⟨h.1, h.2.1⟩, fun h => ⟨h.1, h.2, hr⟩⟩
    have he' : (s = t) ↔ (s ⟨i, by omega⟩ = t ⟨i, by omega⟩ ∧ s ⟨i + 1, hi⟩ = t ⟨i + 1, hi⟩) := by
      rw [he]; exact ⟨fun h => ⟨h.1, h.2.1⟩, fun h => ⟨h.1, h.2, hr⟩⟩
    simp only [hx', he']
    generalize s ⟨i, by omega⟩ = a
    generalize s ⟨i + 1, hi⟩ = b
    generalize t ⟨i, by omega⟩ = c
    generalize t ⟨i + 1, hi⟩ = e
    fin_cases a <;> fin_cases b <;> fin_cases c <;> fin_cases e <;> simp [sigmaX, iSigmaY, sigmaZ] <;> norm_num
  · rw [if_neg hr, if_neg (fun h => hr (hx.1 h).2.2), if_neg (fun h => hr (he.1 h).2.2)]
    simp

/-- The pair term on a vector. -/
theorem pair_mulVec {L i : Nat} (hi : i + 1 < L) (v : (Fin L → Fin 2) → 𝕜) (s : Fin L → Fin 2) :
    ((onPair i sigmaX sigmaX - onPair i iSigmaY iSigmaY + onPair i sigmaZ sigmaZ : Matrix (Fin L → Fin 2) (Fin L → Fin 2) 𝕜) *ᵥ v) s
      = 2 * v (exchange i hi s) - v s := by
  rw [pair_exchange hi]
  simp only [mulVec, dotProduct, sub_mul, sum_sub_distrib]
  simp

theorem pair_herm {L i : Nat} (hi : i + 1 < L) :
    (onPair i sigmaX sigmaX - onPair i iSigmaY iSigmaY + onPair i sigmaZ sigmaZ : Matrix (Fin L → Fin 2) (Fin L → Fin 2) 𝕜).IsHermitian := by
  rw [pair_exchange hi]
  ext s t
  change star ((2 : 𝕜) * (if exchange i hi t = s then 1 else 0) - if t = s then 1 else 0)
    = 2 * (if exchange i hi s = t then 1 else 0) - if s = t then 1 else 0
  have h : (exchange i hi t = s) ↔ (exchange i hi s = t) :=
    ⟨fun h => by rw [← h, exchange_exchange], fun h => by rw [← h, exchange_exchange]⟩
  simp only [h, eq_comm (a := t) (b := s)]
  split_ifs <;> simp

theorem heisenbergH_herm (J : ℝ) (L : Nat) : (heisenbergH J L : Matrix (Fin L → Fin 2) (Fin L → Fin 2) 𝕜).IsHermitian := by
  unfold heisenbergH IsHermitian
  rw [conjTranspose_sum]
  refine sum_congr rfl fun i hi => ?_
  have h := mem_range.1 hi
  rw [conjTranspose_smul, (pair_herm (show i + 1 < L by omega)).eq]
  congr 1
  simp

/-- The exchange lies between `-1` and `1`. -/
theorem exchange_bound {L d i : Nat} (hi : i + 1 < L) (v : (Fin L → Fin d) → 𝕜) :
    |RCLike.re (∑ s, star (v s) * v (exchange i hi s))| ≤ ∑ s, ‖v s‖ ^ 2 := by
  have hsum : ∑ s, ‖v (exchange i hi s)‖ ^ 2 = ∑ s, ‖v s‖ ^ 2 :=
    Fintype.sum_bijective (exchange i hi) (Function.Involutive.bijective (exchange_exchange hi)) _ _ fun _ => rfl
  rw [map_sum]
  refine (abs_sum_le_sum_abs _ _).trans ?_
  have h1 : ∀ s, |RCLike.re (star (v s) * v (exchange i hi s))| ≤ (‖v s‖ ^ 2 + ‖v (exchange i hi s)‖ ^ 2) / 2 := by
    intro s
    refine (RCLike.abs_re_le_norm _).trans ?_
    rw [norm_mul, norm_star]
    nlinarith [sq_nonneg (‖v s‖ - ‖v (exchange i hi s)‖)]
  refine (sum_le_sum fun s _ => h1 s).trans ?_
  rw [← sum_div, sum_add_distrib, hsum]
  linarith

theorem re_star_dot {n : Type} [Fintype n] (v : n → 𝕜) : RCLike.re (∑ s, star (v s) * v s) = ∑ s, ‖v s‖ ^ 2 := by
  rw [map_sum]
  refine sum_congr rfl fun s _ => ?_
  rw [RCLike.star_def, RCLike.conj_mul]
  norm_cast

theorem heisenbergH_bound (J : ℝ) (L : Nat) (hL : 1 ≤ L) (v : (Fin L → Fin 2) → 𝕜) :
    ((L : ℝ) - 1) * min (-J / 4) (3 * J / 4) * ∑ s, ‖v s‖ ^ 2 ≤ expectation (heisenbergH J L) v := by
  have hq : expectation (heisenbergH J L) v = ∑ i ∈ range (L - 1),
      RCLike.re (star v ⬝ᵥ (((-(J : 𝕜) / 4) • (onPair i sigmaX sigmaX - onPair i iSigmaY iSigmaY + onPair i sigmaZ sigmaZ :
        Matrix (Fin L → Fin 2) (Fin L → Fin 2) 𝕜)) *ᵥ v)) := by
    unfold expectation heisenbergH
    rw [sum_mulVec, dotProduct_sum, map_sum]
  have hc : ((L : ℝ) - 1) = ((L - 1 : Nat) : ℝ) := by rw [Nat.cast_sub hL]; simp
  rw [hq, hc, mul_assoc, ← nsmul_eq_mul]
  have := card_nsmul_le_sum (range (L - 1)) (fun i => RCLike.re (star v ⬝ᵥ (((-(J : 𝕜) / 4) •
    (onPair i sigmaX sigmaX - onPair i iSigmaY iSigmaY + onPair i sigmaZ sigmaZ : Matrix (Fin L → Fin 2) (Fin L → Fin 2) 𝕜)) *ᵥ v)))
    (min (-J / 4) (3 * J / 4) * ∑ s, ‖v s‖ ^ 2) ?_
  · rw [card_range] at this
    exact this
  · intro i hi
    have hi' : i + 1 < L := by have := mem_range.1 hi; omega
    have hb := abs_le.1 (exchange_bound hi' v)
    have hval : RCLike.re (star v ⬝ᵥ (((-(J : 𝕜) / 4) • (onPair i sigmaX sigmaX - onPair i iSigmaY iSigmaY + onPair i sigmaZ sigmaZ :
        Matrix (Fin L → Fin 2) (Fin L → Fin 2) 𝕜)) *ᵥ v))
        = -J / 4 * (2 * RCLike.re (∑ s, star (v s) * v (exchange i hi' s)) - ∑ s, ‖v s‖ ^ 2) := by
      rw [smul_mulVec, dotProduct_smul, smul_eq_mul, show (-(J : 𝕜) / 4) = ((-J / 4 : ℝ) : 𝕜) by push_cast; rfl, RCLike.re_ofReal_mul]
      congr 1
      rw [← re_star_dot, show (2 : ℝ) * RCLike.re (∑ s, star (v s) * v (exchange i hi' s)) = RCLike.re (∑ s, 2 * (star (v s) * v (exchange i hi' s))) by
        rw [← mul_sum, show (2 : 𝕜) = ((2 : ℝ) : 𝕜) by push_cast; rfl, RCLike.re_ofReal_mul], ← map_sub, ← sum_sub_distrib]
      congr 1
      unfold dotProduct
      refine sum_congr rfl fun s _ => ?_
      rw [pair_mulVec hi', Pi.star_apply]
      ring
    rw [hval]
    set N := ∑ s, ‖v s‖ ^ 2
    set X := RCLike.re (∑ s, star (v s) * v (exchange i hi' s))
    have hN : 0 ≤ N := sum_nonneg fun _ _ => by positivity
    rcases le_total 0 J with hJ | hJ
    · refine (mul_le_mul_of_nonneg_right (min_le_left _ _) hN).trans ?_
      nlinarith
    · refine (mul_le_mul_of_nonneg_right (min_le_right _ _) hN).trans ?_
      nlinarith

theorem heisenbergH_neg (J : ℝ) (L : Nat) : (heisenbergH (-J) L : Matrix (Fin L → Fin 2) (Fin L → Fin 2) 𝕜) = -heisenbergH J L := by
  unfold heisenbergH
  rw [← sum_neg_distrib]
  refine sum_congr rfl fun i _ => ?_
  rw [← neg_smul]
  congr 1
  push_cast
  ring

theorem heisenbergH_above (J : ℝ) (L : Nat) (hL : 1 ≤ L) (v : (Fin L → Fin 2) → 𝕜) :
    expectation (heisenbergH J L) v ≤ ((L : ℝ) - 1) * max (-J / 4) (3 * J / 4) * ∑ s, ‖v s‖ ^ 2 := by
  have h := heisenbergH_bound (𝕜 := 𝕜) (-J) L hL v
  rw [heisenbergH_neg, expectation_neg] at h
  rw [show max (-J / 4) (3 * J / 4) = -min (- -J / 4) (3 * -J / 4) by
    rw [← max_neg_neg]; congr 1 <;> ring]
  linarith

/-! ### Hubbard -/

theorem fermionAt_conj (L i : Nat) (a : Spin) : (fermionAt L i (cMat a : Matrix (Fin 4) (Fin 4) 𝕜))ᴴ = (annihilate L i a).transpose := by
  unfold fermionAt annihilate
  rw [toMat_F, toMat_ann, jw_transpose _ _ phase_tr]
  unfold jw
  rw [tensorOp_conj]
  apply tensorOp_congr
  intro k _
  split
  · ext a b; fin_cases a <;> fin_cases b <;> simp [phase]
  · split
    · cases a <;> ext a b <;> fin_cases a <;> fin_cases b <;> simp [cMat, cUp, cDn]
    · simp

theorem fermionAt_eq (L i : Nat) (a : Spin) : fermionAt L i (cMat a : Matrix (Fin 4) (Fin 4) 𝕜) = annihilate L i a := by
  unfold fermionAt annihilate
  rw [toMat_F, toMat_ann]

theorem number_eq (L i : Nat) (a : Spin) :
    (fermionAt L i (cMat a : Matrix (Fin 4) (Fin 4) 𝕜))ᴴ * fermionAt L i (cMat a) = onSite i ((cMat a).transpose * cMat a) := by
  rw [fermionAt_conj, fermionAt_eq]
  unfold annihilate
  rw [toMat_F, toMat_ann, jw_transpose _ _ phase_tr, jw_eq _ _ _ phase_sq]

theorem onSite_mul {L d i : Nat} (A B : Matrix (Fin d) (Fin d) 𝕜) :
    (onSite i A * onSite i B : Matrix (Fin L → Fin d) (Fin L → Fin d) 𝕜) = onSite i (A * B) := by
  unfold onSite
  rw [tensorOp_mul]
  apply tensorOp_congr
  intro k _
  split
  · rfl
  · simp

theorem onSite_smul {L d i : Nat} (hi : i < L) (c : 𝕜) (A : Matrix (Fin d) (Fin d) 𝕜) :
    (onSite i (c • A) : Matrix (Fin L → Fin d) (Fin L → Fin d) 𝕜) = c • onSite i A := by
  rw [onSite_update, onSite_update, tensorOp_smul_site _ _ hi]

theorem hubbardH_eq (U mu : ℝ) (L : Nat) : (hubbardH U mu L : Matrix (Fin L → Fin 4) (Fin L → Fin 4) 𝕜) =
        ∑ i ∈ range L, (onSite i ((U : 𝕜) • (cUp.transpose * cUp * (cDn.transpose * cDn))
            - (mu : 𝕜) • (cUp.transpose * cUp + cDn.transpose * cDn))) +
        ∑ i ∈ range (L - 1), (
          ((annihilate L i .up).transpose * annihilate L (i + 1) .up
            + (annihilate L (i + 1) .up).transpose * annihilate L i .up) +
          ((annihilate L i .dn).transpose * annihilate L (i + 1) .dn
            + (annihilate L (i + 1) .dn).transpose * annihilate L i .dn)) := by
  unfold hubbardH
  congr 1
  · refine sum_congr rfl fun i hi => ?_
    have h := mem_range.1 hi
    have h1 := number_eq (𝕜 := 𝕜) L i .up
    have h2 := number_eq (𝕜 := 𝕜) L i .dn
    simp only [cMat] at h1 h2
    have hs : ∀ A B : Matrix (Fin 4) (Fin 4) 𝕜, (onSite i ((U : 𝕜) • A - (mu : 𝕜) • B) : Matrix (Fin L → Fin 4) (Fin L → Fin 4) 𝕜)
        = (U : 𝕜) • onSite i A - (mu : 𝕜) • onSite i B := by
      intro A B
      rw [sub_eq_add_neg, onSite_add h, onSite_smul h, ← neg_smul, onSite_smul h, neg_smul, sub_eq_add_neg]
    rw [h1, h2, onSite_mul, ← onSite_add h, hs]
  · refine sum_congr rfl fun i hi => ?_
    have e := fun i => fermionAt_eq (𝕜 := 𝕜) L i .up
    have e' := fun i => fermionAt_eq (𝕜 := 𝕜) L i .dn
    have c := fun i => fermionAt_conj (𝕜 := 𝕜) L i .up
    have c' := fun i => fermionAt_conj (𝕜 := 𝕜) L i .dn
    simp only [cMat] at e e' c c'
    rw [c, c, c', c', e, e, e', e']

theorem onSite_conj {L d i : Nat} (A : Matrix (Fin d) (Fin d) 𝕜) :
    (onSite i A : Matrix (Fin L → Fin d) (Fin L → Fin d) 𝕜)ᴴ = onSite i Aᴴ := by
  unfold onSite
  rw [tensorOp_conj]
  apply tensorOp_congr
  intro k _
  split
  · rfl
  · simp

theorem hubbardH_herm (U mu : ℝ) (L : Nat) : (hubbardH U mu L : Matrix (Fin L → Fin 4) (Fin L → Fin 4) 𝕜).IsHermitian := by
  have hx : ∀ X Y : Matrix (Fin L → Fin 4) (Fin L → Fin 4) 𝕜, (Xᴴ * Y + Yᴴ * X).IsHermitian := by
    intro X Y
    unfold IsHermitian
    rw [conjTranspose_add, conjTranspose_mul, conjTranspose_mul, conjTranspose_conjTranspose, conjTranspose_conjTranspose, add_comm]
  have hU : star (U : 𝕜) = U := by simp
  have hm : star (mu : 𝕜) = mu := by simp
  unfold hubbardH IsHermitian
  rw [conjTranspose_add, conjTranspose_sum, conjTranspose_sum]
  congr 1
  · refine sum_congr rfl fun i hi => ?_
    have h1 := number_eq (𝕜 := 𝕜) L i .up
    have h2 := number_eq (𝕜 := 𝕜) L i .dn
    simp only [cMat] at h1 h2
    rw [conjTranspose_sub, conjTranspose_smul, conjTranspose_smul, conjTranspose_add, conjTranspose_mul, hU, hm]
    rw [(isHermitian_conjTranspose_mul_self (fermionAt L i cUp)).eq, (isHermitian_conjTranspose_mul_self (fermionAt L i cDn)).eq]
    rw [h1, h2, onSite_mul, onSite_mul]
    congr 3
    ext a b; fin_cases a <;> fin_cases b <;> simp [cUp, cDn, Matrix.mul_apply, Fin.sum_univ_four]
  · refine sum_congr rfl fun i _ => ?_
    exact (IsHermitian.add (hx _ _) (hx _ _)).eq

end DM
end QuantiT
