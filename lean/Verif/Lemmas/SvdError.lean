import Verif.Lemmas.DeadCut
import Verif.Lemmas.EckartYoung
import Verif.Props.TruncateProduct
/-
The terms of an SVD above a threshold are the best approximation with that many terms, in whatever order the values come.
-/
namespace QuantiT
namespace LA
open Finset
variable {𝕜 : Type} [RCLike 𝕜]

theorem eckart_young_above {ι κ : Type} (I : Finset ι) (J : Finset κ) (K : ℕ) (A : ι → κ → 𝕜) (u : ι → ℕ → 𝕜) (σ : ℕ → ℝ) (v : κ → ℕ → 𝕜)
    (hσ0 : ∀ k < K, 0 ≤ σ k)
    (hu : ∀ a b, a < K → b < K → ∑ i ∈ I, star (u i a) * u i b = if a = b then 1 else 0)
    (hv : ∀ a b, a < K → b < K → ∑ j ∈ J, star (v j a) * v j b = if a = b then 1 else 0)
    (hA : ∀ i ∈ I, ∀ j ∈ J, A i j = ∑ k ∈ range K, u i k * (σ k : 𝕜) * star (v j k)) (thr : ℝ) (p : ℕ)
    (hp : p ≤ (((List.range K).map σ).filter fun x => decide (thr < x)).length) (x : ι → ℕ → 𝕜) (y : κ → ℕ → 𝕜) :
    ∑ k ∈ range K, (if thr < σ k then 0 else σ k ^ 2) ≤ ∑ i ∈ I, ∑ j ∈ J, ‖A i j - ∑ m ∈ range p, x i m * y j m‖ ^ 2 := by
  set lst := ((List.range K).map σ).insertionSort (· ≥ ·) with hl
  have hperm : lst.Perm ((List.range K).map σ) := List.perm_insertionSort _ _
  have hsort : lst.Pairwise (· ≥ ·) := List.pairwise_insertionSort _ _
  have hlen : lst.length = K := by rw [hperm.length_eq]; simp
  obtain ⟨π, hπ, hlst⟩ := DM.sort_order hperm
  have hinto : ∀ i, i < K → π i < K := fun i hi => by
    have : π i ∈ List.range K := hπ.subset (List.mem_map.2 ⟨i, List.mem_range.2 hi, rfl⟩)
    exact List.mem_range.1 this
  have hinj : ∀ i j, i < K → j < K → π i = π j → i = j := by
    intro i j hi hj h
    have hnd : ((List.range K).map π).Nodup := hπ.nodup_iff.2 List.nodup_range
    exact List.inj_on_of_nodup_map hnd (List.mem_range.2 hi) (List.mem_range.2 hj) h
  let ρ : ℕ → ℝ := fun i => if i < K then σ (π i) else 0
  have hρ : ∀ i, i < K → ρ i = σ (π i) := fun i hi => if_pos hi
  have hmono : ∀ i j, i ≤ j → j < K → ρ j ≤ ρ i := by
    intro i j hij hj
    rw [hρ j hj, hρ i (by omega), ← hlst j hj, ← hlst i (by omega)]
    rcases Nat.eq_or_lt_of_le hij with rfl | h
    · exact le_rfl
    · have := List.pairwise_iff_getElem.1 hsort i j (by omega) (by omega) h
      simpa [List.getD, hlen, hj, show i < K by omega] using this
  have hρ0 : ∀ i, 0 ≤ ρ i := by
    intro i
    by_cases h : i < K
    · rw [hρ i h]
      exact hσ0 _ (hinto i h)
    · simp [ρ, h]
  have hanti : Antitone ρ := by
    intro i j hij
    by_cases h : j < K
    · exact hmono i j hij h
    · rw [show ρ j = 0 from if_neg h]
      exact hρ0 i
  have hey := eckart_young I J K A (fun i k => u i (π k)) ρ (fun j k => v j (π k)) hanti hρ0
    (fun a b ha hb => by
      rw [hu _ _ (hinto a ha) (hinto b hb)]
      exact if_congr ⟨hinj a b ha hb, fun h => by rw [h]⟩ rfl rfl)
    (fun a b ha hb => by
      rw [hv _ _ (hinto a ha) (hinto b hb)]
      exact if_congr ⟨hinj a b ha hb, fun h => by rw [h]⟩ rfl rfl)
    (fun i hi j hj => by
      rw [hA i hi j hj, ← DM.sum_order hπ]
      exact sum_congr rfl fun k hk => by rw [hρ k (mem_range.1 hk)]) p x y
  refine le_trans ?_ hey
  -- the values above the threshold come first
  have hcount : (((List.range K).map σ).filter fun x => decide (thr < x)).length = ((List.range K).filter fun i => decide (thr < ρ i)).length := by
    have e1 : (List.range K).map ρ = ((List.range K).map π).map σ := by
      rw [List.map_map]
      exact List.map_congr_left fun i hi => hρ i (List.mem_range.1 hi)
    have e2 : ((List.range K).map ρ).Perm ((List.range K).map σ) := by
      rw [e1]
      exact hπ.map σ
    rw [← (e2.filter _).length_eq, List.filter_map, List.length_map]
    rfl
  rw [hcount] at hp
  have hpre := BT.filter_prefix (n := K) (p := fun i => decide (thr < ρ i)) (fun i j hij hj h => by
    have := hmono i j hij hj
    simp only [decide_eq_true_eq] at h ⊢
    exact lt_of_lt_of_le h this)
  simp only [decide_eq_true_eq] at hpre
  rw [← DM.sum_order hπ]
  have : ∑ i ∈ range K, (if thr < σ (π i) then 0 else σ (π i) ^ 2) = ∑ i ∈ (range K).filter (fun i => ¬ thr < ρ i), ρ i ^ 2 := by
    rw [sum_filter]
    refine sum_congr rfl fun i hi => ?_
    rw [hρ i (mem_range.1 hi)]
    by_cases h : thr < σ (π i) <;> simp [h]
  rw [this]
  refine sum_le_sum_of_subset_of_nonneg ?_ fun i _ _ => sq_nonneg _
  intro i hi
  obtain ⟨h1, h2⟩ := mem_filter.1 hi
  have h1 := mem_range.1 h1
  rw [hpre i h1] at h2
  exact mem_Ico.2 ⟨by omega, h1⟩

end LA
end QuantiT
