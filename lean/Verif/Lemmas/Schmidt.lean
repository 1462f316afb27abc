import Verif.Lemmas.DeadCut
/-
The values of a decomposition as the overlaps that products of a given rank can reach.
-/
namespace QuantiT
namespace DM
open Finset Spec MP
variable {𝕜 : Type} [RCLike 𝕜]

/-- The values `lst` of the tensor `θ` between its first two and its last two indices. -/
structure Schmidt (θ : Blk 𝕜) (l s t r : Nat) (lst : List ℝ) : Prop where
  sorted : lst.Pairwise (· ≥ ·)
  nonneg : ∀ x ∈ lst, 0 ≤ x
  total : (lst.map (· ^ 2)).sum = 1
  attained : ∀ k, 1 ≤ k → k ≤ lst.length → ∃ x y : List Nat → Nat → 𝕜,
    let χ : Blk 𝕜 := ⟨[l, s, t, r], fun o => terms x y k (o.take 2) (o.drop 2)⟩
    ‖toV [l, s, t, r] χ‖ = 1 ∧ ‖inner 𝕜 (toV [l, s, t, r] χ) (toV [l, s, t, r] θ)‖ ^ 2 = ((lst.take k).map (· ^ 2)).sum ∧
    (∀ a b, a < l → b < s → (∀ f ∈ configs [t, r], θ.f ([a, b] ++ f) = 0) → ∀ f ∈ configs [t, r], terms x y k [a, b] f = 0) ∧
    (∀ a b, a < t → b < r → (∀ e ∈ configs [l, s], θ.f (e ++ [a, b]) = 0) → ∀ e ∈ configs [l, s], terms x y k e [a, b] = 0)
  best : ∀ (χ : Blk 𝕜) (k : Nat) (x y : List Nat → Nat → 𝕜), ‖toV [l, s, t, r] χ‖ = 1 →
    (∀ o ∈ configs [l, s, t, r], χ.f o = terms x y k (o.take 2) (o.drop 2)) →
    ‖inner 𝕜 (toV [l, s, t, r] χ) (toV [l, s, t, r] θ)‖ ^ 2 ≤ ((lst.take k).map (· ^ 2)).sum

theorem sum_take_sq (lst : List ℝ) (k : Nat) : ((lst.take k).map (· ^ 2)).sum = ∑ m ∈ range k, lst.getD m 0 ^ 2 := by
  induction k generalizing lst with
  | zero => simp
  | succ k ih =>
    cases lst with
    | nil => simp
    | cons a l =>
      rw [sum_range_succ']
      simp only [List.take_succ_cons, List.map_cons, List.sum_cons, List.getD_cons_succ, List.getD_cons_zero]
      rw [ih l, add_comm]

open Classical in
theorem schmidt {θ : Blk 𝕜} {l s t r : Nat} (hn : ‖toV [l, s, t, r] θ‖ = 1)
    {U V : List Nat → Nat → 𝕜} {σ : Nat → ℝ} {K : Nat} (hσ0 : ∀ k, k < K → 0 ≤ σ k)
    (hU : ∀ a b, a < K → b < K → ∑ e ∈ configs [l, s], star (U e a) * U e b = if a = b then 1 else 0)
    (hV : ∀ a b, a < K → b < K → ∑ e ∈ configs [t, r], star (V e a) * V e b = if a = b then 1 else 0)
    (hA : ∀ e ∈ configs [l, s], ∀ f ∈ configs [t, r], θ.f (e ++ f) = ∑ k ∈ range K, U e k * (σ k : 𝕜) * star (V f k))
    {lst : List ℝ} (hp : lst.Perm ((List.range K).map σ)) (hso : lst.Pairwise (· ≥ ·)) : Schmidt θ l s t r lst := by
  have hlen : lst.length = K := by simpa using hp.length_eq
  obtain ⟨π, p1, p2⟩ := sort_order hp
  have hπ : ∀ i, i < K → π i < K := by
    intro i hi
    exact List.mem_range.1 (p1.subset (List.mem_map.2 ⟨i, List.mem_range.2 hi, rfl⟩))
  have hπinj : ∀ a b, a < K → b < K → π a = π b → a = b := by
    intro a b ha hb hab
    exact List.inj_on_of_nodup_map (p1.nodup_iff.2 List.nodup_range) (List.mem_range.2 ha) (List.mem_range.2 hb) hab
  -- the values in decreasing order
  let ρ : Nat → ℝ := fun i => lst.getD i 0
  have hρ : ∀ i, i < K → ρ i = σ (π i) := p2
  have hρ0 : ∀ i, 0 ≤ ρ i := by
    intro i
    by_cases hi : i < K
    · rw [hρ i hi]; exact hσ0 _ (hπ i hi)
    · show 0 ≤ lst.getD i 0
      rw [List.getD_eq_default _ _ (by omega)]
  have hρa : Antitone ρ := by
    intro i j hij
    by_cases hj : j < K
    · rcases Nat.lt_or_eq_of_le hij with h | h
      · show lst.getD j 0 ≤ lst.getD i 0
        have := List.pairwise_iff_getElem.1 hso i j (by omega) (by omega) h
        simpa [List.getD, hlen, hj, show i < K by omega] using this
      · rw [h]
    · show lst.getD j 0 ≤ _
      rw [List.getD_eq_default _ _ (by omega)]
      exact hρ0 i
  let u : Blk 𝕜 := ⟨[l, s, K], fun o => U (o.take 2) (π (o.getD 2 0))⟩
  let v : Blk 𝕜 := ⟨[t, r, K], fun o => V (o.take 2) (π (o.getD 2 0))⟩
  let d : Blk 𝕜 := ⟨[K], fun o => (ρ (o.getD 0 0) : 𝕜)⟩
  have two : ∀ {a b : Nat} {e : List Nat}, e ∈ configs [a, b] → ∃ x y, e = [x, y] := by
    intro a b e he
    obtain ⟨x, o1, _, ho1, rfl⟩ := List.forall₂_cons_right_iff.1 (mem_configs.1 he)
    obtain ⟨y, o2, _, ho2, rfl⟩ := List.forall₂_cons_right_iff.1 ho1
    cases ho2
    exact ⟨x, y, rfl⟩
  have hu : ∀ e ∈ configs [l, s], ∀ m, u.f (e ++ [m]) = U e (π m) := by
    intro e he m
    obtain ⟨x, y, rfl⟩ := two he
    rfl
  have hv : ∀ e ∈ configs [t, r], ∀ m, v.f (e ++ [m]) = V e (π m) := by
    intro e he m
    obtain ⟨x, y, rfl⟩ := two he
    rfl
  have a6 : ∀ a b, a < K → b < K → ∑ e ∈ configs [l, s], star (u.f (e ++ [a])) * u.f (e ++ [b]) = if a = b then 1 else 0 := by
    intro a b ha hb
    rw [sum_congr rfl fun e he => by rw [hu e he, hu e he], hU _ _ (hπ a ha) (hπ b hb)]
    by_cases h : a = b
    · simp [h]
    · rw [if_neg h, if_neg fun h' => h (hπinj a b ha hb h')]
  have a7 : ∀ a b, a < K → b < K → ∑ e ∈ configs [t, r], star (v.f (e ++ [a])) * v.f (e ++ [b]) = if a = b then 1 else 0 := by
    intro a b ha hb
    rw [sum_congr rfl fun e he => by rw [hv e he, hv e he], hV _ _ (hπ a ha) (hπ b hb)]
    by_cases h : a = b
    · simp [h]
    · rw [if_neg h, if_neg fun h' => h (hπinj a b ha hb h')]
  have b1 : ∀ k, k < K → d.f [k] = (ρ k : 𝕜) := fun k _ => rfl
  have b2 : ∀ e ∈ configs [l, s], ∀ f ∈ configs [t, r], θ.f (e ++ f) = svdTerms u d v K e f := by
    intro e he f hf
    rw [hA e he f hf, ← sum_order p1]
    unfold svdTerms
    refine sum_congr rfl fun m hm => ?_
    rw [hu e he, hv f hf, b1 m (mem_range.1 hm), hρ m (mem_range.1 hm)]
  have hdist := LA.distSq_cut a6 a7 b1 b2
  have htot : ∑ m ∈ range K, ρ m ^ 2 = 1 := by
    have h := hdist 0 (Nat.zero_le _)
    rw [Nat.Ico_zero_eq_range] at h
    rw [← h, distSq_toV]
    have : toV [l, s, t, r] (⟨[l, s, t, r], fun o => svdTerms u d v 0 (o.take 2) (o.drop 2)⟩ : Blk 𝕜) = 0 := by
      ext o; simp [toV, svdTerms]
    rw [this, sub_zero, hn]; norm_num
  have hbest : ∀ j x y, ∑ m ∈ Ico j K, ρ m ^ 2 ≤ distSq θ [l, s] [t, r] (terms x y j) := by
    intro j x y
    refine LA.eckart_young (configs [l, s]) (configs [t, r]) K (fun e f => θ.f (e ++ f)) (fun e m => u.f (e ++ [m])) ρ
      (fun f m => v.f (f ++ [m])) hρa hρ0 a6 a7 ?_ j x y
    intro e he f hf
    rw [b2 e he f hf]
    unfold svdTerms
    exact sum_congr rfl fun m hm => by rw [b1 m (mem_range.1 hm)]
  have hbest0 : ∀ (χ : Blk 𝕜) (k' : Nat) (x y : List Nat → Nat → 𝕜), ‖toV [l, s, t, r] χ‖ = 1 →
        (∀ o ∈ configs [l, s, t, r], χ.f o = terms x y k' (o.take 2) (o.drop 2)) →
        ‖inner 𝕜 (toV [l, s, t, r] χ) (toV [l, s, t, r] θ)‖ ^ 2 ≤ 1 - ∑ m ∈ Ico k' K, ρ m ^ 2 := by
    intro χ k' x y hχ hx
    exact overlap_le_of_dist (toV [l, s, t, r] θ) (toV [l, s, t, r] χ) hn hχ _ (by
      intro z
      have h1 := hbest k' (fun e m => z * x e m) y
      rw [distSq_toV] at h1
      have e : toV [l, s, t, r] (⟨[l, s, t, r], fun o => terms (fun e m => z * x e m) y k' (o.take 2) (o.drop 2)⟩ : Blk 𝕜)
          = z • toV [l, s, t, r] χ := by
        ext o
        show terms (fun e m => z * x e m) y k' (o.1.take 2) (o.1.drop 2) = z * χ.f o.1
        rw [hx o.1 o.2]
        unfold terms
        rw [mul_sum]
        exact sum_congr rfl fun m _ => by ring
      rw [e] at h1
      exact h1)
  have htake : ∀ k, k ≤ K → ((lst.take k).map (· ^ 2)).sum = 1 - ∑ m ∈ Ico k K, ρ m ^ 2 := by
    intro k hk
    rw [sum_take_sq, ← htot, ← sum_range_add_sum_Ico (fun m => ρ m ^ 2) hk]
    ring
  have hρ00 : 0 < ρ 0 := by
    rcases (hρ0 0).lt_or_eq with h | h
    · exact h
    · have : ∑ m ∈ range K, ρ m ^ 2 = 0 := sum_eq_zero fun m _ => by
        have h1 := hρa (Nat.zero_le m)
        have h2 := hρ0 m
        have : ρ m = 0 := by linarith
        rw [this]; norm_num
      rw [htot] at this
      norm_num at this
  refine ⟨hso, ?_, ?_, ?_, ?_⟩
  · intro x hx
    obtain ⟨k, hk, rfl⟩ := List.mem_map.1 (hp.subset hx)
    exact hσ0 k (List.mem_range.1 hk)
  · have := htake K le_rfl
    rw [List.take_of_length_le (by omega)] at this
    simpa using this
  · intro k hk1 hk2
    have hkK : k ≤ K := by omega
    have hpos : 0 < ∑ m ∈ range k, ρ m ^ 2 := by
      refine lt_of_lt_of_le (pow_pos hρ00 2) ?_
      exact single_le_sum (f := fun m => ρ m ^ 2) (fun m _ => sq_nonneg _) (mem_range.2 hk1)
    let c : ℝ := √(∑ m ∈ range k, ρ m ^ 2)
    have hc : 0 < c := Real.sqrt_pos.2 hpos
    have hc2 : c ^ 2 = ∑ m ∈ range k, ρ m ^ 2 := Real.sq_sqrt hpos.le
    have hc' : (c : 𝕜) ≠ 0 := by exact_mod_cast hc.ne'
    let x : List Nat → Nat → 𝕜 := fun e m => U e (π m) * ((ρ m / c : ℝ) : 𝕜)
    let y : List Nat → Nat → 𝕜 := fun f m => star (V f (π m))
    have hcφ : (c : 𝕜) • toV [l, s, t, r] (⟨[l, s, t, r], fun o => terms x y k (o.take 2) (o.drop 2)⟩ : Blk 𝕜)
        = toV [l, s, t, r] (⟨[l, s, t, r], fun o => svdTerms u d v k (o.take 2) (o.drop 2)⟩ : Blk 𝕜) := by
      ext o
      obtain ⟨o, ho⟩ := o
      show (c : 𝕜) * terms x y k (o.take 2) (o.drop 2) = svdTerms u d v k (o.take 2) (o.drop 2)
      have ho' := mem_configs.1 ho
      unfold InRange at ho'
      obtain ⟨a, o1, ha, ho1, rfl⟩ := List.forall₂_cons_right_iff.1 ho'
      obtain ⟨b, o2, hb, ho2, rfl⟩ := List.forall₂_cons_right_iff.1 ho1
      have he : [a, b] ∈ configs [l, s] := mem_configs.2 (.cons ha (.cons hb .nil))
      have hf : o2 ∈ configs [t, r] := mem_configs.2 ho2
      show (c : 𝕜) * terms x y k [a, b] o2 = svdTerms u d v k [a, b] o2
      unfold terms svdTerms
      rw [mul_sum]
      refine sum_congr rfl fun m hm => ?_
      rw [hu _ he, hv _ hf, b1 m (by have := mem_range.1 hm; omega)]
      show (c : 𝕜) * (U [a, b] (π m) * ((ρ m / c : ℝ) : 𝕜) * star (V o2 (π m))) = _
      push_cast
      field_simp
    have hφn : ‖toV [l, s, t, r] (⟨[l, s, t, r], fun o => terms x y k (o.take 2) (o.drop 2)⟩ : Blk 𝕜)‖ = 1 := by
      have h := LA.distSq_cut (A := (⟨[l, s, t, r], fun o => svdTerms u d v k (o.take 2) (o.drop 2)⟩ : Blk 𝕜)) (left := [l, s]) (right := [t, r]) (K := k)
        (u := u) (d := d) (v := v) (fun a b ha hb => a6 a b (by omega) (by omega))
        (fun a b ha hb => a7 a b (by omega) (by omega)) (fun k hk => b1 k (by omega)) (by
          intro e he f hf
          obtain ⟨x, y, rfl⟩ := two he
          rfl) 0 (Nat.zero_le _)
      rw [Nat.Ico_zero_eq_range, distSq_toV] at h
      have h0 : toV [l, s, t, r] (⟨[l, s, t, r], fun o => svdTerms u d v 0 (o.take 2) (o.drop 2)⟩ : Blk 𝕜) = 0 := by
        ext o; simp [toV, svdTerms]
      rw [h0, sub_zero, ← hcφ, norm_smul, RCLike.norm_ofReal, abs_of_pos hc, mul_pow, ← hc2] at h
      have : ‖toV [l, s, t, r] (⟨[l, s, t, r], fun o => terms x y k (o.take 2) (o.drop 2)⟩ : Blk 𝕜)‖ ^ 2 = 1 := by
        have hcc : c ^ 2 ≠ 0 := by positivity
        exact mul_left_cancel₀ hcc (by rw [h, mul_one])
      exact (pow_eq_one_iff_of_nonneg (norm_nonneg _) (by norm_num)).1 this
    have hδ : ‖toV [l, s, t, r] θ - (c : 𝕜) • toV [l, s, t, r] (⟨[l, s, t, r], fun o => terms x y k (o.take 2) (o.drop 2)⟩ : Blk 𝕜)‖ ^ 2 = 1 - c ^ 2 := by
      have := htake k hkK
      rw [sum_take_sq] at this
      rw [hcφ, ← distSq_toV, hdist k hkK, hc2]
      linarith
    refine ⟨x, y, hφn, le_antisymm ?_ ?_, ?_, ?_⟩
    · rw [htake k hkK]
      exact hbest0 _ k x y hφn fun _ _ => rfl
    · have h1 := re_overlap_of_dist _ _ hn hφn c hc hδ
      rw [sum_take_sq]
      refine le_trans hc2.symm.le ?_
      have h3 := RCLike.norm_sq_eq_def (z := inner 𝕜 (toV [l, s, t, r] (⟨[l, s, t, r], fun o => terms x y k (o.take 2) (o.drop 2)⟩ : Blk 𝕜)) (toV [l, s, t, r] θ))
      rw [h3, h1]
      nlinarith [sq_nonneg (RCLike.im (inner 𝕜 (toV [l, s, t, r] (⟨[l, s, t, r], fun o => terms x y k (o.take 2) (o.drop 2)⟩ : Blk 𝕜)) (toV [l, s, t, r] θ)))]
    · intro a b ha hb h0 f hf
      have he : [a, b] ∈ configs [l, s] := mem_configs.2 (.cons ha (.cons hb .nil))
      refine sum_eq_zero fun m hm => ?_
      have hm := mem_range.1 hm
      have h1 := hπ m (by omega)
      have e1 : ∑ f ∈ configs [t, r], θ.f ([a, b] ++ f) * V f (π m) = U [a, b] (π m) * (σ (π m) : 𝕜) := by
        rw [sum_congr rfl fun f hf => by rw [hA _ he f hf, sum_mul], sum_comm]
        rw [sum_eq_single (π m)]
        · rw [sum_congr rfl fun f _ => mul_assoc (U [a, b] (π m) * (σ (π m) : 𝕜)) (star (V f (π m))) (V f (π m)), ← mul_sum, hV _ _ h1 h1, if_pos rfl, mul_one]
        · intro m' hm' hne
          rw [sum_congr rfl fun f _ => mul_assoc (U [a, b] m' * (σ m' : 𝕜)) (star (V f m')) (V f (π m)), ← mul_sum, hV _ _ (mem_range.1 hm') h1, if_neg hne, mul_zero]
        · intro hm'; exact absurd (mem_range.2 h1) hm'
      rw [sum_eq_zero fun f hf => by rw [h0 f hf, zero_mul]] at e1
      show U [a, b] (π m) * ((ρ m / c : ℝ) : 𝕜) * y f m = 0
      rw [hρ m (by omega)]
      push_cast
      rw [mul_div_assoc', ← e1]
      simp
    · intro a b ha hb h0 e he
      have hf : [a, b] ∈ configs [t, r] := mem_configs.2 (.cons ha (.cons hb .nil))
      refine sum_eq_zero fun m hm => ?_
      have hm := mem_range.1 hm
      have h1 := hπ m (by omega)
      have e1 : ∑ e ∈ configs [l, s], star (U e (π m)) * θ.f (e ++ [a, b]) = (σ (π m) : 𝕜) * star (V [a, b] (π m)) := by
        rw [sum_congr rfl fun e he => by rw [hA e he _ hf, mul_sum], sum_comm]
        rw [sum_eq_single (π m)]
        · rw [sum_congr rfl fun e _ => show star (U e (π m)) * (U e (π m) * (σ (π m) : 𝕜) * star (V [a, b] (π m)))
              = star (U e (π m)) * U e (π m) * ((σ (π m) : 𝕜) * star (V [a, b] (π m))) by ring, ← sum_mul, hU _ _ h1 h1, if_pos rfl, one_mul]
        · intro m' hm' hne
          rw [sum_congr rfl fun e _ => show star (U e (π m)) * (U e m' * (σ m' : 𝕜) * star (V [a, b] m'))
              = star (U e (π m)) * U e m' * ((σ m' : 𝕜) * star (V [a, b] m')) by ring, ← sum_mul, hU _ _ h1 (mem_range.1 hm'), if_neg hne.symm, zero_mul]
        · intro hm'; exact absurd (mem_range.2 h1) hm'
      rw [sum_eq_zero fun e he => by rw [h0 e he, mul_zero]] at e1
      show U e (π m) * ((ρ m / c : ℝ) : 𝕜) * star (V [a, b] (π m)) = 0
      rw [hρ m (by omega)]
      push_cast
      rw [show U e (π m) * ((σ (π m) : 𝕜) / (c : 𝕜)) * star (V [a, b] (π m)) = U e (π m) * (((σ (π m) : 𝕜) * star (V [a, b] (π m))) / (c : 𝕜)) by ring, ← e1]
      simp
  · intro χ k x y hχ hx
    have h := hbest0 χ k x y hχ hx
    by_cases hk : k ≤ K
    · rw [htake k hk]; exact h
    · have := htake K le_rfl
      rw [List.take_of_length_le (by omega)] at this ⊢
      rw [this, Ico_eq_empty (by omega : ¬ K < K)]
      rw [Ico_eq_empty (by omega : ¬ k < K)] at h
      exact h

open Classical in
theorem DeadBond.count {thr : ℝ} {U U' V V' : List Nat → Nat → 𝕜} {σ σ' : Nat → ℝ} {left right : List Nat} {K K' : Nat}
    {live : Nat → Prop} {old : Nat → Nat} (h : DeadBond thr U U' V V' σ σ' left right K K' live old) {lst : List ℝ}
    (hp : lst.Perm ((List.range K).map σ)) : ((range K').filter live).card = (lst.filter fun x => decide (thr < x)).length := by
  have h1 := h.sum_live (fun k => if live k then 1 else 0) (fun _ => 1) (fun k _ h => if_pos h) (fun k _ h => if_neg h)
  rw [card_filter, h1, sum_const, smul_eq_mul, mul_one, (hp.filter _).length_eq, List.filter_map, List.length_map]
  show ((range K).filter fun k => thr < σ k).card = _
  rw [Finset.card, Finset.filter_val]
  show Multiset.card (Multiset.filter (fun k => thr < σ k) (Multiset.range K)) = _
  rw [← Multiset.coe_range, Multiset.filter_coe, Multiset.coe_card]
  rfl

end DM
end QuantiT
