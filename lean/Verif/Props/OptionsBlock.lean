import Verif.Props.BlockCutEx
/-
The limits of the bond in the block search (C124): they hold unless values coincide.
-/
namespace QuantiT
namespace BN
open Finset Spec BT MP
variable {G 𝕜 : Type} [RCLike 𝕜]

/-- No two values of the decreasing list coincide up to the relative precision `2 * eps`. -/
def Apart (eps : ℝ) (lst : List ℝ) : Prop := ∀ i j, i < j → j < lst.length → lst.getD j 0 ≤ (1 - 2 * eps) * lst.getD i 0

open Classical in
/-- Values apart from each other: the `K`th is exceeded, or met, by at most `K` values. -/
theorem apart_count {eps : ℝ} {lst : List ℝ} (hn : ∀ x ∈ lst, 0 ≤ x) (he : eps ≤ 1 / 2) (ha : Apart eps lst) (K : Nat) (hK : 1 ≤ K) :
    (lst.filter fun x => decide ((1 - 2 * eps) * lst.getD (K - 1) 0 < x)).length ≤ K := by
  rcases Nat.lt_or_ge (K - 1) lst.length with h | h
  · rw [← List.take_append_drop K lst, List.filter_append, List.length_append]
    have h2 : ((lst.drop K).filter fun x => decide ((1 - 2 * eps) * (lst.take K ++ lst.drop K).getD (K - 1) 0 < x)) = [] := by
      rw [List.filter_eq_nil_iff]
      intro x hx
      rw [List.take_append_drop, decide_eq_true_eq, not_lt]
      obtain ⟨j, hj, rfl⟩ := List.mem_iff_getElem.1 hx
      rw [List.length_drop] at hj
      have h3 := ha (K - 1) (K + j) (by omega) (by omega)
      rw [List.getElem_drop]
      rwa [List.getD_eq_getElem _ _ (by omega : K + j < lst.length)] at h3
    rw [h2, List.length_nil, Nat.add_zero]
    refine (List.length_filter_le _ _).trans ?_
    rw [List.length_take]
    omega
  · exact (List.length_filter_le _ _).trans (by omega)

open Classical in
/-- Values that coincide with the largest are all counted. -/
theorem tied_count {eps : ℝ} {lst : List ℝ} (hs : lst.Pairwise (· ≥ ·)) (hn : ∀ x ∈ lst, 0 ≤ x) (h1 : (lst.map (· ^ 2)).sum = 1)
    (he : 0 < eps) (he' : eps ≤ 1 / 2) (M K : Nat) (hK : 1 ≤ K)
    (ht : ∀ i, i ≤ M → lst.getD i 0 = lst.getD 0 0) :
    M < (lst.filter fun x => decide ((1 - 2 * eps) * lst.getD (K - 1) 0 < x)).length := by
  have h0 : 0 < lst.getD 0 0 := by
    rcases lst with _ | ⟨a, l⟩
    · simp at h1
    · simp only [List.getD_cons_zero]
      rcases (hn a (List.mem_cons_self ..)).lt_or_eq with h | h
      · exact h
      · exfalso
        have hz : ∀ x ∈ a :: l, x = 0 := by
          intro x hx
          refine le_antisymm ?_ (hn x hx)
          rcases List.mem_cons.1 hx with rfl | hx
          · exact h.ge
          · rw [h]; exact (List.pairwise_cons.1 hs).1 x hx
        have : ((a :: l).map (· ^ 2)).sum = 0 := by
          refine List.sum_eq_zero fun y hy => ?_
          obtain ⟨x, hx, rfl⟩ := List.mem_map.1 hy
          simp [hz x hx]
        rw [this] at h1
        norm_num at h1
  have hlen : M < lst.length := by
    by_contra hc
    have := ht M le_rfl
    rw [List.getD_eq_default _ _ (by omega)] at this
    linarith
  have hle : lst.getD (K - 1) 0 ≤ lst.getD 0 0 := by
    rcases Nat.lt_or_ge (K - 1) lst.length with h | h
    · rcases Nat.eq_zero_or_pos (K - 1) with h' | h'
      · rw [h']
      · rw [List.getD_eq_getElem _ _ h, List.getD_eq_getElem _ _ (by omega : 0 < lst.length)]
        exact List.pairwise_iff_getElem.1 hs 0 (K - 1) (by omega) h h'
    · rw [List.getD_eq_default _ _ h]; exact h0.le
  have hall : (lst.take (M + 1)).filter (fun x => decide ((1 - 2 * eps) * lst.getD (K - 1) 0 < x)) = lst.take (M + 1) := by
    rw [List.filter_eq_self]
    intro x hx
    obtain ⟨i, hi, rfl⟩ := List.mem_iff_getElem.1 hx
    rw [List.length_take] at hi
    have hi' := ht i (by omega)
    rw [List.getElem_take, decide_eq_true_eq, ← List.getD_eq_getElem _ 0 (by omega : i < lst.length), hi']
    have hk0 : 0 ≤ lst.getD (K - 1) 0 := by
      rcases Nat.lt_or_ge (K - 1) lst.length with h | h
      · rw [List.getD_eq_getElem _ _ h]; exact hn _ (List.getElem_mem _)
      · rw [List.getD_eq_default _ _ h]
    nlinarith [mul_pos he h0]
  have hsub := ((List.take_sublist (M + 1) lst).filter fun x => decide ((1 - 2 * eps) * lst.getD (K - 1) 0 < x)).length_le
  rw [hall, List.length_take] at hsub
  omega

/-- **C124.**  An update of the block search: the bond is not larger than the larger limit (`maximum_bond` unless `minimum_bond` is above it) when
no two values at the bond coincide up to the relative precision of the truncation; when the largest value is met more often than the limit,
all these are kept and the bond is larger. -/
theorem C124_block_partial [AddCommGroup G] [LinearOrder G] (late : Bool) (Ws s0 s : List (BT G 𝕜))
    {fac : Blk 𝕜 → Blk 𝕜 × Blk 𝕜 × Blk 𝕜} (hfac : DenseSvd fac) (eps cutoff : ℝ) (he0 : 0 < eps) (he1 : eps ≤ 1 / 2) (hcut : 0 ≤ cutoff)
    (minB maxB : Nat) (hmin : 1 ≤ minB ∨ cutoff < 1 ∧ 1 ≤ maxB) (o : Nat) (fwd : Bool) (hF : BlockFit s Ws s) (h0 : StartChain s0 s) (hpW : AllPositive Ws)
    (hc : Closed (s.map denseOf)) (hcW : Closed (Ws.map denseOf))
    (hl : late = false ∨ chargeAt (leftDim Ws) 0 = 0 ∧ chargeAt (rightDim Ws) 0 = 0) (hr : Neutral Ws)
    (hH : HermitianOp (Ws.map denseOf) (phys (s.map denseOf))) (ho : o + 1 < s.length)
    (hcan : PairSemi (s.map denseOf) o) (hn : normSq (s.map denseOf) = 1)
    (hadm : CutAdmissible late Ws s0 fac eps cutoff minB maxB o s) :
    ∃ E s' v lst, (cutDmrgB late Ws fac eps cutoff minB maxB s0).fresh o fwd s = .ok (E, s') ∧
      E = vecEnergy (Ws.map denseOf) (phys (s.map denseOf)) v ∧ SchmidtValues (phys (s.map denseOf)) v (s.map denseOf) o lst ∧
      (Apart eps lst → usedBond (s'.map denseOf) o ≤ max minB maxB) ∧
      ∀ M, (∀ i, i ≤ M → lst.getD i 0 = lst.getD 0 0) → M < usedBond (s'.map denseOf) o := by
  obtain ⟨E, s', v, w, a1, _, _, _, _, _, a7, a8, _⟩ := C97_update_partial late Ws s0 s hfac eps cutoff he0 he1 hcut minB maxB hmin o fwd hF h0 hpW
    hc hcW hl hr hH ho hcan hn hadm
  obtain ⟨K, k1, k2, _, _, lst, l1, l2⟩ := a8.fewest
  refine ⟨E, s', v, lst, a1, a7, l1, fun ha => ?_, fun M ht => ?_⟩
  · rw [l2]
    exact (apart_count l1.nonneg he1 ha K k1).trans k2
  · rw [l2]
    exact tied_count l1.sorted l1.nonneg l1.total he0 he1 M K k1 ht

/-- **C124 fails** for block tensors: there is an update with `minimum_bond = maximum_bond = 1` that gives a bond of 2, from a chain that
meets all the premises of the theorem above. -/
theorem C124_block_fails {fac : Blk ℝ → Blk ℝ × Blk ℝ × Blk ℝ} (hfac : DenseSvd fac) :
    CutAdmissible true hopWs hopS fac (1/1000) (1/10) 1 1 0 hopS ∧
    ∃ s', (cutDmrgB true hopWs fac (1/1000) (1/10) 1 1 hopS).fresh 0 true hopS = .ok (-1, s') ∧ usedBond (s'.map denseOf) 0 = 2 := by
  obtain ⟨h1, s', h2, _, _, h5⟩ := hop_cut hfac (1/1000) (1/10) (by norm_num) (by norm_num) (by norm_num) 1 1 le_rfl true true hopStart (.inl rfl)
  exact ⟨h1, s', h2, h5⟩

end BN
end QuantiT
