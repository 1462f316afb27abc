import Verif.Lemmas.CutPair
import Verif.Props.TruncateProduct
/-
Truncation of a normalised two-site tensor that keeps the singular values above a threshold, in a bond that may also have elements
that are not used.
-/
namespace QuantiT
namespace DM
open Finset Spec MP
variable {𝕜 : Type} [RCLike 𝕜]

theorem perm_map_lift {α β : Type} {f : α → β} {l l2 : List β} (h : l.Perm l2) :
    ∀ L : List α, l2 = L.map f → ∃ L' : List α, L'.Perm L ∧ L'.map f = l := by
  induction h with
  | nil =>
    intro L hL
    have : L = [] := by simpa using hL.symm
    exact ⟨[], by rw [this], rfl⟩
  | cons x _ ih =>
    intro L hL
    rcases L with _ | ⟨y, L⟩
    · simp at hL
    · rw [List.map_cons, List.cons.injEq] at hL
      obtain ⟨L', h1, h2⟩ := ih L hL.2
      exact ⟨y :: L', h1.cons y, by rw [List.map_cons, h2, hL.1]⟩
  | swap x y l =>
    intro L hL
    rcases L with _ | ⟨a, _ | ⟨b, L⟩⟩
    · simp at hL
    · simp at hL
    · simp only [List.map_cons, List.cons.injEq] at hL
      obtain ⟨h1, h2, h3⟩ := hL
      exact ⟨b :: a :: L, List.Perm.swap a b L, by simp [h1, h2, h3]⟩
  | trans _ _ ih1 ih2 =>
    intro L hL
    obtain ⟨L2, h1, h2⟩ := ih2 L hL
    obtain ⟨L1, h3, h4⟩ := ih1 L2 h2.symm
    exact ⟨L1, h3.trans h1, h4⟩

/-- A sorted list of values is an order of the values. -/
theorem sort_order {K : Nat} {σ : Nat → ℝ} {lst : List ℝ} (h : lst.Perm ((List.range K).map σ)) :
    ∃ π : Nat → Nat, ((List.range K).map π).Perm (List.range K) ∧ ∀ i, i < K → lst.getD i 0 = σ (π i) := by
  obtain ⟨L, h1, h2⟩ := perm_map_lift h (List.range K) rfl
  have hl : L.length = K := by simpa using h1.length_eq
  refine ⟨fun i => L.getD i 0, ?_, ?_⟩
  · have : (List.range K).map (fun i => L.getD i 0) = L := by
      apply List.ext_getElem
      · simp [hl]
      · intro i h1 h2
        simp [h2]
    rw [this]
    exact h1
  · intro i hi
    rw [← h2]
    simp [List.getD, hl, hi]

theorem sum_order {K : Nat} {π : Nat → Nat} (h : ((List.range K).map π).Perm (List.range K)) {M : Type} [AddCommMonoid M] (g : Nat → M) :
    ∑ i ∈ range K, g (π i) = ∑ k ∈ range K, g k := by
  have := (h.map g).sum_eq
  rw [List.map_map] at this
  have e : ∀ g : Nat → M, ((List.range K).map g).sum = ∑ k ∈ range K, g k := by
    intro g
    clear this h
    induction K with
    | zero => rfl
    | succ K ih => rw [List.range_succ, List.map_append, List.sum_append, ih, sum_range_succ]; simp
  rw [← e, ← e]
  exact this

/-- The bond of size `K'` consists of `live` elements, which are the elements `old k` of the bond of size `K`, and elements that
are not used. -/
structure DeadBond (thr : ℝ) (U U' V V' : List Nat → Nat → 𝕜) (σ σ' : Nat → ℝ) (left right : List Nat) (K K' : Nat)
    (live : Nat → Prop) (old : Nat → Nat) : Prop where
  into : ∀ k, k < K' → live k → old k < K ∧ thr < σ (old k)
  inj : ∀ a b, a < K' → b < K' → live a → live b → old a = old b → a = b
  onto : ∀ k, k < K → thr < σ k → ∃ k', k' < K' ∧ live k' ∧ old k' = k
  dLive : ∀ k, k < K' → live k → σ' k = σ (old k)
  dDead : ∀ k, k < K' → ¬ live k → σ' k = 0
  uLive : ∀ k e, k < K' → live k → e ∈ configs left → U' e k = U e (old k)
  vLive : ∀ k e, k < K' → live k → e ∈ configs right → V' e k = V e (old k)
  uDead : ∀ k e, k < K' → ¬ live k → e ∈ configs left → U' e k = 0
  vDead : ∀ k e, k < K' → ¬ live k → e ∈ configs right → V' e k = 0

open Classical in
theorem DeadBond.sum_live {thr : ℝ} {U U' V V' : List Nat → Nat → 𝕜} {σ σ' : Nat → ℝ} {left right : List Nat} {K K' : Nat}
    {live : Nat → Prop} {old : Nat → Nat} (h : DeadBond thr U U' V V' σ σ' left right K K' live old) {M : Type} [AddCommMonoid M]
    (f g : Nat → M) (h1 : ∀ k, k < K' → live k → f k = g (old k)) (h2 : ∀ k, k < K' → ¬ live k → f k = 0) :
    ∑ k ∈ range K', f k = ∑ k ∈ (range K).filter fun k => thr < σ k, g k := by
  rw [← Finset.sum_filter_add_sum_filter_not (range K') live, Finset.sum_eq_zero (s := (range K').filter fun k => ¬ live k) (fun k hk => by
    have := mem_filter.1 hk
    exact h2 k (mem_range.1 this.1) this.2), add_zero]
  refine Finset.sum_bij (fun k _ => old k) ?_ ?_ ?_ ?_
  · intro k hk
    have := mem_filter.1 hk
    obtain ⟨a, b⟩ := h.into k (mem_range.1 this.1) this.2
    exact mem_filter.2 ⟨mem_range.2 a, b⟩
  · intro a ha b hb hab
    have ha := mem_filter.1 ha
    have hb := mem_filter.1 hb
    exact h.inj a b (mem_range.1 ha.1) (mem_range.1 hb.1) ha.2 hb.2 hab
  · intro k hk
    have := mem_filter.1 hk
    obtain ⟨k', a, b, c⟩ := h.onto k (mem_range.1 this.1) this.2
    exact ⟨k', mem_filter.2 ⟨mem_range.2 a, b⟩, c⟩
  · intro k hk
    have := mem_filter.1 hk
    exact h1 k (mem_range.1 this.1) this.2

/-- The truncated tensor, before it is normalised. -/
noncomputable def cutTensor (U' V' : List Nat → Nat → 𝕜) (σ' : Nat → ℝ) (K' l s t r : Nat) : Blk 𝕜 :=
  ⟨[l, s, t, r], fun o => ∑ k ∈ range K', U' (o.take 2) k * ((σ' k : ℝ) : 𝕜) * star (V' (o.drop 2) k)⟩

open Classical in
theorem dead_cut {θ : Blk 𝕜} {l s t r : Nat} (hn : ‖toV [l, s, t, r] θ‖ = 1)
    {U U' V V' : List Nat → Nat → 𝕜} {σ σ' : Nat → ℝ} {K K' : Nat} (hσ0 : ∀ k, k < K → 0 ≤ σ k)
    (hU : ∀ a b, a < K → b < K → ∑ e ∈ configs [l, s], star (U e a) * U e b = if a = b then 1 else 0)
    (hV : ∀ a b, a < K → b < K → ∑ e ∈ configs [t, r], star (V e a) * V e b = if a = b then 1 else 0)
    (hA : ∀ e ∈ configs [l, s], ∀ f ∈ configs [t, r], θ.f (e ++ f) = ∑ k ∈ range K, U e k * (σ k : 𝕜) * star (V f k))
    {thr eps : ℝ} (he0 : 0 < eps) (he1 : eps ≤ 1 / 2) {lst : List ℝ} (hp : lst.Perm ((List.range K).map σ)) (hso : lst.Pairwise (· ≥ ·))
    {K0 minS maxS : Nat} {tol : ℝ} (hK1 : 1 ≤ K0) (hK2 : K0 ≤ lst.length) (hthr : thr = lst.getD (K0 - 1) 0 - 2 * lst.getD (K0 - 1) 0 * eps)
    (hsmall : K0 < maxS → weight (fun x => x ^ 2) (lst.drop K0) ≤ tol ^ 2)
    (hfew : ∀ j < K0, minS ≤ j → tol ^ 2 < weight (fun x => x ^ 2) (lst.drop j))
    {live : Nat → Prop} {old : Nat → Nat} (hD : DeadBond thr U U' V V' σ σ' [l, s] [t, r] K K' live old) :
    ∃ c : ℝ, 0 < c ∧ c ≤ 1 ∧ ∑ k ∈ range K', σ' k ^ 2 = c ^ 2 ∧ ‖toV [l, s, t, r] (cutTensor U' V' (fun k => σ' k / c) K' l s t r)‖ = 1 ∧
      inner 𝕜 (toV [l, s, t, r] (cutTensor U' V' (fun k => σ' k / c) K' l s t r)) (toV [l, s, t, r] θ) = (c : 𝕜) ∧
      1 ≤ ((range K').filter live).card ∧
      (((range K').filter live).card < K0 → c = 1) ∧
      (((range K').filter live).card < maxS → 1 - c ^ 2 ≤ tol ^ 2) ∧
      ∀ (χ : Blk 𝕜) (k' : Nat) (x y : List Nat → Nat → 𝕜), ‖toV [l, s, t, r] χ‖ = 1 →
        (∀ o ∈ configs [l, s, t, r], χ.f o = terms x y k' (o.take 2) (o.drop 2)) →
        (k' ≤ ((range K').filter live).card → ‖inner 𝕜 (toV [l, s, t, r] χ) (toV [l, s, t, r] θ)‖ ^ 2 ≤ c ^ 2) ∧
        (minS ≤ k' → k' < K0 → ‖inner 𝕜 (toV [l, s, t, r] χ) (toV [l, s, t, r] θ)‖ ^ 2 < 1 - tol ^ 2) := by
  have hlen : lst.length = K := by simpa using hp.length_eq
  obtain ⟨π, p1, p2⟩ := sort_order hp
  have hπ : ∀ i, i < K → π i < K := by
    intro i hi
    exact List.mem_range.1 (p1.subset (List.mem_map.2 ⟨i, List.mem_range.2 hi, rfl⟩))
  have hπinj : ∀ a b, a < K → b < K → π a = π b → a = b := by
    intro a b ha hb hab
    exact List.inj_on_of_nodup_map (p1.nodup_iff.2 List.nodup_range) (List.mem_range.2 ha) (List.mem_range.2 hb) hab
  -- the values in decreasing order
  let ρ : Nat → ℝ := fun i => lst.getD i 0
  have hρ : ∀ i, i < K → ρ i = σ (π i) := p2
  have hρ0 : ∀ i, 0 ≤ ρ i := by
    intro i
    by_cases hi : i < K
    · rw [hρ i hi]; exact hσ0 _ (hπ i hi)
    · show 0 ≤ lst.getD i 0
      rw [List.getD_eq_default _ _ (by omega)]
  have hρa : Antitone ρ := by
    intro i j hij
    by_cases hj : j < K
    · rcases Nat.lt_or_eq_of_le hij with h | h
      · show lst.getD j 0 ≤ lst.getD i 0
        have := List.pairwise_iff_getElem.1 hso i j (by omega) (by omega) h
        simpa [List.getD, hlen, hj, show i < K by omega] using this
      · rw [h]
    · show lst.getD j 0 ≤ _
      rw [List.getD_eq_default _ _ (by omega)]
      exact hρ0 i
  let u : Blk 𝕜 := ⟨[l, s, K], fun o => U (o.take 2) (π (o.getD 2 0))⟩
  let v : Blk 𝕜 := ⟨[t, r, K], fun o => V (o.take 2) (π (o.getD 2 0))⟩
  let d : Blk 𝕜 := ⟨[K], fun o => (ρ (o.getD 0 0) : 𝕜)⟩
  have two : ∀ {a b : Nat} {e : List Nat}, e ∈ configs [a, b] → ∃ x y, e = [x, y] := by
    intro a b e he
    obtain ⟨x, o1, _, ho1, rfl⟩ := List.forall₂_cons_right_iff.1 (mem_configs.1 he)
    obtain ⟨y, o2, _, ho2, rfl⟩ := List.forall₂_cons_right_iff.1 ho1
    cases ho2
    exact ⟨x, y, rfl⟩
  have hu : ∀ e ∈ configs [l, s], ∀ m, u.f (e ++ [m]) = U e (π m) := by
    intro e he m
    obtain ⟨x, y, rfl⟩ := two he
    rfl
  have hv : ∀ e ∈ configs [t, r], ∀ m, v.f (e ++ [m]) = V e (π m) := by
    intro e he m
    obtain ⟨x, y, rfl⟩ := two he
    rfl
  have a6 : ∀ a b, a < K → b < K → ∑ e ∈ configs [l, s], star (u.f (e ++ [a])) * u.f (e ++ [b]) = if a = b then 1 else 0 := by
    intro a b ha hb
    rw [sum_congr rfl fun e he => by rw [hu e he, hu e he], hU _ _ (hπ a ha) (hπ b hb)]
    by_cases h : a = b
    · simp [h]
    · rw [if_neg h, if_neg fun h' => h (hπinj a b ha hb h')]
  have a7 : ∀ a b, a < K → b < K → ∑ e ∈ configs [t, r], star (v.f (e ++ [a])) * v.f (e ++ [b]) = if a = b then 1 else 0 := by
    intro a b ha hb
    rw [sum_congr rfl fun e he => by rw [hv e he, hv e he], hV _ _ (hπ a ha) (hπ b hb)]
    by_cases h : a = b
    · simp [h]
    · rw [if_neg h, if_neg fun h' => h (hπinj a b ha hb h')]
  have b1 : ∀ k, k < K → d.f [k] = (ρ k : 𝕜) := fun k _ => rfl
  have b2 : ∀ e ∈ configs [l, s], ∀ f ∈ configs [t, r], θ.f (e ++ f) = svdTerms u d v K e f := by
    intro e he f hf
    rw [hA e he f hf, ← sum_order p1]
    unfold svdTerms
    refine sum_congr rfl fun m hm => ?_
    rw [hu e he, hv f hf, b1 m (mem_range.1 hm), hρ m (mem_range.1 hm)]
  have hdist := LA.distSq_cut a6 a7 b1 b2
  have htot : ∑ m ∈ range K, ρ m ^ 2 = 1 := by
    have h := hdist 0 (Nat.zero_le _)
    rw [Nat.Ico_zero_eq_range] at h
    rw [← h, distSq_toV]
    have : toV [l, s, t, r] (⟨[l, s, t, r], fun o => svdTerms u d v 0 (o.take 2) (o.drop 2)⟩ : Blk 𝕜) = 0 := by
      ext o; simp [toV, svdTerms]
    rw [this, sub_zero, hn]; norm_num
  -- the elements kept are the first ones
  let p := ((List.range K).filter fun i => decide (thr < ρ i)).length
  have hpre : ∀ i, i < K → (thr < ρ i ↔ i < p) := by
    intro i hi
    have := BT.filter_prefix (n := K) (p := fun i => decide (thr < ρ i)) (fun i j hij _ h => by
      simp only [decide_eq_true_eq] at h ⊢
      exact lt_of_lt_of_le h (hρa hij)) i hi
    simpa using this
  have hpK : p ≤ K := by simpa using List.length_filter_le (fun i => decide (thr < ρ i)) (List.range K)
  have hkeep : ∀ {M : Type} [AddCommMonoid M] (g : Nat → M), ∑ k ∈ (range K).filter (fun k => thr < σ k), g k = ∑ i ∈ range p, g (π i) := by
    intro M _ g
    rw [sum_filter, ← sum_order p1, ← sum_subset (range_subset_range.2 hpK) fun i h1 h2 => ?_]
    · refine sum_congr rfl fun i hi => ?_
      have hi := mem_range.1 hi
      rw [if_pos]
      rw [← hρ i (by omega)]
      exact (hpre i (by omega)).2 hi
    · rw [if_neg]
      rw [← hρ i (mem_range.1 h1), hpre i (mem_range.1 h1)]
      simpa using h2
  have hcard : ((range K').filter live).card = p := by
    have h1 := hD.sum_live (fun k => if live k then 1 else 0) (fun _ => 1) (fun k _ h => if_pos h) (fun k _ h => if_neg h)
    rw [hkeep] at h1
    rw [card_filter, h1]
    simp
  have hsq : ∑ k ∈ range K', σ' k ^ 2 = ∑ i ∈ range p, ρ i ^ 2 := by
    rw [hD.sum_live (fun k => σ' k ^ 2) (fun k => σ k ^ 2) (fun k h1 h2 => by rw [hD.dLive k h1 h2])
      (fun k h1 h2 => by rw [hD.dDead k h1 h2]; ring), hkeep]
    exact sum_congr rfl fun i hi => by rw [hρ i (by have := mem_range.1 hi; omega)]
  have hsplit := sum_range_add_sum_Ico (fun m => ρ m ^ 2) hpK
  rw [htot] at hsplit
  -- the threshold
  have hρK : thr = ρ (K0 - 1) * (1 - 2 * eps) := by rw [hthr]; ring
  have hthr0 : 0 ≤ thr := by
    rw [hρK]
    exact mul_nonneg (hρ0 _) (by linarith)
  have hcase : K0 ≤ p ∨ p < K0 ∧ ∑ m ∈ Ico p K, ρ m ^ 2 = 0 := by
    rcases (hρ0 (K0 - 1)).lt_or_eq with h | h
    · left
      have : thr < ρ (K0 - 1) := by rw [hρK]; nlinarith
      have := (hpre (K0 - 1) (by omega)).1 this
      omega
    · have ht : thr = 0 := by rw [hρK, ← h]; ring
      right
      constructor
      · by_contra hc
        have := (hpre (K0 - 1) (by omega)).2 (by omega)
        rw [← h, ht] at this
        exact lt_irrefl _ this
      · refine sum_eq_zero fun m hm => ?_
        have hm := mem_Ico.1 hm
        have h1 : ¬ thr < ρ m := fun h' => by
          have := (hpre m hm.2).1 h'
          omega
        rw [ht] at h1
        have : ρ m = 0 := le_antisymm (not_lt.1 h1) (hρ0 m)
        rw [this]; ring
  have hpos : 0 < ∑ m ∈ range p, ρ m ^ 2 := by
    rcases hcase with h | ⟨_, h⟩
    · by_contra hneg
      have h0' : ∑ m ∈ range p, ρ m ^ 2 = 0 := le_antisymm (not_lt.1 hneg) (sum_nonneg fun m _ => sq_nonneg _)
      have hs0 : ρ 0 = 0 := by
        have := (sum_eq_zero_iff_of_nonneg fun m _ => sq_nonneg (ρ m)).1 h0' 0 (mem_range.2 (by omega))
        exact pow_eq_zero_iff (by norm_num) |>.1 this
      have : ∑ m ∈ range K, ρ m ^ 2 = 0 := sum_eq_zero fun m _ => by
        have h1 := hρa (Nat.zero_le m)
        have h2 := hρ0 m
        have : ρ m = 0 := by linarith
        rw [this]; norm_num
      rw [htot] at this
      norm_num at this
    · rw [h] at hsplit
      linarith
  have hp1 : 1 ≤ p := by
    by_contra hc
    have : p = 0 := by omega
    rw [this] at hpos
    simp at hpos
  let c : ℝ := √(∑ m ∈ range p, ρ m ^ 2)
  have hc : 0 < c := Real.sqrt_pos.2 hpos
  have hc2 : c ^ 2 = ∑ m ∈ range p, ρ m ^ 2 := Real.sq_sqrt hpos.le
  have hrest : 0 ≤ ∑ m ∈ Ico p K, ρ m ^ 2 := sum_nonneg fun m _ => sq_nonneg _
  have hc1 : c ≤ 1 := by
    by_contra h
    nlinarith
  have hc' : (c : 𝕜) ≠ 0 := by exact_mod_cast hc.ne'
  have cut_eq : ∀ o ∈ configs [l, s, t, r], (cutTensor U' V' σ' K' l s t r).f o = svdTerms u d v p (o.take 2) (o.drop 2) := by
    intro o ho
    obtain ⟨a, o1, ha, ho1, rfl⟩ := List.forall₂_cons_right_iff.1 (mem_configs.1 ho)
    obtain ⟨b, o2, hb, ho2, rfl⟩ := List.forall₂_cons_right_iff.1 ho1
    have he : [a, b] ∈ configs [l, s] := mem_configs.2 (.cons ha (.cons hb .nil))
    have hf : o2 ∈ configs [t, r] := mem_configs.2 ho2
    show ∑ k ∈ range K', U' [a, b] k * ((σ' k : ℝ) : 𝕜) * star (V' o2 k) = _
    rw [hD.sum_live _ (fun k => U [a, b] k * ((σ k : ℝ) : 𝕜) * star (V o2 k))
      (fun k h1 h2 => by rw [hD.uLive k _ h1 h2 he, hD.dLive k h1 h2, hD.vLive k _ h1 h2 hf])
      (fun k h1 h2 => by rw [hD.dDead k h1 h2]; simp), hkeep]
    unfold svdTerms
    refine sum_congr rfl fun m hm => ?_
    have hm := mem_range.1 hm
    have e1 := hu [a, b] he m
    have e2 := hv o2 hf m
    show _ = u.f ([a, b] ++ [m]) * _ * star (v.f (o2 ++ [m]))
    rw [e1, e2, b1 m (by omega), hρ m (by omega)]
  have hcφ : (c : 𝕜) • toV [l, s, t, r] (cutTensor U' V' (fun k => σ' k / c) K' l s t r)
      = toV [l, s, t, r] (⟨[l, s, t, r], fun o => svdTerms u d v p (o.take 2) (o.drop 2)⟩ : Blk 𝕜) := by
    ext o
    show (c : 𝕜) * (cutTensor U' V' (fun k => σ' k / c) K' l s t r).f o.1 = svdTerms u d v p (o.1.take 2) (o.1.drop 2)
    rw [← cut_eq o.1 o.2]
    unfold cutTensor
    simp only
    rw [mul_sum]
    refine sum_congr rfl fun k _ => ?_
    push_cast
    field_simp
  have hφn : ‖toV [l, s, t, r] (cutTensor U' V' (fun k => σ' k / c) K' l s t r)‖ = 1 := by
    have h := LA.distSq_cut (A := (⟨[l, s, t, r], fun o => svdTerms u d v p (o.take 2) (o.drop 2)⟩ : Blk 𝕜)) (left := [l, s]) (right := [t, r]) (K := p)
      (u := u) (d := d) (v := v) (fun a b ha hb => a6 a b (by omega) (by omega))
      (fun a b ha hb => a7 a b (by omega) (by omega)) (fun k hk => b1 k (by omega)) (by
        intro e he f hf
        obtain ⟨x, y, rfl⟩ := two he
        rfl) 0 (Nat.zero_le _)
    rw [Nat.Ico_zero_eq_range, distSq_toV] at h
    have h0 : toV [l, s, t, r] (⟨[l, s, t, r], fun o => svdTerms u d v 0 (o.take 2) (o.drop 2)⟩ : Blk 𝕜) = 0 := by
      ext o; simp [toV, svdTerms]
    rw [h0, sub_zero, ← hcφ, norm_smul, RCLike.norm_ofReal, abs_of_pos hc, mul_pow, ← hc2] at h
    have : ‖toV [l, s, t, r] (cutTensor U' V' (fun k => σ' k / c) K' l s t r)‖ ^ 2 = 1 := by
      have hcc : c ^ 2 ≠ 0 := by positivity
      exact mul_left_cancel₀ hcc (by rw [h, mul_one])
    exact (pow_eq_one_iff_of_nonneg (norm_nonneg _) (by norm_num)).1 this
  have hδ : ‖toV [l, s, t, r] θ - (c : 𝕜) • toV [l, s, t, r] (cutTensor U' V' (fun k => σ' k / c) K' l s t r)‖ ^ 2 = 1 - c ^ 2 := by
    rw [hcφ, ← distSq_toV, hdist p hpK, hc2]
    linarith
  have hbest : ∀ j x y, ∑ m ∈ Ico j K, ρ m ^ 2 ≤ distSq θ [l, s] [t, r] (terms x y j) := by
    intro j x y
    refine LA.eckart_young (configs [l, s]) (configs [t, r]) K (fun e f => θ.f (e ++ f)) (fun e m => u.f (e ++ [m])) ρ
      (fun f m => v.f (f ++ [m])) hρa hρ0 a6 a7 ?_ j x y
    intro e he f hf
    rw [b2 e he f hf]
    unfold svdTerms
    exact sum_congr rfl fun m hm => by rw [b1 m (mem_range.1 hm)]
  have hbest0 : ∀ (χ : Blk 𝕜) (k' : Nat) (x y : List Nat → Nat → 𝕜), ‖toV [l, s, t, r] χ‖ = 1 →
        (∀ o ∈ configs [l, s, t, r], χ.f o = terms x y k' (o.take 2) (o.drop 2)) →
        ‖inner 𝕜 (toV [l, s, t, r] χ) (toV [l, s, t, r] θ)‖ ^ 2 ≤ 1 - ∑ m ∈ Ico k' K, ρ m ^ 2 := by
    intro χ k' x y hχ hx
    exact overlap_le_of_dist (toV [l, s, t, r] θ) (toV [l, s, t, r] χ) hn hχ _ (by
      intro z
      have h1 := hbest k' (fun e m => z * x e m) y
      rw [distSq_toV] at h1
      have e : toV [l, s, t, r] (⟨[l, s, t, r], fun o => terms (fun e m => z * x e m) y k' (o.take 2) (o.drop 2)⟩ : Blk 𝕜)
          = z • toV [l, s, t, r] χ := by
        ext o
        show terms (fun e m => z * x e m) y k' (o.1.take 2) (o.1.drop 2) = z * χ.f o.1
        rw [hx o.1 o.2]
        unfold terms
        rw [mul_sum]
        exact sum_congr rfl fun m _ => by ring
      rw [e] at h1
      exact h1)
  have hw : ∀ j, weight (fun x => x ^ 2) (lst.drop j) = ∑ m ∈ Ico j K, ρ m ^ 2 := by
    have key : ∀ n j, j + n = K → weight (fun x => x ^ 2) (lst.drop j) = ∑ m ∈ Ico j K, ρ m ^ 2 := by
      intro n
      induction n with
      | zero =>
        intro j hj
        rw [List.drop_eq_nil_of_le (by omega), Ico_eq_empty (by omega)]
        rfl
      | succ n ih =>
        intro j hj
        rw [weight_drop _ _ _ (by omega), ih (j + 1) (by omega), sum_eq_sum_Ico_succ_bot (by omega : j < K), sq_abs]
        exact add_comm _ _
    intro j
    by_cases hj : j ≤ K
    · exact key (K - j) j (by omega)
    · rw [List.drop_eq_nil_of_le (by omega), Ico_eq_empty (by omega)]
      rfl
  have hbest' : ∀ (χ : Blk 𝕜) (k' : Nat) (x y : List Nat → Nat → 𝕜), ‖toV [l, s, t, r] χ‖ = 1 →
        (∀ o ∈ configs [l, s, t, r], χ.f o = terms x y k' (o.take 2) (o.drop 2)) →
        (k' ≤ p → ‖inner 𝕜 (toV [l, s, t, r] χ) (toV [l, s, t, r] θ)‖ ^ 2 ≤ c ^ 2) ∧
        (minS ≤ k' → k' < K0 → ‖inner 𝕜 (toV [l, s, t, r] χ) (toV [l, s, t, r] θ)‖ ^ 2 < 1 - tol ^ 2) := by
    intro χ k' x y hχ hx
    have h1 := hbest0 χ k' x y hχ hx
    constructor
    · intro hk'
      have h2 : ∑ m ∈ Ico p K, ρ m ^ 2 ≤ ∑ m ∈ Ico k' K, ρ m ^ 2 :=
        sum_le_sum_of_subset_of_nonneg (Ico_subset_Ico_left hk') fun m _ _ => sq_nonneg _
      linarith
    · intro h3 h4
      have := hfew k' h4 h3
      rw [hw] at this
      linarith
  rw [hcard]
  refine ⟨c, hc, hc1, by rw [hsq, hc2], hφn, ?_, hp1, ?_, ?_, hbest'⟩
  · have h1 := re_overlap_of_dist _ _ hn hφn c hc hδ
    have h2 := (hbest' (cutTensor U' V' (fun k => σ' k / c) K' l s t r) p (fun e m => u.f (e ++ [m]) * (d.f [m] / (c : 𝕜)))
      (fun f m => star (v.f (f ++ [m]))) hφn (fun o ho => by
        have := congrArg (fun w => w ⟨o, ho⟩) hcφ
        have : (c : 𝕜) * (cutTensor U' V' (fun k => σ' k / c) K' l s t r).f o = svdTerms u d v p (o.take 2) (o.drop 2) := this
        refine mul_left_cancel₀ hc' (this.trans ?_)
        unfold svdTerms terms
        rw [mul_sum]
        refine sum_congr rfl fun k _ => ?_
        field_simp)).1 le_rfl
    generalize inner 𝕜 (toV [l, s, t, r] (cutTensor U' V' (fun k => σ' k / c) K' l s t r)) (toV [l, s, t, r] θ) = z at h1 h2 ⊢
    have h3 := RCLike.norm_sq_eq_def (z := z)
    have him : RCLike.im z = 0 := by
      rw [h3, h1] at h2
      nlinarith [sq_nonneg (RCLike.im z)]
    rw [← RCLike.re_add_im z, him, h1]
    simp
  · intro h
    rcases hcase with h' | ⟨_, h'⟩
    · omega
    · have : c ^ 2 = 1 := by rw [hc2]; linarith
      exact (pow_eq_one_iff_of_nonneg hc.le (by norm_num)).1 this
  · intro h
    rcases hcase with h' | ⟨_, h'⟩
    · have h1 := hsmall (by omega)
      rw [hw] at h1
      have h2 : ∑ m ∈ Ico p K, ρ m ^ 2 ≤ ∑ m ∈ Ico K0 K, ρ m ^ 2 :=
        sum_le_sum_of_subset_of_nonneg (Ico_subset_Ico_left h') fun m _ _ => sq_nonneg _
      linarith
    · have : 0 ≤ tol ^ 2 := sq_nonneg _
      linarith

end DM
end QuantiT
