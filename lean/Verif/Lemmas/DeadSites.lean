import Verif.Lemmas.DeadCut
import Verif.Spec.SemiCanonical
/-
Sites made of a truncated decomposition whose bond has unused elements.
-/
namespace QuantiT
namespace DM
open Finset Spec MP
variable {𝕜 : Type} [RCLike 𝕜]

/-- `A` and `B` are made of the factors, with the values divided between them. -/
structure DeadSites (A B : Blk 𝕜) (U' V' : List Nat → Nat → 𝕜) (σ' α β : Nat → ℝ) (c : ℝ) (l s t r K' : Nat) (live : Nat → Prop) : Prop where
  dimsA : A.dims = [l, s, K']
  dimsB : B.dims = [K', t, r]
  fA : ∀ x y k, x < l → y < s → k < K' → A.f [x, y, k] = U' [x, y] k * ((α k : ℝ) : 𝕜)
  fB : ∀ k y z, k < K' → y < t → z < r → B.f [k, y, z] = star (V' [y, z] k) * ((β k : ℝ) : 𝕜)
  split : ∀ k, k < K' → α k * β k = σ' k / c
  neA : ∀ k, k < K' → live k → α k ≠ 0
  neB : ∀ k, k < K' → live k → β k ≠ 0

variable {A B : Blk 𝕜} {thr c : ℝ} {U U' V V' : List Nat → Nat → 𝕜} {σ σ' α β : Nat → ℝ} {l s t r K K' : Nat} {live : Nat → Prop} {old : Nat → Nat}

theorem DeadSites.product (h : DeadSites A B U' V' σ' α β c l s t r K' live) (x y y' z : Nat) (hx : x < l) (hy : y < s) (hy' : y' < t) (hz : z < r) :
    (cutTensor U' V' (fun k => σ' k / c) K' l s t r).f [x, y, y', z] = ∑ m ∈ range K', A.f [x, y, m] * B.f [m, y', z] := by
  show ∑ k ∈ range K', U' [x, y] k * ((σ' k / c : ℝ) : 𝕜) * star (V' [y', z] k) = _
  refine sum_congr rfl fun m hm => ?_
  have hm := mem_range.1 hm
  rw [h.fA x y m hx hy hm, h.fB m y' z hm hy' hz, ← h.split m hm]
  push_cast
  ring

theorem DeadSites.colA (h : DeadSites A B U' V' σ' α β c l s t r K' live) (hD : DeadBond thr U U' V V' σ σ' [l, s] [t, r] K K' live old)
    (hU : ∀ a b, a < K → b < K → ∑ e ∈ configs [l, s], star (U e a) * U e b = if a = b then 1 else 0) (k : Nat) (hk : k < K') :
    ¬ ZeroCol A k ↔ live k := by
  constructor
  · intro hz
    by_contra hl
    refine hz fun x y hx hy => ?_
    rw [h.dimsA] at hx hy
    rw [h.fA x y k hx hy hk, hD.uDead k [x, y] hk hl (MP.mem_configs.2 (.cons hx (.cons hy .nil))), zero_mul]
  · intro hl hz
    obtain ⟨h1, _⟩ := hD.into k hk hl
    have := hU _ _ h1 h1
    rw [if_pos rfl] at this
    apply one_ne_zero (α := 𝕜)
    rw [← this]
    refine sum_eq_zero fun e he => ?_
    rw [← hD.uLive k e hk hl he]
    have he' := MP.mem_configs.1 he
    unfold InRange at he'
    obtain ⟨x, o1, hx, ho1, rfl⟩ := List.forall₂_cons_right_iff.1 he'
    obtain ⟨y, o2, hy, ho2, rfl⟩ := List.forall₂_cons_right_iff.1 ho1
    cases ho2
    have := hz x y (by rw [h.dimsA]; exact hx) (by rw [h.dimsA]; exact hy)
    rw [h.fA x y k hx hy hk] at this
    rcases mul_eq_zero.1 this with h0 | h0
    · rw [h0, mul_zero]
    · exact absurd (RCLike.ofReal_eq_zero.1 h0) (h.neA k hk hl)

theorem DeadSites.rowB (h : DeadSites A B U' V' σ' α β c l s t r K' live) (hD : DeadBond thr U U' V V' σ σ' [l, s] [t, r] K K' live old)
    (hV : ∀ a b, a < K → b < K → ∑ e ∈ configs [t, r], star (V e a) * V e b = if a = b then 1 else 0) (k : Nat) (hk : k < K') :
    ¬ ZeroRow B k ↔ live k := by
  constructor
  · intro hz
    by_contra hl
    refine hz fun x y hx hy => ?_
    rw [h.dimsB] at hx hy
    rw [h.fB k x y hk hx hy, hD.vDead k [x, y] hk hl (MP.mem_configs.2 (.cons hx (.cons hy .nil))), star_zero, zero_mul]
  · intro hl hz
    obtain ⟨h1, _⟩ := hD.into k hk hl
    have := hV _ _ h1 h1
    rw [if_pos rfl] at this
    apply one_ne_zero (α := 𝕜)
    rw [← this]
    refine sum_eq_zero fun e he => ?_
    rw [← hD.vLive k e hk hl he]
    have he' := MP.mem_configs.1 he
    unfold InRange at he'
    obtain ⟨x, o1, hx, ho1, rfl⟩ := List.forall₂_cons_right_iff.1 he'
    obtain ⟨y, o2, hy, ho2, rfl⟩ := List.forall₂_cons_right_iff.1 ho1
    cases ho2
    have := hz x y (by rw [h.dimsB]; exact hx) (by rw [h.dimsB]; exact hy)
    rw [h.fB k x y hk hx hy] at this
    rcases mul_eq_zero.1 this with h0 | h0
    · rw [star_eq_zero.1 h0, mul_zero]
    · exact absurd (RCLike.ofReal_eq_zero.1 h0) (h.neB k hk hl)

theorem DeadSites.leftSemi (h : DeadSites A B U' V' σ' α β c l s t r K' live) (hD : DeadBond thr U U' V V' σ σ' [l, s] [t, r] K K' live old)
    (hU : ∀ a b, a < K → b < K → ∑ e ∈ configs [l, s], star (U e a) * U e b = if a = b then 1 else 0) (h1 : ∀ k, k < K' → α k = 1) : LeftSemi A := by
  have key : ∀ a b, a < K' → b < K' → ∑ i ∈ range l, ∑ y ∈ range s, star (A.f [i, y, a]) * A.f [i, y, b] = ∑ e ∈ configs [l, s], star (U' e a) * U' e b := by
    intro a b ha hb
    simp only [sum_configs_cons', sum_configs_nil]
    refine sum_congr rfl fun i hi => sum_congr rfl fun y hy => ?_
    rw [h.fA i y a (mem_range.1 hi) (mem_range.1 hy) ha, h.fA i y b (mem_range.1 hi) (mem_range.1 hy) hb, h1 a ha, h1 b hb]
    simp
  constructor
  · intro a b ha hb hab
    rw [h.dimsA] at ha hb ⊢
    simp only [List.getD_cons_zero, List.getD_cons_succ] at ha hb ⊢
    rw [key a b ha hb]
    by_cases la : live a
    · by_cases lb : live b
      · rw [sum_congr rfl fun e he => by rw [hD.uLive a e ha la he, hD.uLive b e hb lb he], hU _ _ (hD.into a ha la).1 (hD.into b hb lb).1, if_neg]
        exact fun e => hab (hD.inj a b ha hb la lb e)
      · exact sum_eq_zero fun e he => by rw [hD.uDead b e hb lb he, mul_zero]
    · exact sum_eq_zero fun e he => by rw [hD.uDead a e ha la he, star_zero, zero_mul]
  · intro a ha
    rw [h.dimsA] at ha ⊢
    simp only [List.getD_cons_zero, List.getD_cons_succ] at ha ⊢
    by_cases la : live a
    · right
      rw [key a a ha ha, sum_congr rfl fun e he => by rw [hD.uLive a e ha la he], hU _ _ (hD.into a ha la).1 (hD.into a ha la).1, if_pos rfl]
    · left
      by_contra hz
      exact la ((h.colA hD hU a ha).1 hz)

theorem DeadSites.rightSemi (h : DeadSites A B U' V' σ' α β c l s t r K' live) (hD : DeadBond thr U U' V V' σ σ' [l, s] [t, r] K K' live old)
    (hV : ∀ a b, a < K → b < K → ∑ e ∈ configs [t, r], star (V e a) * V e b = if a = b then 1 else 0) (h1 : ∀ k, k < K' → β k = 1) : RightSemi B := by
  have key : ∀ a b, a < K' → b < K' → ∑ y ∈ range t, ∑ j ∈ range r, B.f [a, y, j] * star (B.f [b, y, j]) = ∑ e ∈ configs [t, r], star (V' e a) * V' e b := by
    intro a b ha hb
    simp only [sum_configs_cons', sum_configs_nil]
    refine sum_congr rfl fun i hi => sum_congr rfl fun y hy => ?_
    rw [h.fB a i y ha (mem_range.1 hi) (mem_range.1 hy), h.fB b i y hb (mem_range.1 hi) (mem_range.1 hy), h1 a ha, h1 b hb]
    simp
  constructor
  · intro a b ha hb hab
    rw [h.dimsB] at ha hb ⊢
    simp only [List.getD_cons_zero, List.getD_cons_succ] at ha hb ⊢
    rw [key a b ha hb]
    by_cases la : live a
    · by_cases lb : live b
      · rw [sum_congr rfl fun e he => by rw [hD.vLive a e ha la he, hD.vLive b e hb lb he], hV _ _ (hD.into a ha la).1 (hD.into b hb lb).1, if_neg]
        exact fun e => hab (hD.inj a b ha hb la lb e)
      · exact sum_eq_zero fun e he => by rw [hD.vDead b e hb lb he, mul_zero]
    · exact sum_eq_zero fun e he => by rw [hD.vDead a e ha la he, star_zero, zero_mul]
  · intro a ha
    rw [h.dimsB] at ha ⊢
    simp only [List.getD_cons_zero, List.getD_cons_succ] at ha ⊢
    by_cases la : live a
    · right
      rw [key a a ha ha, sum_congr rfl fun e he => by rw [hD.vLive a e ha la he], hV _ _ (hD.into a ha la).1 (hD.into a ha la).1, if_pos rfl]
    · left
      by_contra hz
      exact la ((h.rowB hD hV a ha).1 hz)

theorem DeadSites.zeroRow {θ : Blk 𝕜} (h : DeadSites A B U' V' σ' α β c l s t r K' live) (hD : DeadBond thr U U' V V' σ σ' [l, s] [t, r] K K' live old)
    (h0 : 0 ≤ thr) (hV : ∀ a b, a < K → b < K → ∑ e ∈ configs [t, r], star (V e a) * V e b = if a = b then 1 else 0)
    (hA : ∀ e ∈ configs [l, s], ∀ f ∈ configs [t, r], θ.f (e ++ f) = ∑ k ∈ range K, U e k * (σ k : 𝕜) * star (V f k)) (x : Nat) (hx : x < l)
    (hθ : ∀ y y' z, y < s → y' < t → z < r → θ.f [x, y, y', z] = 0) : ZeroRow A x := by
  intro y k hy hk
  rw [h.dimsA] at hy hk
  simp only [List.getD_cons_zero, List.getD_cons_succ] at hy hk
  have he : [x, y] ∈ configs [l, s] := MP.mem_configs.2 (.cons hx (.cons hy .nil))
  rw [h.fA x y k hx hy hk]
  by_cases la : live k
  · obtain ⟨h1, h2⟩ := hD.into k hk la
    rw [hD.uLive k _ hk la he]
    have e1 : ∑ f ∈ configs [t, r], θ.f ([x, y] ++ f) * V f (old k) = U [x, y] (old k) * (σ (old k) : 𝕜) := by
      rw [sum_congr rfl fun f hf => by rw [hA _ he f hf, sum_mul], sum_comm]
      rw [sum_eq_single (old k)]
      · rw [sum_congr rfl fun f _ => mul_assoc (U [x, y] (old k) * (σ (old k) : 𝕜)) (star (V f (old k))) (V f (old k)), ← mul_sum, hV _ _ h1 h1, if_pos rfl, mul_one]
      · intro m hm hne
        rw [sum_congr rfl fun f _ => mul_assoc (U [x, y] m * (σ m : 𝕜)) (star (V f m)) (V f (old k)), ← mul_sum, hV _ _ (mem_range.1 hm) h1, if_neg hne, mul_zero]
      · intro hm; exact absurd (mem_range.2 h1) hm
    have e2 : ∑ f ∈ configs [t, r], θ.f ([x, y] ++ f) * V f (old k) = 0 := by
      refine sum_eq_zero fun f hf => ?_
      have hf' := MP.mem_configs.1 hf
      unfold InRange at hf'
      obtain ⟨y', o1, hy', ho1, rfl⟩ := List.forall₂_cons_right_iff.1 hf'
      obtain ⟨z, o2, hz, ho2, rfl⟩ := List.forall₂_cons_right_iff.1 ho1
      cases ho2
      rw [show [x, y] ++ [y', z] = [x, y, y', z] from rfl, hθ y y' z hy hy' hz, zero_mul]
    rw [e2] at e1
    rcases mul_eq_zero.1 e1.symm with e3 | e3
    · rw [e3, zero_mul]
    · exact absurd (RCLike.ofReal_eq_zero.1 e3) (by linarith)
  · rw [hD.uDead k _ hk la he, zero_mul]

theorem DeadSites.zeroCol {θ : Blk 𝕜} (h : DeadSites A B U' V' σ' α β c l s t r K' live) (hD : DeadBond thr U U' V V' σ σ' [l, s] [t, r] K K' live old)
    (h0 : 0 ≤ thr) (hU : ∀ a b, a < K → b < K → ∑ e ∈ configs [l, s], star (U e a) * U e b = if a = b then 1 else 0)
    (hA : ∀ e ∈ configs [l, s], ∀ f ∈ configs [t, r], θ.f (e ++ f) = ∑ k ∈ range K, U e k * (σ k : 𝕜) * star (V f k)) (z : Nat) (hz : z < r)
    (hθ : ∀ x y y', x < l → y < s → y' < t → θ.f [x, y, y', z] = 0) : ZeroCol B z := by
  intro k y' hk hy'
  rw [h.dimsB] at hy' hk
  simp only [List.getD_cons_zero, List.getD_cons_succ] at hy' hk
  have he : [y', z] ∈ configs [t, r] := MP.mem_configs.2 (.cons hy' (.cons hz .nil))
  rw [h.fB k y' z hk hy' hz]
  by_cases la : live k
  · obtain ⟨h1, h2⟩ := hD.into k hk la
    rw [hD.vLive k _ hk la he]
    have e1 : ∑ e ∈ configs [l, s], star (U e (old k)) * θ.f (e ++ [y', z]) = (σ (old k) : 𝕜) * star (V [y', z] (old k)) := by
      rw [sum_congr rfl fun e hf => by rw [hA e hf _ he, mul_sum], sum_comm]
      rw [sum_eq_single (old k)]
      · rw [sum_congr rfl fun e _ => show star (U e (old k)) * (U e (old k) * (σ (old k) : 𝕜) * star (V [y', z] (old k)))
            = star (U e (old k)) * U e (old k) * ((σ (old k) : 𝕜) * star (V [y', z] (old k))) by ring, ← sum_mul, hU _ _ h1 h1, if_pos rfl, one_mul]
      · intro m hm hne
        rw [sum_congr rfl fun e _ => show star (U e (old k)) * (U e m * (σ m : 𝕜) * star (V [y', z] m))
            = star (U e (old k)) * U e m * ((σ m : 𝕜) * star (V [y', z] m)) by ring, ← sum_mul, hU _ _ h1 (mem_range.1 hm), if_neg hne.symm, zero_mul]
      · intro hm; exact absurd (mem_range.2 h1) hm
    have e2 : ∑ e ∈ configs [l, s], star (U e (old k)) * θ.f (e ++ [y', z]) = 0 := by
      refine sum_eq_zero fun f hf => ?_
      have hf' := MP.mem_configs.1 hf
      unfold InRange at hf'
      obtain ⟨x, o1, hx, ho1, rfl⟩ := List.forall₂_cons_right_iff.1 hf'
      obtain ⟨y, o2, hy, ho2, rfl⟩ := List.forall₂_cons_right_iff.1 ho1
      cases ho2
      rw [show [x, y] ++ [y', z] = [x, y, y', z] from rfl, hθ x y y' hx hy hy', mul_zero]
    rw [e2] at e1
    rcases mul_eq_zero.1 e1.symm with e3 | e3
    · exact absurd (RCLike.ofReal_eq_zero.1 e3) (by linarith)
    · rw [e3, zero_mul]
  · rw [hD.vDead k _ hk la he, star_zero, zero_mul]

end DM
end QuantiT
