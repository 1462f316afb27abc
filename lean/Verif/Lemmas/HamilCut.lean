import Verif.Props.Coalesce
import Verif.Props.BlockHamil
/-
The chains of the model Hamiltonians with conserved quantities can be compressed.
-/
set_option linter.unusedSectionVars false
namespace QuantiT
namespace BN
open Spec BT MP HM Finset
variable {R : Type} [CommSemiring R]

/-- The tensor `D` has the entries of the tensor `W` of the bulk. -/
def LikeBulk (W : Blk R) (d k : Nat) (D : Blk R) : Prop :=
  D.dims.getD 2 0 = k + 2 ∧ ∀ a s b t, a < k + 2 → s < d → b < k + 2 → t < d → D.f [a, s, b, t] = W.f [a, s, b, t]

theorem waiting_only {W : Blk R} {d k : Nat} {A B : Nat → Nat → Nat → R} {loc : Nat → Nat → R} (hW : Channels W d k A B loc) (Ds : List (Blk R))
    (hD : ∀ D ∈ Ds, LikeBulk W d k D) (τ σ : Nat → Nat) (hτ : ∀ j, τ j < d) (hσ : ∀ j, σ j < d) (a c : Nat) (ha : a ≤ k) (hc : 0 < c)
    (h0 : Ds = [] → a ≠ c) : mpoEntry Ds τ σ a c = 0 := by
  induction Ds generalizing τ σ a with
  | nil => simp [mpoEntry, h0 rfl]
  | cons D Ds ih =>
    obtain ⟨d1, d2⟩ := hD D (by simp)
    simp only [mpoEntry]
    refine sum_eq_zero fun y hy => ?_
    rw [d1, mem_range] at hy
    rw [d2 a _ y _ (by omega) (hτ 0) hy (hσ 0)]
    rcases Nat.eq_zero_or_pos y with rfl | hy0
    · rw [ih (fun D h => hD D (by simp [h])) _ _ (fun j => hτ _) (fun j => hσ _) 0 (by omega) (fun _ => by omega), mul_zero]
    · rw [hW.zero a y _ _ ha hy0 (hτ 0) (hσ 0), zero_mul]

theorem waiting_reaches [NoZeroDivisors R] [Nontrivial R] {W : Blk R} {d k : Nat} {A B : Nat → Nat → Nat → R} {loc : Nat → Nat → R} (hd : 0 < d) (hW : Channels W d k A B loc)
    (c s t : Nat) (hc : 0 < c) (hck : c < k + 2) (hs : s < d) (ht : t < d) (hne : W.f [k + 1, s, c, t] ≠ 0) (Ds : List (Blk R)) (h0 : Ds ≠ [])
    (hD : ∀ D ∈ Ds, LikeBulk W d k D) :
    ∃ τ σ, (∀ j, τ j < d) ∧ (∀ j, σ j < d) ∧ mpoEntry Ds τ σ (k + 1) c ≠ 0 := by
  induction Ds with
  | nil => exact absurd rfl h0
  | cons D Ds ih =>
    obtain ⟨d1, d2⟩ := hD D (by simp)
    by_cases hDs : Ds = []
    · subst hDs
      refine ⟨fun _ => s, fun _ => t, fun _ => hs, fun _ => ht, ?_⟩
      simp only [mpoEntry, d1]
      rw [sum_eq_single c]
      · simp only [if_true, mul_one]
        rw [d2 _ _ _ _ (by omega) hs hck ht]
        exact hne
      · intro b _ hb
        simp [hb]
      · intro h
        exact absurd (mem_range.2 hck) h
    · obtain ⟨τ, σ, g1, g2, g3⟩ := ih hDs (fun D h => hD D (by simp [h]))
      refine ⟨fun j => if j = 0 then 0 else τ (j - 1), fun j => if j = 0 then 0 else σ (j - 1), fun j => ?_, fun j => ?_, ?_⟩
      · show (if j = 0 then 0 else τ (j - 1)) < d
        split_ifs
        · exact hd
        · exact g1 _
      · show (if j = 0 then 0 else σ (j - 1)) < d
        split_ifs
        · exact hd
        · exact g2 _
      · simp only [mpoEntry, d1]
        rw [sum_eq_single (k + 1)]
        · simp only [if_true, Nat.add_eq_zero_iff, one_ne_zero, and_false, if_false, Nat.add_sub_cancel]
          rw [d2 _ _ _ _ (by omega) hd (by omega) hd, hW.wait 0 0 hd hd]
          simpa [del] using g3
        · intro b hb hbk
          rw [mem_range] at hb
          simp only [Nat.add_eq_zero_iff, one_ne_zero, and_false, if_false, Nat.add_sub_cancel]
          rw [waiting_only hW Ds (fun D h => hD D (by simp [h])) τ σ g1 g2 b c (by omega) hc (fun h => absurd h hDs), mul_zero]
        · intro h
          exact absurd (mem_range.2 (by omega)) h

variable {G : Type} [AddCommGroup G] [DecidableEq G]
variable {bond ph : Dim G} {k d : Nat} {W : Blk ℝ}

/-- The converted chain of a Hamiltonian can be compressed. -/
theorem hamil_compressible {A B : Nat → Nat → Nat → ℝ} {loc : Nat → Nat → ℝ} (hb : dimSize bond = k + 2) (hp : dimSize ph = d) (hd : 0 < d)
    (hW : Channels W d k A B loc) (hbl : bond.length < 2 ^ 63) (hpl : ph.length < 2 ^ 63) (hbs : ∀ s ∈ bond, 0 < s.1) (hps : ∀ s ∈ ph, 0 < s.1)
    (hsz : (k + 2) * d * d < 2 ^ 63)
    (hre : ∀ c, c < k + 2 → ∃ c' s t, 0 < c' ∧ c' < k + 2 ∧ s < d ∧ t < d ∧ chargeAt bond c' = chargeAt bond c ∧ W.f [k + 1, s, c', t] ≠ 0)
    (n : Nat) (out : List (BT G ℝ)) (hlen : out.length = n + 2)
    (hT : ∀ i X T, (chainOf n k W)[i]? = some X → out[i]? = some T → T.shape = siteShape (bulk bond ph) (n + 2) i ∧ T.rule = 0 ∧
        Conserving T.shape T.rule T.blocks ∧ ∀ e, InRange e X.dims → entry T.shape T.blocks e = X.f e) : Compressible out := by
  have get : ∀ (i : Nat) T, out[i]? = some T → ∃ X, (chainOf n k W)[i]? = some X := by
    intro i T h
    have := (List.getElem?_eq_some_iff.1 h).1
    exact ⟨_, List.getElem?_eq_getElem (by rw [chainOf_length]; omega)⟩
  have shp : ∀ (i : Nat) T, out[i]? = some T → T.shape = siteShape (bulk bond ph) (n + 2) i := by
    intro i T h
    obtain ⟨X, hX⟩ := get i T h
    exact (hT i X T hX h).1
  have flp : ∀ x : Dim G, (∀ s ∈ x, 0 < s.1) → ∀ s ∈ flipped x, 0 < s.1 := by
    intro x h s hs
    unfold flipped at hs
    obtain ⟨s', h1, rfl⟩ := List.mem_map.1 hs
    exact h s' h1
  have cases3 : ∀ T ∈ out, ∃ l r : Dim G, T.shape = [l, ph, r, flipped ph] ∧ (∀ s ∈ l, 0 < s.1) ∧ (∀ s ∈ r, 0 < s.1) ∧ 0 < dimSize l ∧ 0 < dimSize r ∧
      dimSize l ≤ k + 2 := by
    intro T h
    obtain ⟨i, hi⟩ := List.mem_iff_getElem?.1 h
    rw [shp i T hi]
    have := (List.getElem?_eq_some_iff.1 hi).1
    rcases Nat.eq_zero_or_pos i with rfl | h0
    · rw [siteShape_first hb]
      exact ⟨_, _, rfl, by simp, flp _ hbs, by simp [dimSize], by rw [dimSize_flipped]; omega, by simp [dimSize]⟩
    · by_cases h1 : i = n + 1
      · subst h1
        rw [siteShape_last]
        exact ⟨_, _, rfl, hbs, by simp, by omega, by simp [dimSize], by omega⟩
      · rw [siteShape, if_neg (by omega), if_neg (by omega)]
        exact ⟨_, _, rfl, hbs, flp _ hbs, by omega, by rw [dimSize_flipped]; omega, by omega⟩
  refine ⟨(hamil_chain hb hp hW.dims hbl hpl n out hlen hT).1, ?_, ?_, ?_, ?_⟩
  · intro T h x hx
    obtain ⟨l, r, e, -, -, h1, h2, -⟩ := cases3 T h
    rw [e] at hx
    simp only [List.mem_cons, List.not_mem_nil, or_false] at hx
    rcases hx with rfl | rfl | rfl | rfl
    · exact h1
    · omega
    · exact h2
    · rw [dimSize_flipped]; omega
  · intro T h x hx
    obtain ⟨l, r, e, h1, h2, -⟩ := cases3 T h
    rw [e] at hx
    simp only [List.mem_cons, List.not_mem_nil, or_false] at hx
    rcases hx with rfl | rfl | rfl | rfl
    · exact h1
    · exact hps
    · exact h2
    · exact flp _ hps
  · intro T h
    obtain ⟨l, r, e, -, -, -, -, h3⟩ := cases3 T h
    rw [e]
    simp only [List.getD_cons_zero, List.getD_cons_succ]
    rw [dimSize_flipped, hp]
    refine lt_of_le_of_lt ?_ hsz
    gcongr
  · intro i hi c hc
    have hlast : rightDim (out.take (i + 1)) = flipped bond := by
      obtain ⟨T, hTi⟩ : ∃ T, out[i]? = some T := ⟨_, List.getElem?_eq_getElem (by omega)⟩
      have : (out.take (i + 1)).getLast? = some T := by
        rw [List.getLast?_take, if_neg (by omega), Nat.add_sub_cancel, hTi]
        rfl
      unfold rightDim
      rw [this]
      show T.shape.getD 2 [] = _
      rw [shp i T hTi]
      rcases Nat.eq_zero_or_pos i with rfl | h0
      · rw [siteShape_first hb]; rfl
      · rw [siteShape, if_neg (by omega), if_neg (by omega)]
        rfl
    rw [hlast] at hc ⊢
    rw [dimSize_flipped, hb] at hc
    obtain ⟨c', s, t, h1, h2, h3, h4, h5, h6⟩ := hre c hc
    obtain ⟨T0, rest, rfl⟩ := List.exists_cons_of_ne_nil (show out ≠ [] by rintro rfl; simp at hlen)
    have hDs : ∀ D ∈ ((rest.take i).map denseOf), LikeBulk W d k D := by
      intro D hD
      obtain ⟨T, hT', rfl⟩ := List.mem_map.1 hD
      obtain ⟨j, hj⟩ := List.mem_iff_getElem?.1 hT'
      have hji : j < i := by
        by_contra hcon
        rw [List.getElem?_take, if_neg hcon] at hj
        cases hj
      rw [List.getElem?_take, if_pos hji] at hj
      have hj' : (T0 :: rest)[j + 1]? = some T := by simpa using hj
      obtain ⟨X, hX⟩ := get (j + 1) T hj'
      have hXW : X = W := by
        simp only [List.length_cons] at hi hlen
        rcases chainOf_get hX with ⟨g, -⟩ | ⟨-, -, g⟩ | ⟨g, -⟩
        · omega
        · exact g
        · omega
      subst hXW
      obtain ⟨e1, -, -, e2⟩ := hT (j + 1) X T hX hj'
      have hdim := chain_dims hb hp hW.dims n (j + 1) X hX
      rw [← e1] at hdim
      constructor
      · show (T.shape.map dimSize).getD 2 0 = _
        rw [← hdim, hW.dims]
        rfl
      · intro a s b t ha hs hb' ht
        exact e2 _ (by rw [hW.dims]; exact .cons ha (.cons hs (.cons hb' (.cons ht .nil))))
    have hWW : LikeBulk W d k W := ⟨by rw [hW.dims]; rfl, fun _ _ _ _ _ _ _ _ => rfl⟩
    obtain ⟨τ, σ, g1, g2, g3⟩ := waiting_reaches hd hW c' s t h1 h2 h3 h4 h6 (W :: (rest.take i).map denseOf) (by simp) (by
      intro D hD
      rcases List.mem_cons.1 hD with rfl | hD
      · exact hWW
      · exact hDs D hD)
    refine ⟨c', 0, τ, σ, by rw [chargeAt_flipped, chargeAt_flipped, h5], ?_⟩
    rw [List.take_succ_cons, List.map_cons]
    obtain ⟨X, hX⟩ := get 0 T0 rfl
    obtain ⟨e1, -, -, e2⟩ := hT 0 X T0 hX rfl
    have hdim := chain_dims hb hp hW.dims n 0 X hX
    rw [← e1] at hdim
    have hXW : X = narrow 0 (k + 1) (k + 2) W := by
      rcases chainOf_get hX with ⟨-, g⟩ | ⟨g, -⟩ | ⟨g, -⟩
      · exact g
      · omega
      · omega
    have hXd : X.dims = [1, d, k + 2, d] := by rw [hXW]; simp [narrow, hW.dims]
    intro hcon
    refine g3 (Eq.trans ?_ hcon)
    simp only [mpoEntry]
    rw [show (denseOf T0).dims.getD 2 0 = k + 2 by show (T0.shape.map dimSize).getD 2 0 = _; rw [← hdim, hXd]; rfl, hWW.1]
    refine sum_congr rfl fun y hy => ?_
    congr 1
    rw [show (denseOf T0).f [0, τ 0, y, σ 0] = X.f [0, τ 0, y, σ 0] from
      e2 _ (by rw [hXd]; exact .cons (by omega) (.cons (g1 0) (.cons (mem_range.1 hy) (.cons (g2 0) .nil)))), hXW]
    simp [narrow]

/-- The selection rules and the outer dimensions of the converted chain. -/
theorem hamil_outer (hb : dimSize bond = k + 2) (n : Nat) (out : List (BT G ℝ)) (hlen : out.length = n + 2)
    (hT : ∀ i X T, (chainOf n k W)[i]? = some X → out[i]? = some T → T.shape = siteShape (bulk bond ph) (n + 2) i ∧ T.rule = 0 ∧
        Conserving T.shape T.rule T.blocks ∧ ∀ e, InRange e X.dims → entry T.shape T.blocks e = X.f e) :
    ∀ T ∈ out, T.rule = 0 ∧ T.shape.getD 1 [] = ph ∧ T.shape.getD 3 [] = flipped ph ∧ dimSize (T.shape.getD 2 []) ≤ k + 2 := by
  intro T h
  obtain ⟨i, hi⟩ := List.mem_iff_getElem?.1 h
  have hl := (List.getElem?_eq_some_iff.1 hi).1
  obtain ⟨e1, e2, -⟩ := hT i _ T (List.getElem?_eq_getElem (by rw [chainOf_length]; omega)) hi
  rw [e1]
  refine ⟨e2, ?_⟩
  rcases Nat.eq_zero_or_pos i with rfl | h0
  · rw [siteShape_first hb]
    exact ⟨rfl, rfl, by simp [dimSize_flipped, hb]⟩
  · by_cases h1 : i = n + 1
    · subst h1
      rw [siteShape_last]
      exact ⟨rfl, rfl, by simp [dimSize]⟩
    · rw [siteShape, if_neg (by omega), if_neg (by omega)]
      exact ⟨rfl, rfl, by simp [bulk, dimSize_flipped, hb]⟩

/-- The two ends of the converted chain. -/
theorem hamil_ends {bond ph : Dim G} {n k : Nat} (hb : dimSize bond = k + 2) {out : List (BT G ℝ)} (hlen : out.length = n + 2)
    (hT' : ∀ i X T, (chainOf n k W)[i]? = some X → out[i]? = some T → T.shape = siteShape (bulk bond ph) (n + 2) i ∧ T.rule = 0 ∧
        Conserving T.shape T.rule T.blocks ∧ ∀ e, InRange e X.dims → entry T.shape T.blocks e = X.f e) :
    leftDim out = [(1, chargeAt bond (k + 1))] ∧ rightDim out = [(1, -chargeAt bond 0)] := by
  have hT : ∀ i T, out[i]? = some T → T.shape = siteShape (bulk bond ph) (n + 2) i := fun i T h =>
    (hT' i _ T (List.getElem?_eq_getElem (by
      have := (List.getElem?_eq_some_iff.1 h).1
      rw [chainOf_length]; omega)) h).1
  constructor
  · have h := hT 0 out[0] (List.getElem?_eq_getElem (by omega))
    unfold leftDim
    rw [List.head?_eq_getElem?, List.getElem?_eq_getElem (by omega)]
    simp only
    rw [h, siteShape_first hb]
    rfl
  · have h := hT (n + 1) out[n + 1] (List.getElem?_eq_getElem (by omega))
    unfold rightDim
    rw [List.getLast?_eq_getElem?, hlen, show n + 2 - 1 = n + 1 by omega, List.getElem?_eq_getElem (by omega)]
    simp only
    rw [h, siteShape_last]
    rfl

end BN
end QuantiT
