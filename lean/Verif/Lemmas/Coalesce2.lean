import Verif.Lemmas.Coalesce
/-
What one turn of the compression does to the operator.
-/
namespace QuantiT.BN
open Spec BT MP Finset
variable {G 𝕜 : Type} [RCLike 𝕜]

theorem entry4_range [AddCommMonoid G] {W : BT G 𝕜} {l s n t : Dim G} (dW : W.shape = [l, s, n, t]) {x c k c' : Nat} (h : entry W.shape W.blocks [x, c, k, c'] ≠ 0) :
    x < dimSize l ∧ c < dimSize s ∧ k < dimSize n ∧ c' < dimSize t := by
  have : ∃ p, locateAll W.shape [x, c, k, c'] = some p := by
    unfold entry at h
    cases hl : locateAll W.shape [x, c, k, c'] with
    | none => rw [hl] at h; exact absurd rfl h
    | some p => exact ⟨p, rfl⟩
  have := locateAll_isSome.1 this
  rw [dW] at this
  unfold InRange at this
  cases this with
  | cons g1 this => cases this with
    | cons g2 this => cases this with
      | cons g3 this => cases this with
        | cons g4 this => exact ⟨g1, g2, g3, g4⟩

theorem mpo_one [AddCommGroup G] [DecidableEq G] (W : BT G 𝕜) (τ σ : Nat → Nat) (l k : Nat) : mpoEntry [denseOf W] τ σ l k =
    if k < dimSize (W.shape.getD 2 []) then entry W.shape W.blocks [l, τ 0, k, σ 0] else 0 := by
  show ∑ y ∈ range ((W.shape.map dimSize).getD 2 0), entry W.shape W.blocks [l, τ 0, y, σ 0] * (if y = k then 1 else 0) = _
  rw [getD_dimSize]
  simp

/-- Replacing two neighbours with the same product. -/
theorem pair_same [AddCommMonoid G] {W next A B : BT G 𝕜} {l s n t n' s' r t' b b' : Dim G} (dW : W.shape = [l, s, n, t]) (dN : next.shape = [n', s', r, t'])
    (dA : A.shape = [l, s, b, t]) (dB : B.shape = [b', s', r, t'])
    (hp : ∀ x c k c' d d', x < dimSize l → c < dimSize s → c' < dimSize t → d < dimSize s' → k < dimSize r → d' < dimSize t' →
        ∑ y ∈ range (dimSize b), entry A.shape A.blocks [x, c, y, c'] * entry B.shape B.blocks [y, d, k, d'] =
          ∑ y ∈ range (dimSize n), entry W.shape W.blocks [x, c, y, c'] * entry next.shape next.blocks [y, d, k, d'])
    (post : List (Blk 𝕜)) (τ σ : Nat → Nat) (x z : Nat) :
    mpoEntry (denseOf A :: denseOf B :: post) τ σ x z = mpoEntry (denseOf W :: denseOf next :: post) τ σ x z := by
  have hexp : ∀ (X Y : BT G 𝕜) (m m' : Dim G), X.shape = [l, s, m, t] → Y.shape = [m', s', r, t'] →
      mpoEntry (denseOf X :: denseOf Y :: post) τ σ x z = ∑ k ∈ range (dimSize r), (∑ y ∈ range (dimSize m),
        entry X.shape X.blocks [x, τ 0, y, σ 0] * entry Y.shape Y.blocks [y, τ 1, k, σ 1]) * mpoEntry post (fun j => τ (j + 2)) (fun j => σ (j + 2)) k z := by
    intro X Y m m' hX hY
    have e1 : (denseOf X).dims.getD 2 0 = dimSize m := by show (X.shape.map dimSize).getD 2 0 = _; rw [hX]; rfl
    have e2 : (denseOf Y).dims.getD 2 0 = dimSize r := by show (Y.shape.map dimSize).getD 2 0 = _; rw [hY]; rfl
    simp only [mpoEntry, e1, e2]
    simp only [mul_sum]
    rw [sum_comm]
    refine sum_congr rfl fun k _ => ?_
    rw [sum_mul]
    exact sum_congr rfl fun y _ => by rw [mul_assoc]; rfl
  rw [hexp A B b b' dA dB, hexp W next n n' dW dN]
  refine sum_congr rfl fun k hk => ?_
  congr 1
  by_cases h : x < dimSize l ∧ τ 0 < dimSize s ∧ σ 0 < dimSize t ∧ τ 1 < dimSize s' ∧ σ 1 < dimSize t'
  · exact hp x (τ 0) k (σ 0) (τ 1) (σ 1) h.1 h.2.1 h.2.2.1 h.2.2.2.1 (mem_range.1 hk) h.2.2.2.2
  · have hzero : ∀ (X Y : BT G 𝕜) (m m' : Dim G), X.shape = [l, s, m, t] → Y.shape = [m', s', r, t'] →
        ∑ y ∈ range (dimSize m), entry X.shape X.blocks [x, τ 0, y, σ 0] * entry Y.shape Y.blocks [y, τ 1, k, σ 1] = 0 := by
      intro X Y m m' hX hY
      refine sum_eq_zero fun y _ => ?_
      by_contra hcon
      obtain ⟨a1, a2, a3, a4⟩ := entry4_range hX (left_ne_zero_of_mul hcon)
      obtain ⟨c1, c2, c3, c4⟩ := entry4_range hY (right_ne_zero_of_mul hcon)
      exact h ⟨a1, a2, a4, c2, c4⟩
    rw [hzero A B b b' dA dB, hzero W next n n' dW dN]

/-- Orthogonal columns are linearly independent. -/
theorem ortho_independent {A : BT G 𝕜} {l s b t : Dim G} (h : OrthoCols A l s b t) (f : Nat → 𝕜)
    (h0 : ∀ x c c', x < dimSize l → c < dimSize s → c' < dimSize t → ∑ k ∈ range (dimSize b), entry A.shape A.blocks [x, c, k, c'] * f k = 0) :
    ∀ k, k < dimSize b → f k = 0 := by
  intro k hk
  have h1 : ∑ e ∈ configs [dimSize l, dimSize s, dimSize t], star (entry A.shape A.blocks [e.getD 0 0, e.getD 1 0, k, e.getD 2 0]) *
      ∑ k' ∈ range (dimSize b), entry A.shape A.blocks [e.getD 0 0, e.getD 1 0, k', e.getD 2 0] * f k' = 0 := by
    refine sum_eq_zero fun e he => ?_
    have he := MP.mem_configs.1 he
    unfold InRange at he
    obtain ⟨x, e', hx, he', rfl⟩ := List.forall₂_cons_right_iff.1 he
    obtain ⟨c, e'', hc, he'', rfl⟩ := List.forall₂_cons_right_iff.1 he'
    obtain ⟨c', e''', hc', he''', rfl⟩ := List.forall₂_cons_right_iff.1 he''
    cases he'''
    simp only [List.getD_cons_zero, List.getD_cons_succ]
    rw [h0 x c c' hx hc hc', mul_zero]
  simp only [mul_sum] at h1
  rw [sum_comm] at h1
  rw [sum_eq_single k] at h1
  · simp only [← mul_assoc] at h1
    rw [← sum_mul] at h1
    rcases mul_eq_zero.1 h1 with h2 | h2
    · exact absurd rfl ((h k k hk hk).1 h2)
    · exact h2
  · intro k' hk' hne
    simp only [← mul_assoc]
    rw [← sum_mul, (h k k' hk (mem_range.1 hk')).2 (Ne.symm hne), zero_mul]
  · intro hn
    exact absurd (mem_range.2 hk) hn

theorem rightDim_head [AddCommGroup G] [DecidableEq G] {B X : BT G 𝕜} (h : B.shape.getD 2 [] = X.shape.getD 2 []) (Ws : List (BT G 𝕜)) : rightDim (B :: Ws) = rightDim (X :: Ws) := by
  cases Ws with
  | nil => simpa [rightDim] using h
  | cons Y Ws => rw [rightDim_cons, rightDim_cons]

theorem chained_cons4 [AddCommMonoid G] {A : BT G 𝕜} {out : List (BT G 𝕜)} (sA : Sound A) (rA : A.shape.length = 4) (h0 : out ≠ []) (ho : Chained 4 out)
    (hop : Opposite (A.shape.getD 2 []) (leftDim out)) : Chained 4 (A :: out) := by
  refine ⟨fun W hW => ?_, fun i W W' h h' => ?_⟩
  · rcases List.mem_cons.1 hW with rfl | hW
    · exact ⟨sA, rA⟩
    · exact ho.1 W hW
  · cases i with
    | zero =>
      obtain ⟨B, out, rfl⟩ := List.exists_cons_of_ne_nil h0
      simp at h h'
      subst h h'
      exact hop
    | succ i => exact ho.2 i W W' (by simpa using h) (by simpa using h')

end QuantiT.BN
