import Verif.Lemmas.Coalesce2
/-
C104: compressing an operator chain.
-/
namespace QuantiT.BN
open Spec BT MP Finset
variable {G 𝕜 : Type} [RCLike 𝕜]

/-- The operator chain `Ws` can be compressed: well formed, with no dimension and no section of size zero, and every charge of a bond within
reach of the left end; the matrices to decompose have fewer than 2^63 rows. -/
structure Compressible [AddCommMonoid G] (Ws : List (BT G 𝕜)) : Prop where
  chain : Chained 4 Ws
  pos : ∀ W ∈ Ws, ∀ d ∈ W.shape, 0 < dimSize d
  sections : ∀ W ∈ Ws, NoEmpty W.shape
  size : ∀ W ∈ Ws, dimSize (W.shape.getD 0 []) * dimSize (W.shape.getD 1 []) * dimSize (W.shape.getD 3 []) < 2 ^ 63
  reached : Reached Ws

/-- **C104.**  `coalesce()` of an operator chain returns a chain of as many tensors with the same outer dimensions and the same operator.
No bond gets larger; after it no bond is larger than what the tensor to its left can need, and no element of a bond is redundant seen from
the left. -/
theorem C104_coalesce_partial [AddCommGroup G] [LinearOrder G] {fac : Blk 𝕜 → Blk 𝕜 × Blk 𝕜 × Blk 𝕜} (hfac : DenseSvd fac) (eps : ℝ) (he0 : 0 < eps)
    (he1 : eps ≤ 1 / 2) (Ws : List (BT G 𝕜)) (h0 : Ws ≠ []) (hW : Compressible Ws) :
    ∃ N out, (∀ fuel, N ≤ fuel → coalesceB fuel fac eps 0 Ws = some (.ok out)) ∧ out.length = Ws.length ∧ Chained 4 out ∧ SameOuterOp Ws out ∧
      (∀ τ σ l r, mpoEntry (out.map denseOf) τ σ l r = mpoEntry (Ws.map denseOf) τ σ l r) ∧
      (∀ i W W', Ws[i]? = some W → out[i]? = some W' → dimSize (W'.shape.getD 2 []) ≤ dimSize (W.shape.getD 2 []) ∧
        (i + 1 < Ws.length → dimSize (W'.shape.getD 2 []) ≤ dimSize (W'.shape.getD 0 []) * dimSize (W'.shape.getD 1 []) * dimSize (W'.shape.getD 3 []))) ∧
      LeftIndependent out ∧ ∀ W ∈ out, NoEmpty W.shape ∧ ∀ d ∈ W.shape, 0 < dimSize d := by
  obtain ⟨W, post, rfl⟩ := List.exists_cons_of_ne_nil h0
  clear h0
  induction post generalizing W with
  | nil =>
    refine ⟨0, [W], fun fuel _ => by rw [coalesceB], rfl, hW.chain, ⟨rfl, rfl, rfl, rfl, rfl⟩, fun _ _ _ _ => rfl, ?_, ?_, ?_⟩
    · intro i X X' h h'
      rw [h] at h'
      cases h'
      refine ⟨le_rfl, fun hi => ?_⟩
      simp at hi
    · intro i hi
      simp at hi
    · intro X hX
      exact ⟨hW.sections X hX, hW.pos X hX⟩
  | cons next post ih =>
    obtain ⟨sW, rW⟩ := hW.chain.1 W (by simp)
    obtain ⟨sN, rN⟩ := hW.chain.1 next (by simp)
    obtain ⟨l, s, n, t, dW⟩ : ∃ a b c d, W.shape = [a, b, c, d] := by
      match h : W.shape, rW with
      | [a, b, c, d], _ => exact ⟨a, b, c, d, rfl⟩
    obtain ⟨n', s', r, t', dN⟩ : ∃ a b c d, next.shape = [a, b, c, d] := by
      match h : next.shape, rN with
      | [a, b, c, d], _ => exact ⟨a, b, c, d, rfl⟩
    have hnn : Opposite n n' := by
      have := hW.chain.2 0 W next rfl rfl
      rw [dW, dN] at this
      exact this
    have hsize := hW.size W (by simp)
    rw [dW] at hsize
    obtain ⟨N1, A, B, b, a1, dA, dB, a2, a3, sA, sB, ⟨b1, b2, b3, b4⟩, hp, ho⟩ := coalesceStep_ok hfac sW sN dW dN hnn (hW.pos W (by simp))
      (hW.sections W (by simp)) hsize eps he0 he1 (by
        intro k hk
        have hr : rightDim ((W :: next :: post).take (0 + 1)) = n := by simp [rightDim, dW]
        obtain ⟨k', x, τ, σ, g1, g2⟩ := hW.reached 0 (by simp) k (by rw [hr]; exact hk)
        rw [hr] at g1
        simp only [zero_add, List.take_succ_cons, List.take_zero, List.map_cons, List.map_nil] at g2
        rw [mpo_one] at g2
        exact ⟨k', x, τ 0, σ 0, g1, fun h => g2 (by rw [h]; simp)⟩)
    have hsame : ∀ (p : List (Blk 𝕜)) τ σ x z, mpoEntry (denseOf A :: denseOf B :: p) τ σ x z = mpoEntry (denseOf W :: denseOf next :: p) τ σ x z :=
      pair_same dW dN dA dB hp
    have h2B : B.shape.getD 2 [] = next.shape.getD 2 [] := by rw [dB, dN]; rfl
    have hbs : dimSize (flipped b) = dimSize b := dimSize_flipped b
    have hB : Compressible (B :: post) := by
      refine ⟨?_, ?_, ?_, ?_, ?_⟩
      · refine ⟨fun X hX => ?_, fun i X X' h h' => ?_⟩
        · rcases List.mem_cons.1 hX with rfl | hX
          · exact ⟨sB, by rw [dB]; rfl⟩
          · exact hW.chain.1 X (by simp [hX])
        · cases i with
          | zero =>
            simp only [List.getElem?_cons_zero, Option.some.injEq] at h
            subst h
            rw [h2B]
            exact hW.chain.2 1 next X' rfl (by simpa using h')
          | succ i => exact hW.chain.2 (i + 2) X X' (by simpa using h) (by simpa using h')
      · intro X hX
        rcases List.mem_cons.1 hX with rfl | hX
        · rw [dB]
          intro d hd
          have hN := hW.pos next (by simp)
          rw [dN] at hN
          simp only [List.mem_cons, List.not_mem_nil, or_false] at hd
          rcases hd with rfl | rfl | rfl | rfl
          · rw [hbs]
            obtain ⟨q, b', rfl⟩ := List.exists_cons_of_ne_nil b1
            have := b2 q (by simp)
            simp [dimSize]
            omega
          · exact hN _ (by simp)
          · exact hN _ (by simp)
          · exact hN _ (by simp)
        · exact hW.pos X (by simp [hX])
      · intro X hX
        rcases List.mem_cons.1 hX with rfl | hX
        · rw [dB]
          intro d hd
          have hN := hW.sections next (by simp)
          rw [dN] at hN
          simp only [List.mem_cons, List.not_mem_nil, or_false] at hd
          rcases hd with rfl | rfl | rfl | rfl
          · intro q hq
            unfold flipped at hq
            obtain ⟨q', hq', rfl⟩ := List.mem_map.1 hq
            exact b2 q' hq'
          · exact hN _ (by simp)
          · exact hN _ (by simp)
          · exact hN _ (by simp)
        · exact hW.sections X (by simp [hX])
      · intro X hX
        rcases List.mem_cons.1 hX with rfl | hX
        · have hN := hW.size next (by simp)
          rw [dN] at hN
          rw [dB]
          simp only [List.getD_cons_zero, List.getD_cons_succ] at hN ⊢
          rw [hbs]
          refine lt_of_le_of_lt ?_ hN
          rw [← dimSize_opposite hnn]
          gcongr
        · exact hW.size X (by simp [hX])
      · intro i hi k hk
        have hr : rightDim ((W :: next :: post).take (i + 1 + 1)) = rightDim ((B :: post).take (i + 1)) := by
          rw [List.take_succ_cons, List.take_succ_cons, rightDim_cons, List.take_succ_cons]
          exact (rightDim_head h2B _).symm
        obtain ⟨k', x, τ, σ, g1, g2⟩ := hW.reached (i + 1) (by simpa using hi) k (by rw [hr]; exact hk)
        rw [hr] at g1
        rw [List.take_succ_cons, List.take_succ_cons, List.map_cons, List.map_cons, ← hsame] at g2
        obtain ⟨y, hy, hne⟩ := Finset.exists_ne_zero_of_sum_ne_zero g2
        refine ⟨k', y, fun j => τ (j + 1), fun j => σ (j + 1), g1, ?_⟩
        rw [List.take_succ_cons, List.map_cons]
        exact right_ne_zero_of_mul hne
    obtain ⟨N2, out, i1, i2, i3, i4, i5, i6, i7, i8⟩ := ih B hB
    have hout : out ≠ [] := by
      rintro rfl
      simp at i2
    have hleft : leftDim out = flipped b := by rw [i4.left]; simp [leftDim, dB]
    refine ⟨max N1 N2, A :: out, ?_, by simp [i2], ?_, ?_, ?_, ?_, ?_, ?_⟩
    · intro fuel hf
      rw [coalesceB, a1 fuel (by omega), andThen_ok, i1 fuel (by omega), andThen_ok]
    · refine chained_cons4 sA (by rw [dA]; rfl) hout i3 ?_
      rw [hleft, dA]
      exact opposite_flipped b
    · refine ⟨?_, ?_, ?_, ?_, ?_⟩
      · simp only [List.map_cons, i4.rows]
        simp [dA, dB, dW, dN]
      · simp only [List.map_cons, i4.cols]
        simp [dA, dB, dW, dN]
      · simp [leftDim, dA, dW]
      · obtain ⟨X, out', rfl⟩ := List.exists_cons_of_ne_nil hout
        rw [rightDim_cons, rightDim_cons, i4.right]
        exact rightDim_head h2B _
      · have := i4.rule
        simp only [List.map_cons] at this ⊢
        rw [this, a2, a3]
    · intro τ σ x z
      rw [List.map_cons, List.map_cons, List.map_cons, ← hsame]
      simp only [mpoEntry]
      refine sum_congr rfl fun y _ => ?_
      rw [i5]
      rfl
    · intro i X X' h h'
      cases i with
      | zero =>
        simp only [List.getElem?_cons_zero, Option.some.injEq] at h h'
        subst h h'
        rw [dA, dW]
        exact ⟨b3, fun _ => b4⟩
      | succ i =>
        simp only [List.getElem?_cons_succ] at h h'
        cases i with
        | zero =>
          simp only [List.getElem?_cons_zero, Option.some.injEq] at h
          subst h
          obtain ⟨j1, j2⟩ := i6 0 B X' rfl h'
          exact ⟨by rw [← h2B]; exact j1, fun hi => j2 (by simpa using hi)⟩
        | succ i =>
          obtain ⟨j1, j2⟩ := i6 (i + 1) X X' (by simpa using h) h'
          exact ⟨j1, fun hi => j2 (by simpa using hi)⟩
    · intro i hi c hc
      cases i with
      | zero =>
        have hr : rightDim ((A :: out).take (0 + 1)) = b := by simp [rightDim, dA]
        rw [hr] at hc ⊢
        refine ortho_independent ho c fun x y y' _ _ _ => ?_
        have := hc (fun _ => y) (fun _ => y') x
        rw [← this]
        refine sum_congr rfl fun k hk => ?_
        simp only [zero_add, List.take_succ_cons, List.take_zero, List.map_cons, List.map_nil]
        rw [mpo_one, if_pos (by rw [dA]; exact mem_range.1 hk)]
      | succ i =>
        obtain ⟨X, out', hX⟩ := List.exists_cons_of_ne_nil hout
        have hr : rightDim ((A :: out).take (i + 1 + 1)) = rightDim (out.take (i + 1)) := by
          rw [hX, List.take_succ_cons, List.take_succ_cons, rightDim_cons]
        rw [hr] at hc ⊢
        refine i7 i (by simpa using hi) c fun τ σ x => ?_
        by_cases hx : x < dimSize b
        · refine ortho_independent ho (fun x => ∑ k ∈ range (dimSize (rightDim (out.take (i + 1)))), mpoEntry ((out.take (i + 1)).map denseOf) τ σ x k * c k)
            (fun y z z' _ _ _ => ?_) x hx
          have := hc (fun j => if j = 0 then z else τ (j - 1)) (fun j => if j = 0 then z' else σ (j - 1)) y
          rw [← this]
          simp only [mul_sum]
          rw [sum_comm]
          refine sum_congr rfl fun k _ => ?_
          rw [List.take_succ_cons, List.map_cons]
          simp only [mpoEntry, sum_mul]
          rw [show (denseOf A).dims.getD 2 0 = dimSize b by show (A.shape.map dimSize).getD 2 0 = _; rw [dA]; rfl]
          refine sum_congr rfl fun y _ => ?_
          simp [mul_assoc, denseOf]
        · refine sum_eq_zero fun k _ => ?_
          rw [hX, List.take_succ_cons, List.map_cons]
          simp only [mpoEntry, sum_mul]
          refine sum_eq_zero fun y _ => ?_
          by_contra hcon
          have hne := left_ne_zero_of_mul (left_ne_zero_of_mul hcon)
          obtain ⟨sX, rX⟩ := i3.1 X (by rw [hX]; simp)
          obtain ⟨p0, p1, p2, p3, dX⟩ : ∃ a b c d, X.shape = [a, b, c, d] := by
            match h : X.shape, rX with
            | [a, b, c, d], _ => exact ⟨a, b, c, d, rfl⟩
          have h1 := (entry4_range dX hne).1
          rw [hX] at hleft
          simp [leftDim, dX] at hleft
          rw [hleft, hbs] at h1
          exact hx h1
    · intro X hX
      rcases List.mem_cons.1 hX with rfl | hX
      · have q1 := hW.sections W (by simp)
        have q2 := hW.pos W (by simp)
        rw [dW] at q1 q2
        rw [dA]
        constructor
        · intro d hd
          simp only [List.mem_cons, List.not_mem_nil, or_false] at hd
          rcases hd with rfl | rfl | rfl | rfl
          · exact q1 _ (by simp)
          · exact q1 _ (by simp)
          · exact b2
          · exact q1 _ (by simp)
        · intro d hd
          simp only [List.mem_cons, List.not_mem_nil, or_false] at hd
          rcases hd with rfl | rfl | rfl | rfl
          · exact q2 _ (by simp)
          · exact q2 _ (by simp)
          · obtain ⟨q, b', rfl⟩ := List.exists_cons_of_ne_nil b1
            have := b2 q (by simp)
            simp [dimSize]
            omega
          · exact q2 _ (by simp)
      · exact i8 X hX

/-- **C104 fails** for a chain without tensors: the loop compares with an iterator past the end. -/
theorem C104_empty_fails [AddCommGroup G] [LinearOrder G] (fuel : Nat) (fac : Blk 𝕜 → Blk 𝕜 × Blk 𝕜 × Blk 𝕜) (eps cutoff : ℝ) :
    coalesceB (G := G) fuel fac eps cutoff [] = some Res.ub := by
  rw [coalesceB]

end QuantiT.BN
