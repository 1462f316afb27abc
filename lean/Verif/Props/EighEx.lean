import Verif.Props.Eigh
import Mathlib.Analysis.Matrix.Spectrum
/-
C43, C67: the hypotheses are met, and what happens without them.
-/
namespace QuantiT
namespace BT
open Spec Finset Matrix
variable {𝕜 : Type} [RCLike 𝕜]

theorem spectral (n : Nat) (A : Matrix (Fin n) (Fin n) 𝕜) : ∃ p : (Fin n → 𝕜) × Matrix (Fin n) (Fin n) 𝕜, A.IsHermitian →
    A = p.2 * diagonal p.1 * p.2ᴴ ∧ p.2ᴴ * p.2 = 1 := by
  by_cases h : A.IsHermitian
  · refine ⟨(RCLike.ofReal ∘ h.eigenvalues, (h.eigenvectorUnitary : Matrix (Fin n) (Fin n) 𝕜)), fun _ => ⟨?_, ?_⟩⟩
    · have := h.spectral_theorem
      rw [Unitary.conjStarAlgAut_apply] at this
      exact this
    · exact Unitary.coe_star_mul_self h.eigenvectorUnitary
  · exact ⟨(0, 0), fun h' => absurd h' h⟩

/-- The matrix at position `e` of a batch. -/
def matAt (m : Blk 𝕜) (e : List Nat) (n : Nat) : Matrix (Fin n) (Fin n) 𝕜 := fun i j => m.f (e ++ [i.1, j.1])

/-- Number of columns of a batch of matrices. -/
def lastDim (m : Blk 𝕜) : Nat := m.dims.getD (m.dims.length - 1) 0

/-- An exact solver, from the spectral theorem. -/
noncomputable def exactEigh (m : Blk 𝕜) : Blk 𝕜 × Blk 𝕜 :=
  (⟨m.dims.take (m.dims.length - 2) ++ [lastDim m], fun o =>
      if h : o.getD (o.length - 1) 0 < lastDim m then
        (spectral (lastDim m) (matAt m (o.take (o.length - 1)) (lastDim m))).choose.1 ⟨_, h⟩ else 0⟩,
    ⟨m.dims.take (m.dims.length - 2) ++ [lastDim m, lastDim m], fun o =>
      if h : o.getD (o.length - 2) 0 < lastDim m ∧ o.getD (o.length - 1) 0 < lastDim m then
        (spectral (lastDim m) (matAt m (o.take (o.length - 2)) (lastDim m))).choose.2 ⟨_, h.1⟩ ⟨_, h.2⟩ else 0⟩)

theorem exactEigh_sizes : EighSizes (exactEigh (𝕜 := 𝕜)) := by
  intro m ld n h
  unfold exactEigh lastDim
  simp only [h, (getD_last2 ld n n 0).2, take_last2]
  exact ⟨trivial, trivial⟩

theorem exactEigh_at (m : Blk 𝕜) (ld : List Nat) (n : Nat) (h : m.dims = ld ++ [n, n]) (hH : HermitianBlk m ld n) (e : List Nat)
    (he : InRange e ld) : ∃ (d : Fin n → 𝕜) (U : Matrix (Fin n) (Fin n) 𝕜), matAt m e n = U * diagonal d * Uᴴ ∧ Uᴴ * U = 1 ∧
      (∀ k : Fin n, (exactEigh m).1.f (e ++ [k.1]) = d k) ∧ ∀ r k : Fin n, (exactEigh m).2.f (e ++ [r.1, k.1]) = U r k := by
  have hl : lastDim m = n := by
    unfold lastDim
    rw [h, (getD_last2 ld n n 0).2]
  subst hl
  obtain ⟨h1, h2⟩ := (spectral (lastDim m) (matAt m e (lastDim m))).choose_spec (by
    ext i j
    rw [conjTranspose_apply]
    exact (hH e i.1 j.1 he i.2 j.2).symm)
  refine ⟨_, _, h1, h2, ?_, ?_⟩
  · intro k
    have a1 : (e ++ [k.1]).getD ((e ++ [k.1]).length - 1) 0 = k.1 := by simp [List.getD]
    have a2 : (e ++ [k.1]).take ((e ++ [k.1]).length - 1) = e := by simp
    unfold exactEigh
    simp only [a1, a2, k.2, dif_pos]
  · intro r k
    unfold exactEigh
    simp only [(getD_last2 e r.1 k.1 0).1, (getD_last2 e r.1 k.1 0).2, take_last2, r.2, k.2, and_self, dif_pos]

theorem exactEigh_product : EighProduct (exactEigh (𝕜 := 𝕜)) := by
  intro m ld n h hH e r c he hr hc
  obtain ⟨d, U, h1, _, h3, h4⟩ := exactEigh_at m ld n h hH e he
  have := congrFun (congrFun h1 ⟨r, hr⟩) ⟨c, hc⟩
  rw [Matrix.mul_apply] at this
  rw [show m.f (e ++ [r, c]) = _ from this, ← Fin.sum_univ_eq_sum_range (fun k => (exactEigh m).2.f (e ++ [r, k]) * (exactEigh m).1.f (e ++ [k]) *
    star ((exactEigh m).2.f (e ++ [c, k])))]
  refine Finset.sum_congr rfl fun k _ => ?_
  rw [h3, h4 ⟨r, hr⟩ k, h4 ⟨c, hc⟩ k, Matrix.mul_diagonal, conjTranspose_apply]

theorem exactEigh_ortho : EighOrtho (exactEigh (𝕜 := 𝕜)) := by
  intro m ld n h hH e a b he ha hb
  obtain ⟨d, U, _, h2, _, h4⟩ := exactEigh_at m ld n h hH e he
  have := congrFun (congrFun h2 ⟨a, ha⟩) ⟨b, hb⟩
  rw [Matrix.mul_apply, Matrix.one_apply] at this
  rw [← Fin.sum_univ_eq_sum_range (fun r => star ((exactEigh m).2.f (e ++ [r, a])) * (exactEigh m).2.f (e ++ [r, b]))]
  simp only [Fin.mk.injEq] at this
  rw [← this]
  refine Finset.sum_congr rfl fun r _ => ?_
  rw [h4 r ⟨a, ha⟩, h4 r ⟨b, hb⟩, conjTranspose_apply]

/-! ### A hermitian tensor with all its blocks -/

/-- Two sections of charge zero and one of charge one, real entries. -/
def ex67 : BT ℤ ℝ :=
  ⟨[[(1, 0), (1, 0), (2, -1)], [(1, 0), (1, 0), (2, 1)]], 0,
    [([0, 0], ⟨[1, 1], fun _ => 1⟩), ([0, 1], ⟨[1, 1], fun _ => 2⟩), ([1, 0], ⟨[1, 1], fun _ => 2⟩), ([1, 1], ⟨[1, 1], fun _ => 3⟩),
      ([2, 2], ⟨[2, 2], fun o => (o.sum : ℝ)⟩)]⟩

theorem ex67_conserving : Conserving ex67.shape ex67.rule ex67.blocks := by
  refine ⟨by unfold Sorted ex67; simp only; decide, ?_⟩
  intro k b h
  simp only [ex67, List.mem_cons, Prod.mk.injEq, List.not_mem_nil, or_false] at h
  rcases h with ⟨rfl, rfl⟩ | ⟨rfl, rfl⟩ | ⟨rfl, rfl⟩ | ⟨rfl, rfl⟩ | ⟨rfl, rfl⟩
  · exact ⟨[(1, 0), (1, 0)], rfl, by decide, rfl⟩
  · exact ⟨[(1, 0), (1, 0)], rfl, by decide, rfl⟩
  · exact ⟨[(1, 0), (1, 0)], rfl, by decide, rfl⟩
  · exact ⟨[(1, 0), (1, 0)], rfl, by decide, rfl⟩
  · exact ⟨[(2, -1), (2, 1)], rfl, by decide, rfl⟩

theorem ex67_full : ∀ k, Allowed ex67.shape ex67.rule k → lookup ex67.blocks k ≠ none := by
  rintro k ⟨secs, h1, h2⟩
  have hl := (sections_length h1).1
  match k, hl with
  | [i, j], _ =>
    obtain ⟨x, r, x1, x2, rfl⟩ := sections_cons.1 h1
    obtain ⟨y, r, y1, y2, rfl⟩ := sections_cons.1 x2
    have hi := (List.getElem?_eq_some_iff.1 x1).1
    have hj := (List.getElem?_eq_some_iff.1 y1).1
    simp only [List.length_cons, List.length_nil] at hi hj
    simp only [sections, Option.some.injEq] at y2
    subst y2
    have hi' : i = 0 ∨ i = 1 ∨ i = 2 := by omega
    have hj' : j = 0 ∨ j = 1 ∨ j = 2 := by omega
    rcases hi' with rfl | rfl | rfl <;> rcases hj' with rfl | rfl | rfl <;> simp at x1 y1 <;> subst x1 <;> subst y1 <;>
      first
      | (exfalso; revert h2; simp [charge, ex67]; done)
      | simp [ex67, lookup]

theorem ex67_hermitian : ∀ x y, x < 4 → y < 4 → entry ex67.shape ex67.blocks [x, y] = star (entry ex67.shape ex67.blocks [y, x]) := by
  intro x y hx hy
  have hx' : x = 0 ∨ x = 1 ∨ x = 2 ∨ x = 3 := by omega
  have hy' : y = 0 ∨ y = 1 ∨ y = 2 ∨ y = 3 := by omega
  rcases hx' with rfl | rfl | rfl | rfl <;> rcases hy' with rfl | rfl | rfl | rfl <;>
    simp [entry, locateAll, locate, ex67, lookup]

/-- The hypotheses of `C43_eigh_partial` and of both parts of C67 are met, for every dense solver satisfying its laws, of which
there is one. -/
example (fac : Blk ℝ → Blk ℝ × Blk ℝ) (h1 : EighSizes fac) (h2 : EighProduct fac) : ∃ d u r, eighFull fac ex67 = .ok (d, u) ∧
    entry ex67.shape ex67.blocks [1, 0] = 2 ∧ entry ex67.shape ex67.blocks [1, 0] = ∑ k ∈ range (dimSize (r : Dim ℤ)),
      entry u.shape u.blocks [1, k] * entry d.shape d.blocks [k] * star (entry u.shape u.blocks [0, k]) := by
  obtain ⟨d, u, r, e1, _, _, e2⟩ := C67_product_partial fac h1 h2 ex67 [] _ _ rfl ex67_conserving (by unfold ex67; decide) 1 0 rfl (by decide)
    ex67_full rfl (by
      intro o secs ho i x y hx hy
      have : secs = [] := List.length_eq_zero_iff.1 (by simpa using (sections_length ho).2)
      subst this
      have hi := (List.getElem?_eq_some_iff.1 hx).1
      simp only [List.length_cons, List.length_nil] at hi
      have hi' : i = 0 ∨ i = 1 ∨ i = 2 := by omega
      rcases hi' with rfl | rfl | rfl <;> simp at hx hy <;> subst hx <;> subst hy <;> simp [charge, ex67])
    (by
      intro e x y he hx hy
      cases he
      exact ex67_hermitian x y hx hy)
  refine ⟨d, u, r, e1, ?_, e2 [] 1 0 .nil (by decide) (by decide)⟩
  simp [entry, locateAll, locate, ex67, lookup]

example : ∃ d u, ∃ r : Dim ℤ, eighFull exactEigh ex67 = .ok (d, u) ∧ ∀ k < dimSize r,
    ∑ x ∈ range 4, star (entry u.shape u.blocks [x, k]) * entry u.shape u.blocks [x, k] = 1 := by
  obtain ⟨d, u, r, e1, _, e2⟩ := C67_orthonormal_partial exactEigh exactEigh_sizes exactEigh_ortho ex67 _ _ rfl ex67_conserving
    (by unfold ex67; decide) 1 0 rfl (by decide) ex67_full rfl (by
      intro i x y hx hy
      have hi := (List.getElem?_eq_some_iff.1 hx).1
      simp only [List.length_cons, List.length_nil] at hi
      have hi' : i = 0 ∨ i = 1 ∨ i = 2 := by omega
      rcases hi' with rfl | rfl | rfl <;> simp at hx hy <;> subst hx <;> subst hy <;> simp [ex67]) ex67_hermitian
  exact ⟨d, u, r, e1, fun k hk => (e2 k k hk hk).trans (if_pos rfl)⟩

/-! ### What goes wrong -/

/-- The hypotheses of `C43_rule_fails` are met: the tensor `ex41`, whose last dimension starts with a section of charge one. -/
example (fac : Blk ℤ → Blk ℤ × Blk ℤ) : eighFull fac ex41 = .error (.throw .invalidArgument) :=
  C43_rule_fails fac ex41 [] _ _ rfl ex41_conserving (by decide) 1 1 rfl (by simp [ex41]) (by decide)

/-- The hypotheses of `C43_eigh_partial` are met. -/
example (fac : Blk ℝ → Blk ℝ × Blk ℝ) : ∃ d u, eighFull fac ex67 = .ok (d, u) ∧ u.rule = 0 := by
  obtain ⟨d, u, r, h1, _, _, _, h2, _⟩ := C43_eigh_partial fac ex67 [] _ _ rfl ex67_conserving (by unfold ex67; decide) 1 0 rfl (.inr (by decide))
  exact ⟨d, u, h1, h2 (by simp [ex67])⟩

/-- A hermitian matrix with one block above and one below the diagonal, all of charge zero. -/
def exMissing : BT ℤ ℝ :=
  ⟨[[(1, 0), (1, 0)], [(1, 0), (1, 0)]], 0, [([0, 1], ⟨[1, 1], fun _ => 1⟩), ([1, 0], ⟨[1, 1], fun _ => 1⟩)]⟩

theorem exMissing_conserving : Conserving exMissing.shape exMissing.rule exMissing.blocks := by
  refine ⟨by unfold Sorted exMissing; simp only; decide, ?_⟩
  intro k b h
  simp only [exMissing, List.mem_cons, Prod.mk.injEq, List.not_mem_nil, or_false] at h
  rcases h with ⟨rfl, rfl⟩ | ⟨rfl, rfl⟩
  · exact ⟨[(1, 0), (1, 0)], rfl, by decide, rfl⟩
  · exact ⟨[(1, 0), (1, 0)], rfl, by decide, rfl⟩

/-- **C67 fails** when blocks are missing, with every dense solver: the columns of a matrix are placed in the order in which they
are met, so the matrix given to the solver is not hermitian, or, as here, is another hermitian matrix (the identity). -/
theorem C67_missing_fails : ∃ t : BT ℤ ℝ, Conserving t.shape t.rule t.blocks ∧ (∀ d ∈ t.shape, dimSize d = 2) ∧
    (∀ x y, x < 2 → y < 2 → entry t.shape t.blocks [x, y] = star (entry t.shape t.blocks [y, x])) ∧
    ∀ fac, EighSizes fac → EighProduct fac → ∃ d u r, eighFull fac t = .ok (d, u) ∧ u.shape.getD 1 [] = r ∧
      entry t.shape t.blocks [0, 1] ≠ ∑ k ∈ range (dimSize r),
        entry u.shape u.blocks [0, k] * entry d.shape d.blocks [k] * star (entry u.shape u.blocks [1, k]) := by
  refine ⟨exMissing, exMissing_conserving, by simp [exMissing, dimSize], ?_, ?_⟩
  · intro x y hx hy
    have hx' : x = 0 ∨ x = 1 := by omega
    have hy' : y = 0 ∨ y = 1 := by omega
    rcases hx' with rfl | rfl <;> rcases hy' with rfl | rfl <;> simp [entry, locateAll, locate, exMissing, lookup]
  · intro fac hsz hprod
    obtain ⟨m, hm, m1, m2⟩ : ∃ m : Blk ℝ, compactDense exMissing = .ok [⟨m, [], [(0, 0, 1), (1, 1, 2)], [(0, 1, 2), (1, 0, 1)]⟩] ∧
        m.dims = [2, 2] ∧ m.f [0, 0] = 1 ∧ m.f [0, 1] = 0 ∧ m.f [1, 0] = 0 ∧ m.f [1, 1] = 1 := ⟨_, rfl, rfl, rfl, rfl, rfl, rfl⟩
    obtain ⟨gs, g1, g2, _, _⟩ := C41_compact exMissing [] _ _ rfl exMissing_conserving
    rw [hm] at g1
    cases g1
    obtain ⟨mu, md, h1, ⟨u1, u2⟩, d1, d2⟩ := eighFull_eq fac exMissing [] _ _ rfl (by unfold exMissing; decide) _ hm g2 1 0 rfl (.inr (by decide))
    have hH : HermitianBlk m [] 2 := by
      intro e r c he hr hc
      cases he
      have hr' : r = 0 ∨ r = 1 := by omega
      have hc' : c = 0 ∨ c = 1 := by omega
      rcases hr' with rfl | rfl <;> rcases hc' with rfl | rfl <;> simp [m2]
    have hu : ∀ x k, x < 2 → k < 2 → entry [[(1, 0), (1, 0)], [(2, (0 : ℤ))]] mu [x, k] = (fac m).2.f [x, k] := by
      intro x k hx hk
      have hlk : locate [(2, (0 : ℤ))] k = some (0, k) := locate_iff.2 ⟨(2, 0), rfl, hk, by simp [dimSize]⟩
      have hx' : x = 0 ∨ x = 1 := by omega
      have hd := (hsz m [] 2 m1).2
      rcases hx' with rfl | rfl
      · have e1 := entry_pair (lead := []) (e := []) (d1 := [(1, (0 : ℤ)), (1, 0)]) (x := 0) (i := 0) (xo := 0) mu rfl rfl hlk
        have e2 := (factor_entry u2 [] [] 0 0 0 k).1 _ (0, 0, 1) rfl rfl (by simp) rfl
        have e3 := (rowsOf_eq (ld := []) hd (s := (0, 1)) (by omega) (by omega)).2 [] 0 k rfl
        simp only [List.nil_append] at e1 e2 e3
        rw [e1, e2, e3]
      · have e1 := entry_pair (lead := []) (e := []) (d1 := [(1, (0 : ℤ)), (1, 0)]) (x := 1) (i := 1) (xo := 0) mu rfl rfl hlk
        have e2 := (factor_entry u2 [] [] 1 0 0 k).1 _ (1, 1, 2) rfl rfl (by simp) rfl
        have e3 := (rowsOf_eq (ld := []) hd (s := (1, 2)) (by omega) (by omega)).2 [] 0 k rfl
        simp only [List.nil_append] at e1 e2 e3
        rw [e1, e2, e3]
    have hdd : ∀ k, k < 2 → entry [[(2, (0 : ℤ))]] md [k] = (fac m).1.f [k] := by
      intro k hk
      have hlk : locate [(2, (0 : ℤ))] k = some (0, k) := locate_iff.2 ⟨(2, 0), rfl, hk, by simp [dimSize]⟩
      have e1 := entry_single (lead := []) (e := []) (k := k) md rfl hlk
      simp only [List.nil_append] at e1
      rw [e1]
      unfold blkAt
      rw [(d2 [0] (fac m).1).2 ⟨0, _, rfl, rfl, rfl⟩]
    have hbond : bondE [(1, (0 : ℤ)), (1, 0)] [(⟨m, [], [(0, 0, 1), (1, 1, 2)], [(0, 1, 2), (1, 0, 1)]⟩ : Mat ℝ)] = [(2, 0)] := by
      have := (matRows_eq (g := (⟨m, [], [(0, 0, 1), (1, 1, 2)], [(0, 1, 2), (1, 0, 1)]⟩ : Mat ℝ)) (ld := []) m1).2
      simp [bondE, this, qOf]
    rw [hbond] at h1
    refine ⟨_, _, _, h1, rfl, ?_⟩
    have hsum : ∑ k ∈ range (dimSize [(2, (0 : ℤ))]), entry [[(1, 0), (1, 0)], [(2, (0 : ℤ))]] mu [0, k] * entry [[(2, (0 : ℤ))]] md [k] *
        star (entry [[(1, 0), (1, 0)], [(2, (0 : ℤ))]] mu [1, k]) = m.f [0, 1] := by
      refine Eq.trans ?_ (hprod m [] 2 m1 hH [] 0 1 .nil (by omega) (by omega)).symm
      refine Finset.sum_congr rfl fun k hk => ?_
      have hk : k < 2 := by simpa [dimSize] using hk
      rw [hu 0 k (by omega) hk, hu 1 k (by omega) hk, hdd k hk]
      rfl
    intro h
    have h' : entry exMissing.shape exMissing.blocks [0, 1] = m.f [0, 1] := h.trans hsum
    rw [m2.2.1] at h'
    revert h'
    simp [entry, locateAll, locate, exMissing, lookup]

end BT
end QuantiT
