import Verif.Lemmas.Network
import Mathlib.Tactic.Tauto
/-
The tensor contractions of `contract`, of the environments and of the two-site Hamiltonian, index by index.
-/
namespace QuantiT
namespace MP
open Finset Spec
theorem sum_reorder {M α β γ δ ε : Type} [AddCommMonoid M] (A : Finset α) (B : Finset β) (C : Finset γ) (D : Finset δ)
    (E : Finset ε) (F : α → β → γ → δ → ε → M) :
    ∑ a ∈ A, ∑ b ∈ B, ∑ c ∈ C, ∑ d ∈ D, ∑ e ∈ E, F a b c d e = ∑ e ∈ E, ∑ c ∈ C, ∑ a ∈ A, ∑ d ∈ D, ∑ b ∈ B, F a b c d e :=
  calc _ = ∑ a ∈ A, ∑ b ∈ B, ∑ c ∈ C, ∑ e ∈ E, ∑ d ∈ D, F a b c d e :=
        sum_congr rfl fun _ _ => sum_congr rfl fun _ _ => sum_congr rfl fun _ _ => sum_comm
    _ = ∑ a ∈ A, ∑ b ∈ B, ∑ e ∈ E, ∑ c ∈ C, ∑ d ∈ D, F a b c d e := sum_congr rfl fun _ _ => sum_congr rfl fun _ _ => sum_comm
    _ = ∑ a ∈ A, ∑ e ∈ E, ∑ b ∈ B, ∑ c ∈ C, ∑ d ∈ D, F a b c d e := sum_congr rfl fun _ _ => sum_comm
    _ = ∑ e ∈ E, ∑ a ∈ A, ∑ b ∈ B, ∑ c ∈ C, ∑ d ∈ D, F a b c d e := sum_comm
    _ = ∑ e ∈ E, ∑ a ∈ A, ∑ c ∈ C, ∑ b ∈ B, ∑ d ∈ D, F a b c d e := sum_congr rfl fun _ _ => sum_congr rfl fun _ _ => sum_comm
    _ = ∑ e ∈ E, ∑ c ∈ C, ∑ a ∈ A, ∑ b ∈ B, ∑ d ∈ D, F a b c d e := sum_congr rfl fun _ _ => sum_comm
    _ = _ := sum_congr rfl fun _ _ => sum_congr rfl fun _ _ => sum_congr rfl fun _ _ => sum_comm

variable {R : Type} [CommSemiring R] [StarRing R]

/-- Entry of an environment at a cut. -/
def at3 (L : Blk R) (X : Cut) : R := L.f [X.1, X.2.1, X.2.2]

theorem envLeft_ok {L A W B : Blk R} {n m p s t n' m' p' : Nat} (hL : L.dims = [n, m, p]) (hA : A.dims = [n, s, n'])
    (hW : W.dims = [m, t, m', s]) (hB : B.dims = [p, t, p']) :
    ∃ L', envLeft star W A B L = .ok L' ∧ L'.dims = [n', m', p'] ∧
      ∀ Y, at3 L' Y = ∑ X ∈ cuts n m p, at3 L X * siteKern A W B X Y := by
  obtain ⟨Ld, Lf⟩ := L
  obtain ⟨Ad, Af⟩ := A
  obtain ⟨Wd, Wf⟩ := W
  obtain ⟨Bd, Bf⟩ := B
  simp only at hL hA hW hB
  subst hL hA hW hB
  refine ⟨_, by simp [envLeft, tdot, conjBlk, bind, Except.bind, others, List.range, List.range.loop]; rfl, rfl, ?_⟩
  rintro ⟨b, w', b'⟩
  simp only [at3, siteKern, kern, sum_configs_cons', sum_configs_nil, sum_cuts, sum_mul, mul_sum]
  rw [sum_reorder]
  refine sum_congr rfl fun l _ => sum_congr rfl fun w _ => sum_congr rfl fun l' _ => sum_congr rfl fun i _ =>
    sum_congr rfl fun j _ => ?_
  show Lf [l, w, l'] * Af [l, i, b] * Wf [w, j, w', i] * star (Bf [l', j, b']) =
    Lf [l, w, l'] * (Af [l, i, b] * Wf [w, j, w', i] * star (Bf [l', j, b']))
  ring

theorem envRight_ok {Rt A W : Blk R} {n m s n' m' : Nat} (hR : Rt.dims = [n', m', n']) (hA : A.dims = [n, s, n'])
    (hW : W.dims = [m, s, m', s]) :
    ∃ R', envRight star W A Rt = .ok R' ∧ R'.dims = [n, m, n] ∧
      ∀ X, at3 R' X = ∑ Y ∈ cuts n' m' n', siteKern A W A X Y * at3 Rt Y := by
  obtain ⟨Ld, Lf⟩ := Rt
  obtain ⟨Ad, Af⟩ := A
  obtain ⟨Wd, Wf⟩ := W
  simp only at hR hA hW
  subst hR hA hW
  refine ⟨_, by simp [envRight, tdot, conjBlk, bind, Except.bind, others, List.range, List.range.loop]; rfl, rfl, ?_⟩
  rintro ⟨b, w', b'⟩
  simp only [at3, siteKern, kern, sum_configs_cons', sum_configs_nil, sum_cuts, sum_mul]
  rw [sum_comm, sum_reorder]
  refine sum_congr rfl fun l _ => sum_congr rfl fun w _ => sum_congr rfl fun l' _ => sum_congr rfl fun i _ =>
    sum_congr rfl fun j _ => ?_
  show Lf [l, w, l'] * Af [b, i, l] * Wf [w', j, w, i] * star (Af [b', j, l']) =
    Af [b, i, l] * Wf [w', j, w, i] * star (Af [b', j, l']) * Lf [l, w, l']
  ring

/-- The kernel of two sites described by one tensor. -/
def pairKern (T H P : Blk R) (i j i' j' : Nat) (X Z : Cut) : R :=
  kern (range i ×ˢ range j) (range i' ×ˢ range j') (fun s l r => T.f [l, s.1, s.2, r])
    (fun t s l r => H.f [l, t.1, t.2, r, s.1, s.2]) (fun t l r => P.f [l, t.1, t.2, r]) X Z

theorem hamil2site_ok {L Rt H T : Blk R} {n m p n' m' p' i j i' j' : Nat} (hL : L.dims = [n, m, p]) (hR : Rt.dims = [n', m', p'])
    (hH : H.dims = [m, i', j', m', i, j]) (hT : T.dims = [n, i, j, n']) :
    ∃ T', hamil2site T H L Rt = .ok T' ∧ T'.dims = [p, i', j', p'] ∧
      ∀ x y z w, T'.f [x, y, z, w] = ∑ r ∈ range n', ∑ w' ∈ range m', ∑ v ∈ range m, ∑ s ∈ range i, ∑ t ∈ range j,
        ∑ l ∈ range n, L.f [l, v, x] * T.f [l, s, t, r] * H.f [v, y, z, w', s, t] * Rt.f [r, w', w] := by
  obtain ⟨Ld, Lf⟩ := L
  obtain ⟨Rd, Rf⟩ := Rt
  obtain ⟨Hd, Hf⟩ := H
  obtain ⟨Td, Tf⟩ := T
  simp only at hL hR hH hT
  subst hL hR hH hT
  refine ⟨_, by simp [hamil2site, tdot, bind, Except.bind, others, List.range, List.range.loop]; rfl, rfl, ?_⟩
  intro x y z w
  simp only [sum_configs_cons', sum_configs_nil, sum_mul]
  rfl

theorem hamil2site_pair {L Rt H T T' : Blk R} {n m p n' m' p' i j i' j' : Nat}
    (h : ∀ x y z w, T'.f [x, y, z, w] = ∑ r ∈ range n', ∑ w' ∈ range m', ∑ v ∈ range m, ∑ s ∈ range i, ∑ t ∈ range j,
        ∑ l ∈ range n, L.f [l, v, x] * T.f [l, s, t, r] * H.f [v, y, z, w', s, t] * Rt.f [r, w', w]) (P : Blk R) :
    ∑ o ∈ configs [p, i', j', p'], T'.f o * star (P.f o)
        = ∑ X ∈ cuts n m p, ∑ Z ∈ cuts n' m' p', at3 L X * pairKern T H P i j i' j' X Z * at3 Rt Z := by
  simp only [sum_configs_cons', sum_configs_nil, h, sum_mul, sum_cuts, pairKern, kern, sum_product, mul_sum, at3]
  simp only [sum_sigma']
  refine sum_nbij' (fun ⟨x, y, z, w, r, w', v, s, t, l⟩ => ⟨l, v, x, r, w', w, s, t, y, z⟩)
    (fun ⟨l, v, x, r, w', w, s, t, y, z⟩ => ⟨x, y, z, w, r, w', v, s, t, l⟩) ?_ ?_ ?_ ?_ ?_
  · rintro ⟨x, y, z, w, r, w', v, s, t, l⟩ hq
    simp only [mem_sigma, mem_range] at hq ⊢
    tauto
  · rintro ⟨l, v, x, r, w', w, s, t, y, z⟩ hq
    simp only [mem_sigma, mem_range] at hq ⊢
    tauto
  · rintro ⟨x, y, z, w, r, w', v, s, t, l⟩ _; rfl
  · rintro ⟨x, y, z, w, r, w', v, s, t, l⟩ _; rfl
  · rintro ⟨x, y, z, w, r, w', v, s, t, l⟩ _
    simp only
    ring

theorem twoSite_ok {W1 W2 : Blk R} {m i i' m' j j' m'' : Nat} (h1 : W1.dims = [m, i', m', i]) (h2 : W2.dims = [m', j', m'', j]) :
    ∃ H, twoSite W1 W2 = .ok H ∧ H.dims = [m, i', j', m'', i, j] ∧
      ∀ w t u w' s v, w' < m'' → H.f [w, t, u, w', s, v] = opEntry [W1, W2] [t, u] [s, v] w w' := by
  obtain ⟨d1, f1⟩ := W1
  obtain ⟨d2, f2⟩ := W2
  simp only at h1 h2
  subst h1 h2
  refine ⟨_, by simp [twoSite, tdot, bind, Except.bind, others, List.range, List.range.loop, BT.permBlk, gather]; rfl, rfl, ?_⟩
  intro w t u w' s v hw
  simp only [sum_configs_cons', sum_configs_nil, opEntry_cons]
  refine sum_congr rfl fun k _ => ?_
  have e : ∑ k' ∈ range m'', f2 [k, u, k', v] * opEntry ([] : List (Blk R)) [] [] k' w' = f2 [k, u, w', v] := by
    rw [sum_eq_single w']
    · simp [opEntry, mpoEntry]
    · intro j _ hj; simp [opEntry, mpoEntry, hj]
    · intro h; exact absurd (mem_range.2 hw) h
  exact congrArg (f1 [w, t, k, s] * ·) e.symm

end MP
end QuantiT
