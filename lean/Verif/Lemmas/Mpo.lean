import Verif.Spec.Mpo
import Verif.Model.Models
import Mathlib.Algebra.BigOperators.Ring.Finset
import Mathlib.Data.Fintype.BigOperators
import Mathlib.Tactic.FinCases
import Mathlib.Tactic.Ring
/-
The operator of an MPO built from a "start, channels, end" tensor.
-/
namespace QuantiT
namespace HM
open Spec Finset
variable {R : Type} [CommSemiring R]

/-- One site of the identity. -/
def del (s t : Nat) : R := if s = t then 1 else 0

/-- The tensor `W` has `K + 2` bonds: 0 is "everything done", `K + 1` "nothing done yet"; `k + 1` means that `A k` has been
applied on the previous site and `B k` is due on this one. -/
structure Channels (W : Blk R) (d K : Nat) (A B : Nat → Nat → Nat → R) (loc : Nat → Nat → R) : Prop where
  dims : W.dims = [K + 2, d, K + 2, d]
  done : ∀ s t, s < d → t < d → W.f [0, s, 0, t] = del s t
  wait : ∀ s t, s < d → t < d → W.f [K + 1, s, K + 1, t] = del s t
  first : ∀ k s t, k < K → s < d → t < d → W.f [K + 1, s, k + 1, t] = A k s t
  second : ∀ k s t, k < K → s < d → t < d → W.f [k + 1, s, 0, t] = B k s t
  onsite : ∀ s t, s < d → t < d → W.f [K + 1, s, 0, t] = loc s t
  zero : ∀ a b s t, a ≤ K → 0 < b → s < d → t < d → W.f [a, s, b, t] = 0

/-- Sum of the on-site terms and of the channels between neighbours for `m` sites. -/
def hsum (K : Nat) (A B : Nat → Nat → Nat → R) (loc : Nat → Nat → R) (m : Nat) (s t : Nat → Nat) : R :=
  ∑ i ∈ range m, ∏ j ∈ range m, (if j = i then loc else del) (s j) (t j) +
  ∑ i ∈ range (m - 1), ∑ k ∈ range K,
    ∏ j ∈ range m, (if j = i then A k else if j = i + 1 then B k else del) (s j) (t j)

theorem hsum_one (K : Nat) (A B : Nat → Nat → Nat → R) (loc : Nat → Nat → R) (s t : Nat → Nat) :
    hsum K A B loc 1 s t = loc (s 0) (t 0) := by simp [hsum]

theorem hsum_succ (K : Nat) (A B : Nat → Nat → Nat → R) (loc : Nat → Nat → R) (m : Nat) (s t : Nat → Nat) :
    hsum K A B loc (m + 2) s t
      = loc (s 0) (t 0) * ∏ j ∈ range (m + 1), del (s (j + 1)) (t (j + 1))
      + ∑ k ∈ range K, A k (s 0) (t 0) * (B k (s 1) (t 1) * ∏ j ∈ range m, del (s (j + 2)) (t (j + 2)))
      + del (s 0) (t 0) * hsum K A B loc (m + 1) (fun j => s (j + 1)) (fun j => t (j + 1)) := by
  unfold hsum
  rw [sum_range_succ' (fun i => ∏ j ∈ range (m + 2), (if j = i then loc else del) (s j) (t j)),
    show m + 2 - 1 = m + 1 by omega, sum_range_succ' (fun i => ∑ k ∈ range K, ∏ j ∈ range (m + 2), _),
    show m + 1 - 1 = m by omega]
  have e1 : ∏ j ∈ range (m + 2), (if j = 0 then loc else del) (s j) (t j)
      = loc (s 0) (t 0) * ∏ j ∈ range (m + 1), del (s (j + 1)) (t (j + 1)) := by
    rw [prod_range_succ']; simp [mul_comm]
  have e2 : ∀ i, ∏ j ∈ range (m + 2), (if j = i + 1 then loc else del) (s j) (t j)
      = del (s 0) (t 0) * ∏ j ∈ range (m + 1), (if j = i then loc else del) (s (j + 1)) (t (j + 1)) := by
    intro i; rw [prod_range_succ']; simp [mul_comm]
  have e3 : ∀ k, ∏ j ∈ range (m + 2), (if j = 0 then A k else if j = 0 + 1 then B k else del) (s j) (t j)
      = A k (s 0) (t 0) * (B k (s 1) (t 1) * ∏ j ∈ range m, del (s (j + 2)) (t (j + 2))) := by
    intro k; rw [prod_range_succ', prod_range_succ']; simp; ring
  have e4 : ∀ i k, ∏ j ∈ range (m + 2), (if j = i + 1 then A k else if j = i + 1 + 1 then B k else del) (s j) (t j)
      = del (s 0) (t 0) * ∏ j ∈ range (m + 1), (if j = i then A k else if j = i + 1 then B k else del) (s (j + 1)) (t (j + 1)) := by
    intro i k; rw [prod_range_succ']; simp [mul_comm]
  simp only [e1, e2, e3, e4, ← mul_sum]
  ring

/-- What the end of the chain contributes from each bond. -/
theorem tail_entry {W Wl : Blk R} {d K : Nat} {A B : Nat → Nat → Nat → R} {loc : Nat → Nat → R}
    (h : Channels W d K A B loc) (hl : Wl.dims.getD 2 0 = 1) (hf : ∀ a s t, Wl.f [a, s, 0, t] = W.f [a, s, 0, t]) :
    ∀ (n : Nat) (s t : Nat → Nat), (∀ j, s j < d) → (∀ j, t j < d) →
    mpoEntry (List.replicate n W ++ [Wl]) s t 0 0 = ∏ j ∈ range (n + 1), del (s j) (t j) ∧
    (∀ k, k < K → mpoEntry (List.replicate n W ++ [Wl]) s t (k + 1) 0
      = B k (s 0) (t 0) * ∏ j ∈ range n, del (s (j + 1)) (t (j + 1))) ∧
    mpoEntry (List.replicate n W ++ [Wl]) s t (K + 1) 0 = hsum K A B loc (n + 1) s t := by
  intro n
  induction n with
  | zero =>
    intro s t hs ht
    have e : ∀ a, mpoEntry ([] ++ [Wl]) s t a 0 = W.f [a, s 0, 0, t 0] := by
      intro a
      simp only [List.nil_append, mpoEntry]
      rw [hl]
      simp [hf]
    refine ⟨?_, ?_, ?_⟩
    · rw [List.replicate_zero, e, h.done _ _ (hs 0) (ht 0)]; simp
    · intro k hk; rw [List.replicate_zero, e, h.second k _ _ hk (hs 0) (ht 0)]; simp
    · rw [List.replicate_zero, e, h.onsite _ _ (hs 0) (ht 0), hsum_one]
  | succ n ih =>
    intro s t hs ht
    obtain ⟨i1, i2, i3⟩ := ih (fun j => s (j + 1)) (fun j => t (j + 1)) (fun j => hs _) (fun j => ht _)
    have hd : W.dims.getD 2 0 = K + 2 := by rw [h.dims]; rfl
    have e : ∀ a, mpoEntry (List.replicate (n + 1) W ++ [Wl]) s t a 0
        = W.f [a, s 0, 0, t 0] * (∏ j ∈ range (n + 1), del (s (j + 1)) (t (j + 1)))
          + ∑ k ∈ range K, W.f [a, s 0, k + 1, t 0] * (B k (s 1) (t 1) * ∏ j ∈ range n, del (s (j + 2)) (t (j + 2)))
          + W.f [a, s 0, K + 1, t 0] * hsum K A B loc (n + 1) (fun j => s (j + 1)) (fun j => t (j + 1)) := by
      intro a
      rw [List.replicate_succ, List.cons_append]
      simp only [mpoEntry]
      rw [hd, sum_range_succ, sum_range_succ', i1, i3]
      rw [sum_congr rfl (fun k hk => by rw [i2 k (mem_range.1 hk)])]
      ring
    refine ⟨?_, ?_, ?_⟩
    · rw [e, h.done _ _ (hs 0) (ht 0), h.zero 0 (K + 1) _ _ (by omega) (by omega) (hs 0) (ht 0),
        sum_eq_zero (fun k _ => by rw [h.zero 0 (k + 1) _ _ (by omega) (by omega) (hs 0) (ht 0), zero_mul]),
        prod_range_succ' (fun j => del (s j) (t j)) (n + 1)]
      ring
    · intro k hk
      rw [e, h.second k _ _ hk (hs 0) (ht 0), h.zero (k + 1) (K + 1) _ _ (by omega) (by omega) (hs 0) (ht 0),
        sum_eq_zero (fun k' _ => by rw [h.zero (k + 1) (k' + 1) _ _ (by omega) (by omega) (hs 0) (ht 0), zero_mul])]
      ring
    · rw [e, h.onsite _ _ (hs 0) (ht 0), h.wait _ _ (hs 0) (ht 0), hsum_succ,
        sum_congr rfl (fun k hk => by rw [h.first k _ _ (mem_range.1 hk) (hs 0) (ht 0)])]

/-- The tensors `edges` makes of a channel tensor, for at least two sites. -/
theorem edges_eq {W : Blk R} {d K : Nat} {A B : Nat → Nat → Nat → R} {loc : Nat → Nat → R}
    (h : Channels W d K A B loc) (n : Nat) :
    edges (n + 2) W (K + 2) = .ok (narrow 0 (K + 1) (K + 2) W :: (List.replicate n W ++ [narrow 2 0 1 W])) := by
  have hc : MP.mkMpoFill W.dims = .ok () := by
    unfold MP.mkMpoFill
    rw [h.dims]; simp
  unfold edges
  rw [hc]
  simp only [bind, Except.bind]
  rw [if_neg (by omega)]
  congr 1
  rw [show n + 2 - 1 = n + 1 by omega, show K + 2 - 1 = K + 1 by omega, List.replicate_succ]
  simp only [List.modify_zero_cons, List.modify_succ_cons]
  congr 1
  rw [List.replicate_succ', List.modify_eq_set_getElem?]
  simp

/-- Entry of the whole chain. -/
theorem channels_entry {W : Blk R} {d K : Nat} {A B : Nat → Nat → Nat → R} {loc : Nat → Nat → R}
    (h : Channels W d K A B loc) (n : Nat) (s t : Nat → Nat) (hs : ∀ j, s j < d) (ht : ∀ j, t j < d) :
    mpoEntry (narrow 0 (K + 1) (K + 2) W :: (List.replicate n W ++ [narrow 2 0 1 W])) s t 0 0
      = hsum K A B loc (n + 2) s t := by
  have hl : (narrow 2 0 1 W).dims.getD 2 0 = 1 := by simp [narrow, h.dims]
  have hf : ∀ a s t, (narrow 2 0 1 W).f [a, s, 0, t] = W.f [a, s, 0, t] := by intro a s t; simp [narrow]
  have h3 := (tail_entry h hl hf (n + 1) s t hs ht).2.2
  rw [← h3]
  rw [List.replicate_succ, List.cons_append]
  simp only [mpoEntry]
  have : (narrow 0 (K + 1) (K + 2) W).dims.getD 2 0 = W.dims.getD 2 0 := by simp [narrow, h.dims]
  rw [this]
  apply sum_congr rfl
  intro k _
  simp [narrow]

/-! ### From entries to matrices -/

theorem extend_lt {L d : Nat} (hd : 0 < d) (s : Fin L → Fin d) (j : Nat) : extend s j < d := by
  unfold extend; split
  · exact (s _).isLt
  · exact hd

theorem prod_extend {L d : Nat} (s t : Fin L → Fin d) (f : Nat → Nat → Nat → R) :
    ∏ j ∈ range L, f j (extend s j) (extend t j) = ∏ k : Fin L, f k.val (s k).val (t k).val := by
  rw [← Fin.prod_univ_eq_prod_range (fun j => f j (extend s j) (extend t j))]
  apply Finset.prod_congr rfl
  intro k _
  simp [extend]

/-- Function of a matrix on natural numbers. -/
def fn {d : Nat} (M : Matrix (Fin d) (Fin d) R) : Nat → Nat → R := fun s t =>
  if h : s < d ∧ t < d then M ⟨s, h.1⟩ ⟨t, h.2⟩ else 0

theorem fn_apply {d : Nat} (M : Matrix (Fin d) (Fin d) R) (s t : Fin d) : fn M s.val t.val = M s t := by
  unfold fn; rw [dif_pos ⟨s.isLt, t.isLt⟩]

theorem del_apply {d : Nat} (s t : Fin d) : (del s.val t.val : R) = (1 : Matrix (Fin d) (Fin d) R) s t := by
  unfold del; rw [Matrix.one_apply]; simp [Fin.ext_iff]

/-- The operator of the chain: on-site terms and channels. -/
theorem channels_matrix {W : Blk R} {d K : Nat} (hd : 0 < d) (A B : Nat → Matrix (Fin d) (Fin d) R)
    (loc : Matrix (Fin d) (Fin d) R) (h : Channels W d K (fun k => fn (A k)) (fun k => fn (B k)) (fn loc)) (n : Nat) :
    mpoMatrix (n + 2) d (narrow 0 (K + 1) (K + 2) W :: (List.replicate n W ++ [narrow 2 0 1 W]))
      = ∑ i ∈ range (n + 2), onSite i loc + ∑ i ∈ range (n + 1), ∑ k ∈ range K, onPair i (A k) (B k) := by
  ext s t
  unfold mpoMatrix
  rw [channels_entry h n _ _ (extend_lt hd s) (extend_lt hd t)]
  unfold hsum
  rw [Matrix.add_apply, Matrix.sum_apply, Matrix.sum_apply]
  congr 1
  · apply sum_congr rfl
    intro i _
    rw [prod_extend s t (fun j => if j = i then fn loc else del)]
    unfold onSite tensorOp
    apply prod_congr rfl
    intro k _
    dsimp only
    split
    · exact fn_apply _ _ _
    · exact del_apply _ _
  · apply sum_congr rfl
    intro i _
    rw [Matrix.sum_apply]
    apply sum_congr rfl
    intro k _
    rw [prod_extend s t (fun j => if j = i then fn (A k) else if j = i + 1 then fn (B k) else del)]
    unfold onPair tensorOp
    apply prod_congr rfl
    intro k' _
    dsimp only
    split
    · exact fn_apply _ _ _
    · split
      · exact fn_apply _ _ _
      · exact del_apply _ _

/-! ### Algebra of tensor products -/

theorem tensorOp_mul {L d : Nat} (A B : Nat → Matrix (Fin d) (Fin d) R) :
    (tensorOp A : Matrix (Fin L → Fin d) (Fin L → Fin d) R) * tensorOp B = tensorOp (fun k => A k * B k) := by
  ext s t
  rw [Matrix.mul_apply]
  unfold tensorOp
  simp only [Matrix.mul_apply, ← Finset.prod_mul_distrib]
  rw [Finset.prod_univ_sum, ← Fintype.piFinset_univ]

theorem tensorOp_one {L d : Nat} :
    (tensorOp (fun _ => 1) : Matrix (Fin L → Fin d) (Fin L → Fin d) R) = 1 := by
  ext s t
  unfold tensorOp
  rw [Matrix.one_apply]
  by_cases h : s = t
  · subst h; simp
  · rw [if_neg h]
    obtain ⟨k, hk⟩ := Function.ne_iff.1 h
    exact Finset.prod_eq_zero (mem_univ k) (Matrix.one_apply_ne hk)

theorem tensorOp_transpose {L d : Nat} (A : Nat → Matrix (Fin d) (Fin d) R) :
    (tensorOp A : Matrix (Fin L → Fin d) (Fin L → Fin d) R).transpose = tensorOp (fun k => (A k).transpose) := rfl

theorem tensorOp_congr {L d : Nat} {A B : Nat → Matrix (Fin d) (Fin d) R} (h : ∀ k, k < L → A k = B k) :
    (tensorOp A : Matrix (Fin L → Fin d) (Fin L → Fin d) R) = tensorOp B := by
  ext s t
  unfold tensorOp
  apply prod_congr rfl
  intro k _
  rw [h k k.isLt]

/-- A factor on one site comes out of the product. -/
theorem tensorOp_smul_site {L d : Nat} (A : Nat → Matrix (Fin d) (Fin d) R) (i : Nat) (hi : i < L) (c : R)
    (M : Matrix (Fin d) (Fin d) R) :
    (tensorOp (Function.update A i (c • M)) : Matrix (Fin L → Fin d) (Fin L → Fin d) R)
      = c • tensorOp (Function.update A i M) := by
  ext s t
  rw [Matrix.smul_apply]
  unfold tensorOp
  rw [← Finset.mul_prod_erase univ _ (mem_univ (⟨i, hi⟩ : Fin L)),
    ← Finset.mul_prod_erase univ (fun k : Fin L => Function.update A i M k.val (s k) (t k)) (mem_univ (⟨i, hi⟩ : Fin L))]
  simp only [Function.update_self, Matrix.smul_apply, smul_eq_mul]
  rw [mul_assoc]
  congr 2
  apply prod_congr rfl
  intro k hk
  have : k.val ≠ i := fun h => (mem_erase.1 hk).1 (Fin.ext h)
  rw [Function.update_of_ne this, Function.update_of_ne this]

/-- Addition on one site. -/
theorem tensorOp_add_site {L d : Nat} (A : Nat → Matrix (Fin d) (Fin d) R) (i : Nat) (hi : i < L)
    (M N : Matrix (Fin d) (Fin d) R) :
    (tensorOp (Function.update A i (M + N)) : Matrix (Fin L → Fin d) (Fin L → Fin d) R)
      = tensorOp (Function.update A i M) + tensorOp (Function.update A i N) := by
  ext s t
  rw [Matrix.add_apply]
  unfold tensorOp
  have e : ∀ P : Matrix (Fin d) (Fin d) R, ∏ k : Fin L, Function.update A i P k.val (s k) (t k)
      = P (s ⟨i, hi⟩) (t ⟨i, hi⟩) * ∏ k ∈ univ.erase (⟨i, hi⟩ : Fin L), A k.val (s k) (t k) := by
    intro P
    rw [← Finset.mul_prod_erase univ _ (mem_univ (⟨i, hi⟩ : Fin L))]
    simp only [Function.update_self]
    congr 1
    apply prod_congr rfl
    intro k hk
    have : k.val ≠ i := fun h => (mem_erase.1 hk).1 (Fin.ext h)
    rw [Function.update_of_ne this]
  rw [e, e, e, Matrix.add_apply]
  ring

end HM
end QuantiT
