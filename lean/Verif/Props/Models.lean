import Verif.Lemmas.Mpo
import Verif.Spec.Mps
import Mathlib.Tactic.IntervalCases
import Mathlib.Tactic.NormNum
import Mathlib.Tactic.Abel
import Mathlib.Data.Rat.Defs
import Mathlib.Algebra.Field.Rat
/-
C55, C56, C57: the model Hamiltonians and the fermion operators, at every chain length.
-/
namespace QuantiT
namespace HM
open Spec Finset
variable {R : Type}

/-! ### Sums of operators on neighbours -/
section
variable [CommRing R] {L d : Nat}

theorem onSite_update (i : Nat) (A : Matrix (Fin d) (Fin d) R) :
    (onSite i A : Matrix (Fin L → Fin d) (Fin L → Fin d) R) = tensorOp (Function.update (fun _ => 1) i A) := by
  unfold onSite
  apply tensorOp_congr
  intro k _
  by_cases h : k = i
  · subst h; simp
  · rw [if_neg h, Function.update_of_ne h]

theorem onPair_left (i : Nat) (A B : Matrix (Fin d) (Fin d) R) :
    (onPair i A B : Matrix (Fin L → Fin d) (Fin L → Fin d) R)
      = tensorOp (Function.update (fun k => if k = i + 1 then B else 1) i A) := by
  unfold onPair
  apply tensorOp_congr
  intro k _
  by_cases h : k = i
  · subst h; simp
  · rw [if_neg h, Function.update_of_ne h]

theorem onPair_right (i : Nat) (A B : Matrix (Fin d) (Fin d) R) :
    (onPair i A B : Matrix (Fin L → Fin d) (Fin L → Fin d) R)
      = tensorOp (Function.update (fun k => if k = i then A else 1) (i + 1) B) := by
  unfold onPair
  apply tensorOp_congr
  intro k _
  by_cases h : k = i + 1
  · subst h; simp
  · rw [if_neg h, Function.update_of_ne h]

theorem onPair_smul_left {i : Nat} (hi : i < L) (c : R) (A B : Matrix (Fin d) (Fin d) R) :
    (onPair i (c • A) B : Matrix (Fin L → Fin d) (Fin L → Fin d) R) = c • onPair i A B := by
  rw [onPair_left, onPair_left, tensorOp_smul_site _ _ hi]

theorem onPair_add_left {i : Nat} (hi : i < L) (A A' B : Matrix (Fin d) (Fin d) R) :
    (onPair i (A + A') B : Matrix (Fin L → Fin d) (Fin L → Fin d) R) = onPair i A B + onPair i A' B := by
  rw [onPair_left, onPair_left, onPair_left, tensorOp_add_site _ _ hi]

theorem onPair_add_right {i : Nat} (hi : i + 1 < L) (A B B' : Matrix (Fin d) (Fin d) R) :
    (onPair i A (B + B') : Matrix (Fin L → Fin d) (Fin L → Fin d) R) = onPair i A B + onPair i A B' := by
  rw [onPair_right, onPair_right, onPair_right, tensorOp_add_site _ _ hi]

theorem onPair_neg_left {i : Nat} (hi : i < L) (A B : Matrix (Fin d) (Fin d) R) :
    (onPair i (-A) B : Matrix (Fin L → Fin d) (Fin L → Fin d) R) = - onPair i A B := by
  rw [show -A = (-1 : R) • A by simp, onPair_smul_left hi]; simp

theorem onPair_neg_right {i : Nat} (hi : i + 1 < L) (A B : Matrix (Fin d) (Fin d) R) :
    (onPair i A (-B) : Matrix (Fin L → Fin d) (Fin L → Fin d) R) = - onPair i A B := by
  rw [show -B = (-1 : R) • B by simp, onPair_right, tensorOp_smul_site _ _ hi, ← onPair_right]; simp

theorem onSite_zero {i : Nat} (hi : i < L) :
    (onSite i (0 : Matrix (Fin d) (Fin d) R) : Matrix (Fin L → Fin d) (Fin L → Fin d) R) = 0 := by
  rw [onSite_update, show (0 : Matrix (Fin d) (Fin d) R) = (0 : R) • 0 by simp, tensorOp_smul_site _ _ hi, zero_smul]

/-- `σx σx + σy σy` on two neighbours is `2 S+ S- + 2 S- S+`. -/
theorem onPair_xy {i : Nat} (hi : i + 1 < L) :
    (onPair i sigmaX sigmaX - onPair i iSigmaY iSigmaY : Matrix (Fin L → Fin 2) (Fin L → Fin 2) R)
      = (2 : R) • onPair i sPlus sMinus + (2 : R) • onPair i sMinus sPlus := by
  have ex : (sigmaX : Matrix (Fin 2) (Fin 2) R) = sPlus + sMinus := by
    ext a b; fin_cases a <;> fin_cases b <;> simp [sigmaX, sPlus, sMinus]
  have ey : (iSigmaY : Matrix (Fin 2) (Fin 2) R) = sPlus + -sMinus := by
    ext a b; fin_cases a <;> fin_cases b <;> simp [iSigmaY, sPlus, sMinus]
  have h0 : i < L := by omega
  rw [ex, ey]
  simp only [onPair_add_left h0, onPair_add_right hi, onPair_neg_left h0, onPair_neg_right hi, two_smul, neg_neg]
  abel
end

/-! ### The chain `edges` makes -/
section
variable [CommSemiring R]

theorem edges_linked {W : Blk R} {d K : Nat} (h : W.dims = [K + 2, d, K + 2, d]) (n : Nat) :
    Linked 4 ((narrow 0 (K + 1) (K + 2) W :: (List.replicate n W ++ [narrow 2 0 1 W])).map Blk.dims) := by
  have e : (narrow 0 (K + 1) (K + 2) W :: (List.replicate n W ++ [narrow 2 0 1 W])).map Blk.dims
      = [1, d, K + 2, d] :: (List.replicate n [K + 2, d, K + 2, d] ++ [[K + 2, d, 1, d]]) := by
    simp [narrow, h, List.map_append]
  rw [e]
  constructor
  · intro s hs
    simp only [List.mem_cons, List.mem_append, List.mem_replicate, List.not_mem_nil, or_false] at hs
    rcases hs with rfl | ⟨_, rfl⟩ | rfl <;> rfl
  · intro i s s' hi hi'
    have r : s'[0]? = some (K + 2) := by
      rw [List.getElem?_cons_succ, List.getElem?_append] at hi'
      split at hi'
      · rw [List.getElem?_replicate] at hi'
        split at hi' <;> cases hi'
        rfl
      · rw [List.getElem?_singleton] at hi'
        split at hi' <;> cases hi'
        rfl
    have l : s[2]? = some (K + 2) := by
      cases i with
      | zero => cases hi; rfl
      | succ i =>
        rw [List.getElem?_cons_succ, List.getElem?_append] at hi hi'
        split at hi
        · rw [List.getElem?_replicate] at hi
          split at hi <;> cases hi
          rfl
        · rename_i hn
          rw [List.length_replicate] at hn
          rw [if_neg (by simp; omega), List.getElem?_eq_none (by simp; omega)] at hi'
          cases hi'
    rw [l, r]

end

/-! ### Heisenberg -/
/-- A model operator as a matrix. -/
def toMat (d : Nat) (x : Blk R) : Matrix (Fin d) (Fin d) R := fun s t => x.f [s.val, t.val]

theorem toMat_tr (d : Nat) (x : Blk R) : toMat d (tr x) = (toMat d x).transpose := rfl

section
variable [CommRing R]

theorem fn_toMat {d : Nat} (x : Blk R) {s t : Nat} (hs : s < d) (ht : t < d) : fn (toMat d x) s t = x.f [s, t] := by
  unfold fn; rw [dif_pos ⟨hs, ht⟩]; rfl

theorem toMat_mulS (d : Nat) (c : R) (x : Blk R) : toMat d (mulS c x) = c • toMat d x := rfl
theorem toMat_lo : toMat 2 (pauliLo : Blk R) = sPlus := by
  ext a b; fin_cases a <;> fin_cases b <;> simp [toMat, pauliLo, put, zeros, sPlus]
theorem toMat_sz : toMat 2 (pauliSz : Blk R) = sigmaZ := by
  ext a b; fin_cases a <;> fin_cases b <;> simp [toMat, pauliSz, put, zeros, sigmaZ]
theorem toMat_sx : toMat 2 (pauliSx : Blk R) = sigmaX := by
  ext a b; fin_cases a <;> fin_cases b <;> simp [toMat, pauliSx, put, zeros, sigmaX]
theorem toMat_isy : toMat 2 (pauliISy : Blk R) = iSigmaY := by
  ext a b; fin_cases a <;> fin_cases b <;> simp [toMat, pauliISy, put, zeros, iSigmaY]
theorem toMat_one : toMat 2 (pauliId : Blk R) = 1 := by
  ext a b; fin_cases a <;> fin_cases b <;> simp [toMat, pauliId, put, zeros]
theorem sPlus_tr : (sPlus : Matrix (Fin 2) (Fin 2) R).transpose = sMinus := by
  ext a b; fin_cases a <;> fin_cases b <;> simp [sPlus, sMinus]

/-- Operator applied first in channel `k`, and the one applied on the next site. -/
def heisA (J : R) : Nat → Matrix (Fin 2) (Fin 2) R
  | 0 => (2 * J) • sMinus
  | 1 => (2 * J) • sPlus
  | _ => J • sigmaZ
def heisB : Nat → Matrix (Fin 2) (Fin 2) R
  | 0 => sPlus
  | 1 => sMinus
  | _ => sigmaZ

theorem heisenberg_channels (J : R) :
    Channels (heisenbergTensor J) 2 3 (fun k => fn (heisA J k)) (fun k => fn (heisB k))
      (fn (0 : Matrix (Fin 2) (Fin 2) R)) := by
  refine ⟨rfl, ?_, ?_, ?_, ?_, ?_, ?_⟩
  · intro s t hs ht
    rw [show (heisenbergTensor J).f [0, s, 0, t] = (pauliId : Blk R).f [s, t] from rfl, ← fn_toMat _ hs ht, toMat_one]
    exact (fn_apply _ ⟨s, hs⟩ ⟨t, ht⟩).trans (del_apply _ _).symm
  · intro s t hs ht
    rw [show (heisenbergTensor J).f [3 + 1, s, 3 + 1, t] = (pauliId : Blk R).f [s, t] from rfl, ← fn_toMat _ hs ht, toMat_one]
    exact (fn_apply _ ⟨s, hs⟩ ⟨t, ht⟩).trans (del_apply _ _).symm
  · intro k s t hk hs ht
    interval_cases k
    · rw [show (heisenbergTensor J).f [3 + 1, s, 0 + 1, t] = (mulS (2 * J) (tr pauliLo) : Blk R).f [s, t] from rfl,
        ← fn_toMat _ hs ht, toMat_mulS, toMat_tr, toMat_lo, sPlus_tr]; rfl
    · rw [show (heisenbergTensor J).f [3 + 1, s, 1 + 1, t] = (mulS (2 * J) pauliLo : Blk R).f [s, t] from rfl,
        ← fn_toMat _ hs ht, toMat_mulS, toMat_lo]; rfl
    · rw [show (heisenbergTensor J).f [3 + 1, s, 2 + 1, t] = (mulS J pauliSz : Blk R).f [s, t] from rfl,
        ← fn_toMat _ hs ht, toMat_mulS, toMat_sz]; rfl
  · intro k s t hk hs ht
    interval_cases k
    · rw [show (heisenbergTensor J).f [0 + 1, s, 0, t] = (pauliLo : Blk R).f [s, t] from rfl,
        ← fn_toMat _ hs ht, toMat_lo]; rfl
    · rw [show (heisenbergTensor J).f [1 + 1, s, 0, t] = (tr pauliLo : Blk R).f [s, t] from rfl,
        ← fn_toMat _ hs ht, toMat_tr, toMat_lo, sPlus_tr]; rfl
    · rw [show (heisenbergTensor J).f [2 + 1, s, 0, t] = (pauliSz : Blk R).f [s, t] from rfl,
        ← fn_toMat _ hs ht, toMat_sz]; rfl
  · intro s t hs ht
    rw [show (heisenbergTensor J).f [3 + 1, s, 0, t] = (0 : R) from rfl]
    exact (fn_apply (0 : Matrix (Fin 2) (Fin 2) R) ⟨s, hs⟩ ⟨t, ht⟩).symm
  · intro a b s t ha hb hs ht
    have h1 : ¬ a = 4 := by omega
    have h2 : ¬ b = 0 := by omega
    simp [heisenbergTensor, putOp, zeros, h1, h2]

theorem heisenbergImpl_eq (J : R) (n : Nat) :
    ∃ Ws, heisenbergImpl J (n + 2) = .ok Ws ∧ Ws.length = n + 2 ∧ Linked 4 (Ws.map Blk.dims) ∧
      mpoMatrix (n + 2) 2 Ws = ∑ i ∈ range (n + 1),
        J • ((2 : R) • onPair i sPlus sMinus + (2 : R) • onPair i sMinus sPlus + onPair i sigmaZ sigmaZ) := by
  refine ⟨_, edges_eq (heisenberg_channels J) n, ?_, edges_linked rfl n, ?_⟩
  · simp
  · rw [channels_matrix (by omega) _ _ _ (heisenberg_channels J) n,
      sum_eq_zero (fun i hi => onSite_zero (mem_range.1 hi)), zero_add]
    apply sum_congr rfl
    intro i hi
    have hi' : i < n + 2 := by have := mem_range.1 hi; omega
    rw [sum_range_succ, sum_range_succ, sum_range_succ, sum_range_zero, zero_add]
    simp only [heisA, heisB]
    rw [onPair_smul_left hi', onPair_smul_left hi', onPair_smul_left hi', smul_add, smul_add, smul_smul, smul_smul,
      mul_comm 2 J, add_comm ((J * 2) • onPair i sMinus sPlus)]

end

/-- **C55** For every coupling `J` and every chain of at least two sites, `Heisenberg(J, L)` returns `L` site tensors that
fit together, and the operator they stand for is `∑ -J/4 (2 S+S- + 2 S-S+ + SzSz)` over the neighbours. -/
theorem C55_heisenberg [Field R] (J : R) (L : Nat) (hL : 2 ≤ L) :
    ∃ Ws, heisenberg J L = .ok Ws ∧ Ws.length = L ∧ Linked 4 (Ws.map Blk.dims) ∧
      mpoMatrix L 2 Ws = ∑ i ∈ range (L - 1),
        (-J / 4) • ((2 : R) • onPair i sPlus sMinus + (2 : R) • onPair i sMinus sPlus + onPair i sigmaZ sigmaZ) := by
  obtain ⟨n, rfl⟩ : ∃ n, L = n + 2 := ⟨L - 2, by omega⟩
  exact heisenbergImpl_eq (-J / 4) n

/-- **C55** In terms of the Pauli matrices: `∑ -J/4 (σx σx + σy σy + σz σz)`, with `σy σy = - (iσy)(iσy)`. -/
theorem C55_pauli [Field R] (J : R) (L : Nat) (hL : 2 ≤ L) :
    ∃ Ws, heisenberg J L = .ok Ws ∧ Ws.length = L ∧
      mpoMatrix L 2 Ws = ∑ i ∈ range (L - 1),
        (-J / 4) • (onPair i sigmaX sigmaX - onPair i iSigmaY iSigmaY + onPair i sigmaZ sigmaZ) := by
  obtain ⟨Ws, h1, h2, _, h3⟩ := C55_heisenberg J L hL
  refine ⟨Ws, h1, h2, ?_⟩
  rw [h3]
  apply sum_congr rfl
  intro i hi
  rw [onPair_xy (by have := mem_range.1 hi; omega)]

/-- One site: the zero operator.  No site at all: undefined behaviour. -/
theorem C55_short [Field R] (J : R) :
    (∃ Ws, heisenberg J 1 = .ok Ws ∧ mpoMatrix 1 2 Ws = 0) ∧ heisenberg J 0 = Res.ub := by
  constructor
  · refine ⟨[narrow 2 0 1 (narrow 0 4 5 (heisenbergTensor (-J / 4)))], rfl, ?_⟩
    ext s t
    have h := (heisenberg_channels (-J / 4)).onsite (s 0).val (t 0).val (s 0).isLt (t 0).isLt
    have e : (fn (0 : Matrix (Fin 2) (Fin 2) R)) (s 0).val (t 0).val = 0 := fn_apply _ _ _
    rw [e] at h
    simp [mpoMatrix, mpoEntry, narrow, heisenbergTensor, putOp, zeros, extend]
  · rfl

/-- The operators are the Pauli matrices. -/
example : ∃ Ws, heisenberg (-4 : ℚ) 3 = .ok Ws ∧ Ws.length = 3 ∧ Linked 4 (Ws.map Blk.dims) ∧
    mpoMatrix 3 2 Ws = ∑ i ∈ range 2,
      (-(-4) / 4 : ℚ) • ((2 : ℚ) • onPair i sPlus sMinus + (2 : ℚ) • onPair i sMinus sPlus + onPair i sigmaZ sigmaZ) :=
  C55_heisenberg (-4 : ℚ) 3 (by omega)

/-- The Hamiltonian is not zero: with two sites, flipping a pair of opposite spins has amplitude `2`. -/
example : ∃ Ws, heisenberg (-4 : ℚ) 2 = .ok Ws ∧ mpoMatrix 2 2 Ws ![0, 1] ![1, 0] = 2 := by
  refine ⟨_, rfl, ?_⟩
  simp [mpoMatrix, mpoEntry, extend, narrow, heisenbergTensor, putOp, zeros, Finset.sum_range_succ, mulS, tr, pauliLo, put,
    pauliId, pauliSz, List.replicate]
  try norm_num

/-! ### Fermions -/
section
variable [CommRing R]

theorem toMat_up : toMat 4 (fermiUp : Blk R) = cUp := by
  ext a b; fin_cases a <;> fin_cases b <;> simp [toMat, fermiUp, put, zeros, cUp]
theorem toMat_dn : toMat 4 (fermiDn : Blk R) = cDn := by
  ext a b; fin_cases a <;> fin_cases b <;> simp [toMat, fermiDn, put, zeros, cDn]
theorem toMat_F : toMat 4 (fermiF : Blk R) = phase := by
  ext a b; fin_cases a <;> fin_cases b <;> simp [toMat, fermiF, put, zeros, phase]
theorem toMat_id : toMat 4 (fermiId : Blk R) = 1 := by
  ext a b; fin_cases a <;> fin_cases b <;> simp [toMat, fermiId, put, zeros]
theorem toMat_matmul (d : Nat) (x y : Blk R) : toMat d (matmul d x y) = toMat d x * toMat d y := by
  ext a b
  rw [Matrix.mul_apply]
  simp only [toMat, matmul]
  exact (Fin.sum_univ_eq_sum_range (fun k => x.f [a.val, k] * y.f [k, b.val]) d).symm

/-- Two fermions on different sites anticommute when the sign operator anticommutes with the first. -/
theorem jw_lt {L d : Nat} (F A B : Matrix (Fin d) (Fin d) R) (h : F * A = -(A * F)) {i j : Nat} (hi : i < L) (hij : i < j) :
    (jw F i A * jw F j B : Matrix (Fin L → Fin d) (Fin L → Fin d) R) = - (jw F j B * jw F i A) := by
  unfold jw
  rw [tensorOp_mul, tensorOp_mul]
  let P : Nat → Matrix (Fin d) (Fin d) R := fun k => if k < i then F * F else if k < j then F else if k = j then B else 1
  have e1 : (tensorOp (fun k => (if k < i then F else if k = i then A else 1) * (if k < j then F else if k = j then B else 1)) :
      Matrix (Fin L → Fin d) (Fin L → Fin d) R) = tensorOp (Function.update P i (A * F)) := by
    apply tensorOp_congr
    intro k _
    by_cases h0 : k = i
    · subst h0; simp [hij]
    · rw [Function.update_of_ne h0]
      simp only [P, h0]
      by_cases h1 : k < i
      · rw [if_pos h1, if_pos h1, if_pos (by omega)]
      · simp [h1]
  have e2 : (tensorOp (fun k => (if k < j then F else if k = j then B else 1) * (if k < i then F else if k = i then A else 1)) :
      Matrix (Fin L → Fin d) (Fin L → Fin d) R) = tensorOp (Function.update P i (F * A)) := by
    apply tensorOp_congr
    intro k _
    by_cases h0 : k = i
    · subst h0; simp [hij]
    · rw [Function.update_of_ne h0]
      simp only [P, h0]
      by_cases h1 : k < i
      · rw [if_pos h1, if_pos h1, if_pos (by omega)]
      · simp [h1]
  rw [e1, e2, h, show -(A * F) = (-1 : R) • (A * F) by simp, tensorOp_smul_site _ _ hi]
  simp

/-- On one site only the site operators matter. -/
theorem jw_eq {L d : Nat} (F A B : Matrix (Fin d) (Fin d) R) (hF : F * F = 1) (i : Nat) :
    (jw F i A * jw F i B : Matrix (Fin L → Fin d) (Fin L → Fin d) R) = onSite i (A * B) := by
  unfold jw onSite
  rw [tensorOp_mul]
  apply tensorOp_congr
  intro k _
  by_cases h0 : k = i
  · subst h0; simp
  · by_cases h1 : k < i
    · simp [h0, h1, hF]
    · simp [h0, h1]

theorem onSite_add {L d : Nat} {i : Nat} (hi : i < L) (A B : Matrix (Fin d) (Fin d) R) :
    (onSite i (A + B) : Matrix (Fin L → Fin d) (Fin L → Fin d) R) = onSite i A + onSite i B := by
  rw [onSite_update, onSite_update, onSite_update, tensorOp_add_site _ _ hi]

theorem onSite_one {L d : Nat} (i : Nat) :
    (onSite i (1 : Matrix (Fin d) (Fin d) R) : Matrix (Fin L → Fin d) (Fin L → Fin d) R) = 1 := by
  rw [← tensorOp_one]
  unfold onSite
  apply tensorOp_congr
  intro k _
  split <;> rfl

theorem jw_transpose {L d : Nat} (F A : Matrix (Fin d) (Fin d) R) (hF : F.transpose = F) (i : Nat) :
    (jw F i A : Matrix (Fin L → Fin d) (Fin L → Fin d) R).transpose = jw F i A.transpose := by
  unfold jw
  rw [tensorOp_transpose]
  apply tensorOp_congr
  intro k _
  split
  · exact hF
  · split
    · rfl
    · exact Matrix.transpose_one

/-- The annihilation operators of one site. -/
inductive Spin | up | dn
deriving DecidableEq

def ann : Spin → Blk R
  | .up => fermiUp
  | .dn => fermiDn

/-- The annihilation operator of spin `a` on site `i` of a chain of `L` sites, made of the matrices of `fermions()`. -/
def annihilate (L : Nat) (i : Nat) (a : Spin) : Matrix (Fin L → Fin 4) (Fin L → Fin 4) R :=
  jw (toMat 4 fermiF) i (toMat 4 (ann a))

theorem phase_sq : (phase * phase : Matrix (Fin 4) (Fin 4) R) = 1 := by
  ext a b; fin_cases a <;> fin_cases b <;> simp [phase, Matrix.mul_apply, Fin.sum_univ_four]

theorem phase_tr : (phase : Matrix (Fin 4) (Fin 4) R).transpose = phase := by
  ext a b; fin_cases a <;> fin_cases b <;> simp [phase]

def cMat : Spin → Matrix (Fin 4) (Fin 4) R
  | .up => cUp
  | .dn => cDn

theorem toMat_ann (a : Spin) : toMat 4 (ann a : Blk R) = cMat a := by
  cases a
  · exact toMat_up
  · exact toMat_dn

theorem phase_c (a : Spin) : (phase * cMat a : Matrix (Fin 4) (Fin 4) R) = -(cMat a * phase) := by
  cases a <;> ext i j <;> fin_cases i <;> fin_cases j <;>
    simp [phase, cMat, cUp, cDn, Matrix.mul_apply, Fin.sum_univ_four]

theorem phase_cd (a : Spin) : (phase * (cMat a).transpose : Matrix (Fin 4) (Fin 4) R) = -((cMat a).transpose * phase) := by
  cases a <;> ext i j <;> fin_cases i <;> fin_cases j <;>
    simp [phase, cMat, cUp, cDn, Matrix.mul_apply, Fin.sum_univ_four]

theorem c_c (a b : Spin) : (cMat a * cMat b + cMat b * cMat a : Matrix (Fin 4) (Fin 4) R) = 0 := by
  cases a <;> cases b <;> ext i j <;> fin_cases i <;> fin_cases j <;>
    simp [cMat, cUp, cDn]

theorem c_cd (a b : Spin) : (cMat a * (cMat b).transpose + (cMat b).transpose * cMat a : Matrix (Fin 4) (Fin 4) R)
    = if a = b then 1 else 0 := by
  cases a <;> cases b <;> ext i j <;> rw [Matrix.add_apply, Matrix.mul_apply, Matrix.mul_apply] <;>
    fin_cases i <;> fin_cases j <;> simp [cMat, cUp, cDn, Fin.sum_univ_four]

/-- **C57** Canonical anticommutation relations: for every chain length, all sites and spins, two annihilation operators
anticommute, and an annihilation and a creation operator anticommute except for the same site and spin, where the
anticommutator is the identity. -/
theorem C57_anticommute (L i j : Nat) (hi : i < L) (hj : j < L) (a b : Spin) :
    (annihilate L i a * annihilate L j b + annihilate L j b * annihilate L i a
      : Matrix (Fin L → Fin 4) (Fin L → Fin 4) R) = 0 ∧
    (annihilate L i a * (annihilate L j b).transpose + (annihilate L j b).transpose * annihilate L i a
      : Matrix (Fin L → Fin 4) (Fin L → Fin 4) R) = if i = j ∧ a = b then 1 else 0 := by
  unfold annihilate
  simp only [toMat_F, toMat_ann]
  rw [jw_transpose _ _ phase_tr]
  rcases Nat.lt_trichotomy i j with h | h | h
  · rw [jw_lt _ _ _ (phase_c a) hi h, jw_lt _ _ _ (phase_c a) hi h, if_neg (by omega)]
    exact ⟨by abel, by abel⟩
  · subst h
    rw [jw_eq _ _ _ phase_sq, jw_eq _ _ _ phase_sq, jw_eq _ _ _ phase_sq, jw_eq _ _ _ phase_sq, ← onSite_add hi,
      ← onSite_add hi, c_c, c_cd, onSite_zero hi]
    refine ⟨rfl, ?_⟩
    by_cases hab : a = b
    · rw [if_pos hab, if_pos ⟨rfl, hab⟩, onSite_one]
    · rw [if_neg hab, if_neg (fun c => hab c.2), onSite_zero hi]
  · rw [jw_lt _ _ _ (phase_c b) hj h, jw_lt _ _ _ (phase_cd b) hj h, if_neg (by omega)]
    exact ⟨by abel, by abel⟩

/-- The operators are not zero and the sites differ: sites 0 and 2 of three. -/
example : (annihilate 3 0 .up * (annihilate 3 2 .up).transpose + (annihilate 3 2 .up).transpose * annihilate 3 0 .up
      : Matrix (Fin 3 → Fin 4) (Fin 3 → Fin 4) ℚ) = 0 ∧
    (annihilate 3 1 .dn * (annihilate 3 1 .dn).transpose + (annihilate 3 1 .dn).transpose * annihilate 3 1 .dn
      : Matrix (Fin 3 → Fin 4) (Fin 3 → Fin 4) ℚ) = 1 := by
  refine ⟨?_, ?_⟩
  · exact (C57_anticommute 3 0 2 (by omega) (by omega) .up .up).2
  · exact (C57_anticommute 3 1 1 (by omega) (by omega) .dn .dn).2

/-! ### Hubbard -/

def hubA : Nat → Matrix (Fin 4) (Fin 4) R
  | 0 => cUp.transpose * phase
  | 1 => cDn.transpose * phase
  | 2 => phase * cUp
  | _ => phase * cDn
def hubB : Nat → Matrix (Fin 4) (Fin 4) R
  | 0 => cUp
  | 1 => cDn
  | 2 => cUp.transpose
  | _ => cDn.transpose
/-- `U n_up n_dn - mu (n_up + n_dn)` -/
def hubLoc (U mu : R) : Matrix (Fin 4) (Fin 4) R :=
  U • (cUp.transpose * cUp * (cDn.transpose * cDn)) - mu • (cUp.transpose * cUp + cDn.transpose * cDn)

theorem hubbard_channels (U mu : R) :
    Channels (hubbardTensor U mu) 4 4 (fun k => fn (hubA k)) (fun k => fn (hubB k)) (fn (hubLoc U mu)) := by
  have hloc : toMat 4 (subB (mulS U (matmul 4 (matmul 4 (tr fermiUp) fermiUp) (matmul 4 (tr fermiDn) fermiDn)))
      (mulS mu (addB (matmul 4 (tr fermiUp) fermiUp) (matmul 4 (tr fermiDn) fermiDn)))) = hubLoc U mu := by
    have e1 : toMat 4 (matmul 4 (tr fermiUp) (fermiUp : Blk R)) = cUp.transpose * cUp := by
      rw [toMat_matmul, toMat_tr, toMat_up]
    have e2 : toMat 4 (matmul 4 (tr fermiDn) (fermiDn : Blk R)) = cDn.transpose * cDn := by
      rw [toMat_matmul, toMat_tr, toMat_dn]
    unfold hubLoc
    rw [← e1, ← e2, ← toMat_matmul]
    rfl
  refine ⟨rfl, ?_, ?_, ?_, ?_, ?_, ?_⟩
  · intro s t hs ht
    rw [show (hubbardTensor U mu).f [0, s, 0, t] = (fermiId : Blk R).f [s, t] from rfl, ← fn_toMat _ hs ht, toMat_id]
    exact (fn_apply _ ⟨s, hs⟩ ⟨t, ht⟩).trans (del_apply _ _).symm
  · intro s t hs ht
    rw [show (hubbardTensor U mu).f [4 + 1, s, 4 + 1, t] = (fermiId : Blk R).f [s, t] from rfl, ← fn_toMat _ hs ht, toMat_id]
    exact (fn_apply _ ⟨s, hs⟩ ⟨t, ht⟩).trans (del_apply _ _).symm
  · intro k s t hk hs ht
    interval_cases k
    · rw [show (hubbardTensor U mu).f [4 + 1, s, 0 + 1, t] = (matmul 4 (tr fermiUp) fermiF : Blk R).f [s, t] from rfl,
        ← fn_toMat _ hs ht, toMat_matmul, toMat_tr, toMat_up, toMat_F]; rfl
    · rw [show (hubbardTensor U mu).f [4 + 1, s, 1 + 1, t] = (matmul 4 (tr fermiDn) fermiF : Blk R).f [s, t] from rfl,
        ← fn_toMat _ hs ht, toMat_matmul, toMat_tr, toMat_dn, toMat_F]; rfl
    · rw [show (hubbardTensor U mu).f [4 + 1, s, 2 + 1, t] = (matmul 4 fermiF fermiUp : Blk R).f [s, t] from rfl,
        ← fn_toMat _ hs ht, toMat_matmul, toMat_up, toMat_F]; rfl
    · rw [show (hubbardTensor U mu).f [4 + 1, s, 3 + 1, t] = (matmul 4 fermiF fermiDn : Blk R).f [s, t] from rfl,
        ← fn_toMat _ hs ht, toMat_matmul, toMat_dn, toMat_F]; rfl
  · intro k s t hk hs ht
    interval_cases k
    · rw [show (hubbardTensor U mu).f [0 + 1, s, 0, t] = (fermiUp : Blk R).f [s, t] from rfl,
        ← fn_toMat _ hs ht, toMat_up]; rfl
    · rw [show (hubbardTensor U mu).f [1 + 1, s, 0, t] = (fermiDn : Blk R).f [s, t] from rfl,
        ← fn_toMat _ hs ht, toMat_dn]; rfl
    · rw [show (hubbardTensor U mu).f [2 + 1, s, 0, t] = (tr fermiUp : Blk R).f [s, t] from rfl,
        ← fn_toMat _ hs ht, toMat_tr, toMat_up]; rfl
    · rw [show (hubbardTensor U mu).f [3 + 1, s, 0, t] = (tr fermiDn : Blk R).f [s, t] from rfl,
        ← fn_toMat _ hs ht, toMat_tr, toMat_dn]; rfl
  · intro s t hs ht
    rw [← hloc, fn_toMat _ hs ht]; rfl
  · intro a b s t ha hb hs ht
    have h1 : ¬ a = 5 := by omega
    have h2 : ¬ b = 0 := by omega
    simp [hubbardTensor, putOp, zeros, h1, h2]

/-- Hopping to the right and to the left in terms of the operators of the chain. -/
theorem jw_hop {L d : Nat} (F A B : Matrix (Fin d) (Fin d) R) (hF : F * F = 1) (i : Nat) :
    (jw F i A * jw F (i + 1) B : Matrix (Fin L → Fin d) (Fin L → Fin d) R) = onPair i (A * F) B ∧
    (jw F (i + 1) B * jw F i A : Matrix (Fin L → Fin d) (Fin L → Fin d) R) = onPair i (F * A) B := by
  unfold jw onPair
  rw [tensorOp_mul, tensorOp_mul]
  constructor
  all_goals
    apply tensorOp_congr
    intro k _
    by_cases h0 : k = i
    · subst h0; simp
    · by_cases h1 : k < i
      · have h2 : k < i + 1 := by omega
        have h3 : ¬ k = i + 1 := by omega
        simp [h0, h1, h2, h3, hF]
      · have h2 : ¬ k < i + 1 := by omega
        by_cases h3 : k = i + 1
        · subst h3; simp
        · simp [h0, h1, h2, h3]

/-- **C56** For all `U`, `mu` and every chain of at least two sites, `Hubbard(U, mu, L)` returns `L` site tensors that fit
together, and the operator they stand for is the sum of `U n_up n_dn - mu (n_up + n_dn)` over the sites and of the hopping
`c†_i c_{i+1} + c†_{i+1} c_i` over neighbours and spins, `c` being the operators of C57. -/
theorem C56_hubbard (U mu : R) (L : Nat) (hL : 2 ≤ L) :
    ∃ Ws, hubbard U mu L = .ok Ws ∧ Ws.length = L ∧ Linked 4 (Ws.map Blk.dims) ∧
      mpoMatrix L 4 Ws =
        ∑ i ∈ range L, (onSite i (U • (cUp.transpose * cUp * (cDn.transpose * cDn))
            - mu • (cUp.transpose * cUp + cDn.transpose * cDn))) +
        ∑ i ∈ range (L - 1), (
          ((annihilate L i .up).transpose * annihilate L (i + 1) .up
            + (annihilate L (i + 1) .up).transpose * annihilate L i .up) +
          ((annihilate L i .dn).transpose * annihilate L (i + 1) .dn
            + (annihilate L (i + 1) .dn).transpose * annihilate L i .dn)) := by
  obtain ⟨n, rfl⟩ : ∃ n, L = n + 2 := ⟨L - 2, by omega⟩
  refine ⟨_, edges_eq (hubbard_channels U mu) n, ?_, edges_linked rfl n, ?_⟩
  · simp
  · rw [channels_matrix (by omega) _ _ _ (hubbard_channels U mu) n]
    congr 1
    apply sum_congr rfl
    intro i _
    simp only [sum_range_succ, sum_range_zero, zero_add, hubA, hubB, annihilate, toMat_F, toMat_ann, cMat]
    simp only [jw_transpose _ _ phase_tr, (jw_hop phase _ _ phase_sq i).1, (jw_hop phase _ _ phase_sq i).2]
    abel

/-- **C56** On one site only the local term is left; a chain with no site is undefined behaviour. -/
theorem C56_short (U mu : R) :
    (∃ Ws, hubbard U mu 1 = .ok Ws ∧ mpoMatrix 1 4 Ws = onSite 0 (hubLoc U mu)) ∧ hubbard U mu 0 = Res.ub := by
  constructor
  · refine ⟨[narrow 2 0 1 (narrow 0 5 6 (hubbardTensor U mu))], rfl, ?_⟩
    ext s t
    have h := (hubbard_channels U mu).onsite (s 0).val (t 0).val (s 0).isLt (t 0).isLt
    have e : fn (hubLoc U mu) (s 0).val (t 0).val = hubLoc U mu (s 0) (t 0) := fn_apply _ _ _
    rw [e] at h
    have h2 : (narrow 2 0 1 (narrow 0 5 6 (hubbardTensor U mu))).dims.getD 2 0 = 1 := rfl
    have h3 : (narrow 2 0 1 (narrow 0 5 6 (hubbardTensor U mu))).f [0, (s 0).val, 0, (t 0).val]
      = (hubbardTensor U mu).f [4 + 1, (s 0).val, 0, (t 0).val] := rfl
    simp only [mpoMatrix, mpoEntry, h2, range_one, sum_singleton, onSite, tensorOp]
    simp only [extend, Nat.lt_one_iff, dite_true, Fin.zero_eta, h3, h]
    simp
  · rfl

/-- Where the documentation gives the hopping a minus sign, the operator differs: with two sites and no local term the
amplitude for the move of one up electron from site 1 to site 0 is `1`, not `-1`. -/
theorem C56_sign_fails :
    ∃ Ws, hubbard (0 : ℚ) 0 2 = .ok Ws ∧ mpoMatrix 2 4 Ws ![1, 0] ![0, 1] = 1 := by
  refine ⟨_, rfl, ?_⟩
  simp [mpoMatrix, mpoEntry, extend, narrow, hubbardTensor, putOp, zeros, Finset.sum_range_succ, mulS, tr, fermiUp, fermiDn,
    fermiF, put, fermiId, matmul, subB, addB, List.replicate]

example : ∃ Ws, hubbard (8 : ℚ) 4 5 = .ok Ws ∧ Ws.length = 5 :=
  let ⟨Ws, h, l, _⟩ := C56_hubbard (8 : ℚ) 4 5 (by omega)
  ⟨Ws, h, l⟩
end

end HM
end QuantiT
