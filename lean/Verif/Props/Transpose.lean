import Verif.Props.BTensorOps
import Mathlib.Data.List.Perm.Basic
/-
Transposition of two dimensions of a block tensor (C20).
-/
namespace QuantiT
namespace BT
open Spec FM
variable {G R : Type}

/-- Exchange of `i` and `j`. -/
def swapIdx (i j k : Nat) : Nat := if k = i then j else if k = j then i else k

theorem swapIdx_swapIdx (i j k : Nat) : swapIdx i j (swapIdx i j k) = k := by
  unfold swapIdx
  split <;> split <;> first | omega | (split <;> omega)

theorem swapIdx_lt {i j k n : Nat} (hi : i < n) (hj : j < n) (hk : k < n) : swapIdx i j k < n := by
  unfold swapIdx
  split
  · exact hj
  · split
    · exact hi
    · exact hk

theorem swap_perm {i j n : Nat} (hi : i < n) (hj : j < n) : ((List.range n).map (swapIdx i j)).Perm (List.range n) := by
  refine (List.perm_ext_iff_of_nodup ?_ List.nodup_range).2 ?_
  · refine List.nodup_range.map ?_
    intro x y h
    rw [← swapIdx_swapIdx i j x, h, swapIdx_swapIdx]
  · intro k
    rw [List.mem_map, List.mem_range]
    constructor
    · rintro ⟨x, hx, rfl⟩
      exact swapIdx_lt hi hj (List.mem_range.1 hx)
    · intro hk
      exact ⟨swapIdx i j k, List.mem_range.2 (swapIdx_lt hi hj hk), swapIdx_swapIdx i j k⟩

theorem swap_list {i j n : Nat} (hi : i < n) (hj : j < n) :
    (((List.range n).map Int.ofNat).set i (j : Int)).set j (i : Int) = ((List.range n).map (swapIdx i j)).map Int.ofNat := by
  apply List.ext_getElem?
  intro k
  rw [List.getElem?_set, List.getElem?_set]
  simp only [List.length_set, List.length_map, List.length_range, List.getElem?_map]
  by_cases hk : k < n
  · rw [List.getElem?_range hk]
    simp only [Option.map_some]
    unfold swapIdx
    by_cases h1 : j = k
    · subst h1
      by_cases h2 : j = i
      · subst h2; simp [hj]
      · simp [h2, hj]
    · by_cases h2 : i = k
      · subst h2
        simp [h1, hi]
      · simp [h1, h2, Ne.symm h1, Ne.symm h2]
  · rw [List.getElem?_eq_none (by simpa using hk)]
    rw [if_neg (by omega), if_neg (by omega)]
    rfl

theorem gather_swap {α : Type} {i j n : Nat} {l l' : List α} (hi : i < n) (hj : j < n) (hl : l.length = n) :
    gather ((List.range n).map (swapIdx i j)) l = some l' ↔ ∀ k, l'[k]? = l[swapIdx i j k]? := by
  have hlt : ∀ x ∈ (List.range n).map (swapIdx i j), x < l.length := by
    intro x hx
    obtain ⟨k, hk, rfl⟩ := List.mem_map.1 hx
    rw [hl]
    exact swapIdx_lt hi hj (List.mem_range.1 hk)
  obtain ⟨m, hm⟩ := gather_isSome hlt
  have key : ∀ k, m[k]? = l[swapIdx i j k]? := by
    intro k
    by_cases hk : k < n
    · exact gather_getElem? hm (by rw [List.getElem?_map, List.getElem?_range hk]; rfl)
    · have h1 : m.length = n := by rw [gather_length hm]; simp
      rw [List.getElem?_eq_none (by omega), List.getElem?_eq_none]
      rw [hl]
      unfold swapIdx
      rw [if_neg (by omega), if_neg (by omega)]
      omega
  constructor
  · intro h
    rw [hm] at h
    cases h
    exact key
  · intro h
    rw [hm]
    congr 1
    exact List.ext_getElem? fun k => (key k).trans (h k).symm

variable [AddCommGroup G] [DecidableEq G]

theorem transpose_eq (t : BT G R) {i j : Nat} (hi : i < t.shape.length) (hj : j < t.shape.length) {x y : Int}
    (hx : x = i ∨ x = (i : Int) - t.shape.length) (hy : y = j ∨ y = (j : Int) - t.shape.length) :
    transpose t x y = permute t (((List.range t.shape.length).map (swapIdx i j)).map Int.ofNat) := by
  have h0 : (if x < 0 then x + (t.shape.length : Int) else x) = i := by split <;> omega
  have h1 : (if y < 0 then y + (t.shape.length : Int) else y) = j := by split <;> omega
  unfold transpose
  simp only [h0, h1]
  rw [if_pos (by omega), Int.toNat_natCast, Int.toNat_natCast, swap_list hi hj]

theorem spells_cast (n : Nat) : ∀ p : List Nat, (∀ a ∈ p, a < n) → Spells n (p.map Int.ofNat) p
  | [], _ => .nil
  | a :: p, h => .cons ⟨h a (by simp), Or.inl rfl⟩ (spells_cast n p fun b hb => h b (by simp [hb]))

/-- **C20**, `transpose(dim0, dim1)`, dimensions counted from either end: the two dimensions are exchanged, their sections
with them, and so are the two indices of every entry. -/
theorem C20_transpose [Zero R] (t : BT G R) (hc : Conserving t.shape t.rule t.blocks) (i j : Nat)
    (hi : i < t.shape.length) (hj : j < t.shape.length) (x y : Int)
    (hx : x = i ∨ x = (i : Int) - t.shape.length) (hy : y = j ∨ y = (j : Int) - t.shape.length) :
    ∃ t', transpose t x y = .ok t' ∧ (∀ k, t'.shape[k]? = t.shape[swapIdx i j k]?) ∧ t'.rule = t.rule ∧
      Conserving t'.shape t'.rule t'.blocks ∧
      ∀ e e' : List Nat, InRange e (t.shape.map dimSize) → (∀ k : Nat, e'[k]? = e[swapIdx i j k]?) →
        entry t'.shape t'.blocks e' = entry t.shape t.blocks e := by
  obtain ⟨t', h1, h2, h3, h4, h5⟩ := C20_permute t hc _ _ (swap_perm hi hj) (spells_cast _ _ (perm_range_lt (swap_perm hi hj)))
  refine ⟨t', by rw [transpose_eq t hi hj hx hy, h1], (gather_swap hi hj rfl).1 h2, h3, h4, ?_⟩
  intro e e' he hs
  refine h5 e e' he ((gather_swap hi hj ?_).2 hs)
  simpa using he.length_eq

/-- **C20**, transposing twice restores the tensor, also with the dimensions given in the other order the second time. -/
theorem C20_transpose_twice (t : BT G R) (hc : Conserving t.shape t.rule t.blocks) (i j : Nat)
    (hi : i < t.shape.length) (hj : j < t.shape.length) (x y x' y' : Int)
    (hx : x = i ∨ x = (i : Int) - t.shape.length) (hy : y = j ∨ y = (j : Int) - t.shape.length)
    (hxy : (x' = x ∧ y' = y) ∨ (x' = y ∧ y' = x)) :
    ∃ t' t'', transpose t x y = .ok t' ∧ transpose t' x' y' = .ok t'' ∧
      t''.shape = t.shape ∧ t''.rule = t.rule ∧ SameBlocks t''.blocks t.blocks := by
  have hg : gather ((List.range t.shape.length).map (swapIdx i j)) ((List.range t.shape.length).map (swapIdx i j))
      = some (List.range t.shape.length) := by
    rw [gather_swap hi hj (by simp)]
    intro k
    by_cases hk : k < t.shape.length
    · rw [List.getElem?_map, List.getElem?_range hk, List.getElem?_range (swapIdx_lt hi hj hk)]
      simp [swapIdx_swapIdx]
    · rw [List.getElem?_eq_none (by simpa using hk), List.getElem?_eq_none]
      unfold swapIdx
      rw [if_neg (by omega), if_neg (by omega)]
      simpa using hk
  obtain ⟨t', t'', h1, h2, h3, h4, h5⟩ := C20_inverse t hc _ _ _ _ (swap_perm hi hj) (spells_cast _ _ (perm_range_lt (swap_perm hi hj))) hg (spells_cast _ _ (perm_range_lt (swap_perm hi hj)))
  have hlen : t'.shape.length = t.shape.length := by
    obtain ⟨sh', hsh⟩ := gather_isSome (l := t.shape) (p := (List.range t.shape.length).map (swapIdx i j)) (perm_range_lt (swap_perm hi hj))
    obtain ⟨q1, q2⟩ := permute_eq hc (normDims_eq (spells_cast t.shape.length _ (perm_range_lt (swap_perm hi hj))) (perm_range_length (swap_perm hi hj))) (swap_perm hi hj) hsh
    rw [q1] at h1
    cases h1
    rw [gather_length hsh]
    simp
  refine ⟨t', t'', by rw [transpose_eq t hi hj hx hy, h1], ?_, h3, h4, h5⟩
  rcases hxy with ⟨rfl, rfl⟩ | ⟨rfl, rfl⟩
  · rw [transpose_eq t' (i := i) (j := j) (by omega) (by omega) (by rw [hlen]; exact hx) (by rw [hlen]; exact hy), hlen, h2]
  · have hs : swapIdx j i = swapIdx i j := by
      funext k
      unfold swapIdx
      split <;> split <;> omega
    rw [transpose_eq t' (i := j) (j := i) (by omega) (by omega) (by rw [hlen]; exact hy) (by rw [hlen]; exact hx), hlen, hs, h2]

/-- **C20**, a dimension that does not exist: the list of dimensions is written outside its bounds. -/
theorem C20_transpose_fails (t : BT G R) (x y : Int)
    (h : x < -t.shape.length ∨ (t.shape.length : Int) ≤ x ∨ y < -t.shape.length ∨ (t.shape.length : Int) ≤ y) :
    transpose t x y = Res.ub := by
  unfold transpose
  simp only
  rw [if_neg]
  split <;> split <;> omega

/-- A matrix with integer charges and its transpose. -/
example : ∃ t' : BT Int Int, transpose (⟨[[(1, 0), (2, 1)], [(2, 1)]], 1, [([0, 0], ⟨[1, 2], fun o => o.getD 1 0 + 5⟩)]⟩ : BT Int Int) (-1) 0 = .ok t' ∧
    t'.shape = [[(2, 1)], [(1, 0), (2, 1)]] := ⟨_, rfl, rfl⟩

end BT
end QuantiT
