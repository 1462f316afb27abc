import Verif.Model.InPlace
import Verif.Props.Mps
import Verif.Props.Transpose

/-!
In-place rearrangements (C20) and block chains filled with copies of one tensor (C44).
-/

namespace QuantiT
namespace BT
open Spec

variable {G R : Type} [AddCommGroup G] [DecidableEq G]

omit [AddCommGroup G] [DecidableEq G] in
/-- **C20**, `a.swap(b)`: each tensor has the value the other had, so that swapping twice changes nothing. -/
theorem C20_swap (a b : BT G R) : swapWith a b = (b, a) ∧ swapWith (swapWith a b).1 (swapWith a b).2 = (a, b) := ⟨rfl, rfl⟩

/-- **C20**, `permute_` in place: the tensor has become the permuted tensor, every entry at its permuted index. -/
theorem C20_permute_in_place [Zero R] (t : BT G R) (hc : Conserving t.shape t.rule t.blocks) (p : List Nat) (inp : List Int)
    (hp : p.Perm (List.range t.shape.length)) (hi : Spells t.shape.length inp p) :
    ∃ t', permuteIn t inp = .done t' ∧ permute t inp = .ok t' ∧ gather p t.shape = some t'.shape ∧ t'.rule = t.rule ∧
      Conserving t'.shape t'.rule t'.blocks ∧
      ∀ e e', InRange e (t.shape.map dimSize) → gather p e = some e' →
        entry t'.shape t'.blocks e' = entry t.shape t.blocks e := by
  obtain ⟨t', h1, h2⟩ := C20_permute t hc p inp hp hi
  exact ⟨t', by unfold permuteIn guarded; rw [h1]; rfl, h1, h2⟩

theorem transposeIn_eq (t : BT G R) (x y : Int) : transposeIn t x y = guarded t (transpose t x y) .done := by
  unfold transposeIn transpose permuteIn
  simp only
  split_ifs <;> rfl

/-- **C20**, `transpose_` in place. -/
theorem C20_transpose_in_place [Zero R] (t : BT G R) (hc : Conserving t.shape t.rule t.blocks) (i j : Nat)
    (hi : i < t.shape.length) (hj : j < t.shape.length) (x y : Int)
    (hx : x = i ∨ x = (i : Int) - t.shape.length) (hy : y = j ∨ y = (j : Int) - t.shape.length) :
    ∃ t', transposeIn t x y = .done t' ∧ (∀ k, t'.shape[k]? = t.shape[swapIdx i j k]?) ∧ t'.rule = t.rule ∧
      Conserving t'.shape t'.rule t'.blocks ∧
      ∀ e e' : List Nat, InRange e (t.shape.map dimSize) → (∀ k : Nat, e'[k]? = e[swapIdx i j k]?) →
        entry t'.shape t'.blocks e' = entry t.shape t.blocks e := by
  obtain ⟨t', h1, h2⟩ := C20_transpose t hc i j hi hj x y hx hy
  exact ⟨t', by rw [transposeIn_eq, h1]; rfl, h2⟩

/-- **C20**: an in-place permutation that throws leaves the tensor as it was. -/
theorem C20_in_place_throws (t : BT G R) (w : Wreck G R) (e : Exn) :
    (∀ p, permuteIn t p = .threw e w → w = intact t ∧ permute t p = Res.throw e) ∧
    (∀ x y, transposeIn t x y = .threw e w → w = intact t ∧ transpose t x y = Res.throw e) := by
  have key : ∀ p, permuteIn t p = .threw e w → w = intact t ∧ permute t p = Res.throw e := by
    intro p h
    unfold permuteIn guarded at h
    split at h
    · cases h
    · rename_i e' hp
      injection h with h1 h2
      subst h1
      exact ⟨h2.symm, hp⟩
    · cases h
  refine ⟨key, fun x y h => ?_⟩
  rw [transposeIn_eq] at h
  unfold guarded at h
  split at h
  · cases h
  · rename_i e' hp
    injection h with h1 h2
    subst h1
    exact ⟨h2.symm, hp⟩
  · cases h

/-- A repeated dimension with fewer sections is refused, and the tensor stays as it was. -/
example : permuteIn (⟨[[(1, 0)], [(2, 0), (1, 1)]], 0, []⟩ : BT Int Int) [0, 0] =
    .threw .invalidArgument (intact ⟨[[(1, 0)], [(2, 0), (1, 1)]], 0, []⟩) := by rfl

example : ∃ t' : BT Int Int, transposeIn (⟨[[(1, 0), (2, 1)], [(2, 1)]], 1, [([0, 0], ⟨[1, 2], fun o => o.getD 1 0 + 5⟩)]⟩ : BT Int Int) (-1) 0 = .done t' ∧
    t'.shape = [[(2, 1)], [(1, 0), (2, 1)]] := ⟨_, rfl, rfl⟩

end BT

namespace MP
open Spec

variable {G : Type}

theorem chargeLinked_replicate [AddCommMonoid G] {rank n : Nat} (hn : 2 ≤ n) (s : Shape G) :
    ChargeLinked rank (List.replicate n s) ↔
      s.length = rank ∧ List.Forall₂ (fun (x y : Nat × G) => x.2 + y.2 = 0) (s.getD 2 []) (s.getD 0 []) := by
  constructor
  · intro h
    refine ⟨h.1 s (List.mem_replicate.2 ⟨by omega, rfl⟩), h.2 0 s s ?_ ?_⟩
    · rw [List.getElem?_replicate, if_pos (by omega)]
    · rw [List.getElem?_replicate, if_pos (by omega)]
  · rintro ⟨h1, h2⟩
    refine ⟨fun s' hs => by rw [List.eq_of_mem_replicate hs]; exact h1, fun i a b ha hb => ?_⟩
    rw [List.eq_of_mem_replicate (List.mem_of_getElem? ha), List.eq_of_mem_replicate (List.mem_of_getElem? hb)]
    exact h2

theorem bCheckOne_eq [AddCommMonoid G] [DecidableEq G] {rank n : Nat} (hr : 3 ≤ rank) (hn : 2 ≤ n) (s : Shape G) :
    ∃ b, bCheckOne rank s = .ok b ∧ (b = true ↔ ChargeLinked rank (List.replicate n s)) := by
  rw [chargeLinked_replicate hn]
  unfold bCheckOne
  by_cases hl : s.length = rank
  · rw [if_pos hl]
    unfold productCompat
    rw [List.getElem?_eq_getElem (show 0 < s.length by omega), List.getElem?_eq_getElem (show 2 < s.length by omega)]
    simp only
    have e0 : s.getD 0 [] = s[0]'(by omega) := by simp [List.getD, List.getElem?_eq_getElem (show 0 < s.length by omega)]
    have e2 : s.getD 2 [] = s[2]'(by omega) := by simp [List.getD, List.getElem?_eq_getElem (show 2 < s.length by omega)]
    rw [e0, e2]
    by_cases hs : (s[0]'(by omega)).length = (s[2]'(by omega)).length
    · rw [if_neg (by simpa using hs)]
      refine ⟨_, rfl, ?_⟩
      rw [zip_all _ _ hs]
      constructor
      · intro h
        exact ⟨hl, (List.forall₂_iff_zip.2 ⟨hs.symm, fun {a b} hab => by
          have : (b, a) ∈ (s[0]'(by omega)).zip (s[2]'(by omega)) := by
            rw [← List.zip_swap]; exact List.mem_map.2 ⟨(a, b), hab, rfl⟩
          have := (List.forall₂_iff_zip.1 h).2 this
          rw [add_comm]; exact this⟩)⟩
      · rintro ⟨-, h⟩
        exact List.forall₂_iff_zip.2 ⟨hs, fun {a b} hab => by
          have : (b, a) ∈ (s[2]'(by omega)).zip (s[0]'(by omega)) := by
            rw [← List.zip_swap]; exact List.mem_map.2 ⟨(a, b), hab, rfl⟩
          have := (List.forall₂_iff_zip.1 h).2 this
          rw [add_comm]; exact this⟩
    · rw [if_pos (by simpa using hs)]
      exact ⟨false, rfl, by simp only [Bool.false_eq_true, false_iff]; exact fun h => hs h.2.length_eq.symm⟩
  · rw [if_neg hl]
    exact ⟨false, rfl, by simp only [Bool.false_eq_true, false_iff]; exact fun h => hl h.1⟩

/-- **C44** (partial), the filling constructors of block chains: for at least two copies, `bMPS(n, tensor, oc)` is accepted
exactly when the chain of `n` copies is linked by its charges and `oc` is inside it, and `bMPO(n, tensor)` exactly when the
chain is linked; otherwise they throw `invalid_argument`.  Missing: equality of the sizes of the sections of the two bonds
(`C44_block_fill_sizes_fails`). -/
theorem C44_block_fill_partial [AddCommMonoid G] [DecidableEq G] (n : Nat) (hn : 2 ≤ n) (s : Shape G) (oc : Nat) :
    ((ChargeLinked 3 (List.replicate n s) ∧ oc < n → mkBMpsFill n s oc = .ok oc) ∧
      (¬ (ChargeLinked 3 (List.replicate n s) ∧ oc < n) → mkBMpsFill n s oc = Res.throw .invalidArgument)) ∧
    ((ChargeLinked 4 (List.replicate n s) → mkBMpoFill s = .ok ()) ∧
      (¬ ChargeLinked 4 (List.replicate n s) → mkBMpoFill s = Res.throw .invalidArgument)) := by
  constructor
  · obtain ⟨b, hb, hiff⟩ := bCheckOne_eq (rank := 3) (le_refl _) hn s
    unfold mkBMpsFill
    rw [hb]
    simp only [bind, Except.bind]
    constructor
    · rintro ⟨hl, ho⟩
      rw [if_neg (by omega), if_neg (by simpa using hiff.2 hl)]
    · intro h
      by_cases ho : oc < n
      · rw [if_neg (by omega), if_pos]
        intro hb'; exact h ⟨hiff.1 hb', ho⟩
      · rw [if_pos (by omega)]
  · obtain ⟨b, hb, hiff⟩ := bCheckOne_eq (rank := 4) (by omega) hn s
    unfold mkBMpoFill
    rw [hb]
    simp only [bind, Except.bind]
    exact ⟨fun hl => if_neg (by simpa using hiff.2 hl), fun hl => if_pos fun hb' => hl (hiff.1 hb')⟩

/-- **C44** fails for block chains of copies: a tensor with a left bond of size 1 and a right bond of size 2 is accepted. -/
theorem C44_block_fill_sizes_fails :
    mkBMpsFill 2 [[(1, (0 : ℤ))], [(2, 0)], [(2, 0)]] 1 = .ok 1 := rfl

example : mkBMpsFill 3 [[(2, (1 : ℤ)), (1, 0)], [(1, 0), (1, 1)], [(2, -1), (1, 0)]] 2 = .ok 2 := by decide +kernel
example : mkBMpsFill 3 [[(2, (1 : ℤ))], [(1, 0), (1, 1)], [(2, 1)]] 2 = Res.throw .invalidArgument := by decide +kernel

end MP
end QuantiT
