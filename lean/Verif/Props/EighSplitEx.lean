import Verif.Props.EighSplit
/-
The hypotheses of C122 are met: a hopping of a conserved particle between two sites.
-/
namespace QuantiT
namespace BT
open Spec Finset

/-- `2 n₁ n₂ + hopping`: every block its rule allows is stored. -/
def exHop (q0 q1 : ℤ) : BT ℤ ℝ :=
  ⟨[[(1, q0), (1, q1)], [(1, q0), (1, q1)], [(1, -q0), (1, -q1)], [(1, -q0), (1, -q1)]], 0,
    [([0, 0, 0, 0], ⟨[1, 1, 1, 1], fun _ => 0⟩), ([0, 1, 0, 1], ⟨[1, 1, 1, 1], fun _ => 0⟩), ([0, 1, 1, 0], ⟨[1, 1, 1, 1], fun _ => 1⟩),
      ([1, 0, 0, 1], ⟨[1, 1, 1, 1], fun _ => 1⟩), ([1, 0, 1, 0], ⟨[1, 1, 1, 1], fun _ => 0⟩), ([1, 1, 1, 1], ⟨[1, 1, 1, 1], fun _ => 2⟩)]⟩

theorem exHop_conserving (q0 q1 : ℤ) : Conserving (exHop q0 q1).shape (exHop q0 q1).rule (exHop q0 q1).blocks := by
  refine ⟨by unfold Sorted exHop; simp only; decide, ?_⟩
  intro k b h
  simp only [exHop, List.mem_cons, Prod.mk.injEq, List.not_mem_nil, or_false] at h
  rcases h with ⟨rfl, rfl⟩ | ⟨rfl, rfl⟩ | ⟨rfl, rfl⟩ | ⟨rfl, rfl⟩ | ⟨rfl, rfl⟩ | ⟨rfl, rfl⟩ <;>
    exact ⟨_, rfl, by simp [charge, exHop]; try ring, rfl⟩

theorem exHop_full : ∀ k, Allowed (exHop 0 1).shape (exHop 0 1).rule k → lookup (exHop 0 1).blocks k ≠ none := by
  rintro k ⟨secs, h1, h2⟩
  have hk : k ∈ indices [2, 2, 2, 2] := MP.mem_indices.2 (sections_inRange h1)
  have key : ∀ k ∈ indices [2, 2, 2, 2], (sections (exHop 0 1).shape k).map charge = some 0 →
      (((exHop 0 1).blocks.map Prod.fst).contains k) = true := by decide
  have := key k hk (by rw [h1]; exact congrArg some h2)
  intro h0
  rw [lookup_eq_none] at h0
  obtain ⟨x, hx, rfl⟩ := List.mem_map.1 (List.contains_iff_mem.1 this)
  exact h0 x hx rfl

theorem exHop_hermitian (e e' : List Nat) (he : InRange e [2, 2]) (he' : InRange e' [2, 2]) :
    entry (exHop 0 1).shape (exHop 0 1).blocks (e ++ e') = star (entry (exHop 0 1).shape (exHop 0 1).blocks (e' ++ e)) := by
  have key : ∀ e, InRange e [2, 2] → e = [0, 0] ∨ e = [0, 1] ∨ e = [1, 0] ∨ e = [1, 1] := by
    intro e he
    have := MP.mem_indices.2 he
    revert this
    generalize e = x
    intro this
    have h : ∀ x ∈ indices [2, 2], x = [0, 0] ∨ x = [0, 1] ∨ x = [1, 0] ∨ x = [1, 1] := by decide
    exact h x this
  rcases key e he with rfl | rfl | rfl | rfl <;> rcases key e' he' with rfl | rfl | rfl | rfl <;>
    simp [entry, locateAll, locate, exHop, lookup]

/-- The hypotheses of `C122_eigh_partial` are met, with a dense solver that meets its laws and a matrix that is not diagonal. -/
example : ∃ d u b, eighSplit exactEigh (exHop 0 1) 2 = .ok (d, u) ∧ entry (exHop 0 1).shape (exHop 0 1).blocks [0, 1, 1, 0] = 1 ∧
    entry (exHop 0 1).shape (exHop 0 1).blocks [0, 1, 1, 0] = ∑ k ∈ range (dimSize (b : Dim ℤ)),
      entry u.shape u.blocks [0, 1, k] * entry d.shape d.blocks [k] * star (entry u.shape u.blocks [1, 0, k]) := by
  obtain ⟨d, u, b, h1, -, -, h2, -⟩ := C122_eigh_partial exactEigh exactEigh_sizes exactEigh_product exactEigh_ortho (exHop 0 1)
    [[(1, 0), (1, 1)], [(1, 0), (1, 1)]] rfl (by simp) rfl (exHop_conserving 0 1) (by decide) exHop_full [(1, 0), (1, 0)] rfl (by decide) (by decide)
    exHop_hermitian
  exact ⟨d, u, b, h1, by simp [entry, locateAll, locate, exHop, lookup], h2 [0, 1] [1, 0] (MP.mem_indices.1 (by decide)) (MP.mem_indices.1 (by decide))⟩

/-- The hypotheses of `C122_rule_fails` are met: the same operator with the charges of the two states exchanged. -/
example : eighSplit exactEigh (exHop 1 0) 2 = .error (.throw .invalidArgument) :=
  C122_rule_fails exactEigh (exHop 1 0) [[(1, 1), (1, 0)], [(1, 1), (1, 0)]] rfl (by simp) (exHop_conserving 1 0) (by decide) (by simp [exHop])
    [(1, 1), (1, 1)] rfl (by decide) (by decide)

end BT
end QuantiT
