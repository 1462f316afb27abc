import Verif.Props.BTensor
import Verif.Props.BTensorOps

/-!
Positions beyond a dimension (C17), and the charges of an inverted tensor (C27).
-/

namespace QuantiT
namespace BT
open Spec

variable {G R : Type}

theorem decompose1_beyond (d : Dim G) : ∀ e, dimSize d ≤ e → decompose1 d e = (d.length, e - dimSize d) := by
  induction d with
  | nil => intro e _; simp [decompose1, dimSize]
  | cons s d ih =>
    intro e he
    rw [dimSize_cons] at he
    unfold decompose1
    rw [if_pos (by omega)]
    simp only [ih (e - s.1) (by omega), List.length_cons, dimSize_cons]
    rw [Nat.sub_sub]

/-- **C17**, a position beyond the dimension: the decomposition does not throw in a release build, it gives the number of
sections, which is no section, and what is left of the position. -/
theorem C17_beyond_fails (d : Dim G) (e : Nat) (he : dimSize d ≤ e) :
    decompose [d] [e] = .ok ([d.length], [e - dimSize d]) ∧ d[d.length]? = none := by
  refine ⟨?_, by simp⟩
  simp only [decompose, decompose1_beyond d e he, bind, Except.bind]

example : decompose [[(2, (0 : Int)), (3, 1)]] [7] = .ok ([2], [2]) := by rfl

/-- **C27**: dimension by dimension and section by section the size stays and the charge becomes its inverse, for `inverse_cvals_` and
for `conj`. -/
theorem C27_shape [AddCommGroup G] (c : R → R) (t : BT G R) :
    (∀ (i j : Nat) (d : Dim G) (s : Nat × G), t.shape[i]? = some d → d[j]? = some s →
      ∃ d' e', (inverseCvals t).shape[i]? = some d' ∧ (conj c t).shape[i]? = some e' ∧ d'[j]? = some (s.1, -s.2) ∧ e'[j]? = some (s.1, -s.2)) ∧
    (inverseCvals t).shape.map List.length = t.shape.map List.length ∧ (conj c t).shape.map List.length = t.shape.map List.length := by
  refine ⟨fun i j d s hd hs => ⟨d.map fun s => (s.1, -s.2), d.map fun s => (s.1, -s.2), ?_, ?_, ?_, ?_⟩, ?_, ?_⟩
  · simp [inverseCvals, hd]
  · simp [conj, inverseCvals, mapBlocks, hd]
  · simp [hs]
  · simp [hs]
  · simp [inverseCvals]
  · simp [conj, inverseCvals, mapBlocks]

example : (inverseCvals (⟨[[(2, 0), (1, 3)], [(1, -1)]], 2, []⟩ : BT Int Int)).shape = [[(2, 0), (1, -3)], [(1, 1)]] := by rfl

end BT
end QuantiT
