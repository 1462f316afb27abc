import Verif.Props.BlockMove
import Verif.Props.BlockNetworkEx
import Verif.Lemmas.SvdExists
import Mathlib.Analysis.Complex.Basic
/-
Examples for C79 and C80: complex chains of two sites with a U(1) charge.
-/
namespace QuantiT.BN
open Spec BT Finset

/-- One complex coefficient per block. -/
def coefC (n : Nat) (x : ℂ) : Blk ℂ := ⟨List.replicate n 1, fun _ => x⟩

/-- `|↑↓⟩ + 2 |↓↑⟩`, as `exA` and `exB` with complex coefficients. -/
def exAC : BT Int ℂ := ⟨[[(1, 0)], [(1, 1), (1, -1)], [(1, -1), (1, 1)]], 0, [([0, 0, 0], coefC 3 1), ([0, 1, 1], coefC 3 2)]⟩
@[inherit_doc exAC]
def exBC : BT Int ℂ := ⟨[[(1, 1), (1, -1)], [(1, 1), (1, -1)], [(1, 0)]], 0, [([0, 1, 0], coefC 3 1), ([1, 0, 0], coefC 3 1)]⟩

theorem exAC_sound : Sound exAC := sound_of (by unfold Sorted; simp [exAC]; decide) (by
  intro kb h; simp only [exAC, List.mem_cons, List.not_mem_nil, or_false] at h
  rcases h with rfl | rfl <;> exact ⟨_, rfl, by decide, rfl⟩) (by unfold exAC; simp)
theorem exBC_sound : Sound exBC := sound_of (by unfold Sorted; simp [exBC]; decide) (by
  intro kb h; simp only [exBC, List.mem_cons, List.not_mem_nil, or_false] at h
  rcases h with rfl | rfl <;> exact ⟨_, rfl, by decide, rfl⟩) (by unfold exBC; simp)

theorem exChainC : Chained 3 [exAC, exBC] := chained_two exAC_sound exBC_sound rfl rfl
  (.cons ⟨rfl, by decide⟩ (.cons ⟨rfl, by decide⟩ .nil))

theorem exNonZero : NonZero ([exAC, exBC].map denseOf) := by
  refine ⟨[0, 1], 0, 0, .cons (by decide) (.cons (by decide) .nil), by decide, by decide, ?_⟩
  have e1 : (denseOf exAC).f [0, 0, 0] = 1 := rfl
  have e2 : (denseOf exBC).f [0, 1, 0] = 1 := rfl
  have e3 : (denseOf exAC).f [0, 0, 1] = 0 := rfl
  have e4 : (denseOf exAC).dims[2]?.getD 0 = 2 := rfl
  have e5 : (denseOf exBC).dims[2]?.getD 0 = 1 := rfl
  simp [amp, e1, e2, e3, e4, e5, sum_range_succ]

/-- The decomposition of complex matrices meets the premises of C79 and C80. -/
theorem exFac : ∃ fac : Blk ℂ → Blk ℂ × Blk ℂ × Blk ℂ, SvdSizes fac ∧ SvdProduct fac ∧ SvdOrtho fac ∧ SvdReal fac := by
  obtain ⟨fac, h1, h2, h3, d, h4, _⟩ := dense_svd_exists ℂ
  refine ⟨fac, h1, h2, h3, fun m ld nr nc _ e k _ _ => ?_⟩
  rw [h4]
  exact Complex.conj_ofReal _

/-- The premises of C79 are met by a tensor of rank three with two blocks. -/
example : ∃ fac : Blk ℂ → Blk ℂ × Blk ℂ × Blk ℂ, ∃ u d v b, svdSplit fac exAC 2 = .ok (u, d, v) ∧
    u.shape = [[(1, 0)], [(1, 1), (1, -1)]] ++ [b] ∧ b ≠ [] := by
  obtain ⟨fac, h1, h2, h3, _⟩ := exFac
  obtain ⟨u, d, v, b, g1, ⟨g2, _⟩, _, _, ⟨g3, _⟩, _⟩ := C79_split_partial fac h1 h2 h3 exAC [[(1, 0)], [(1, 1), (1, -1)]] [[(1, -1), (1, 1)]]
    rfl (by simp) (by simp) exAC_sound.1 (by decide) (by simp [exAC])
  exact ⟨fac, u, d, v, b, g1, g2, g3⟩

/-- The premises of C80 are met by an entangled state with two charges on the bond, moved from either site to the other. -/
example : ∃ fac : Blk ℂ → Blk ℂ × Blk ℂ × Blk ℂ, (∃ N m', (∀ fuel, N ≤ fuel → moveOcB fuel star fac ⟨[exAC, exBC], 0⟩ 1 = some (.ok m')) ∧
      m'.oc = 1 ∧ (∀ A, m'.sites[0]? = some A → LeftOrth (denseOf A))) ∧
    ∃ N m', (∀ fuel, N ≤ fuel → moveOcB fuel star fac ⟨[exAC, exBC], 1⟩ 0 = some (.ok m')) ∧
      m'.oc = 0 ∧ (∀ A, m'.sites[1]? = some A → RightOrth (denseOf A)) := by
  obtain ⟨fac, h1, h2, h3, h4⟩ := exFac
  obtain ⟨N, m', e1, e2, _, _, _, _, e3, _⟩ := C80_move_oc_partial fac h1 h2 h3 h4 ⟨[exAC, exBC], 0⟩ exChainC exNonZero (by simp) 1 (by simp)
  obtain ⟨N', n', f1, f2, _, _, _, _, _, f3, _⟩ := C80_move_oc_partial fac h1 h2 h3 h4 ⟨[exAC, exBC], 1⟩ exChainC exNonZero (by simp) 0 (by simp)
  exact ⟨fac, ⟨N, m', e1, e2, fun A hA => e3 0 A hA (by simp) (by simp)⟩, N', n', f1, f2, fun A hA => f3 1 A hA (by simp) (by simp)⟩

/-- A state without blocks: `C79_empty_fails` and `C80_zero_fails` apply to it. -/
example : ∃ fac : Blk ℂ → Blk ℂ × Blk ℂ × Blk ℂ, ∀ fuel,
    moveOcB fuel star fac ⟨[{ exAC with blocks := [] }, exBC], 0⟩ 1 = some Res.ub := by
  obtain ⟨fac, h1, h2, h3, _⟩ := exFac
  exact ⟨fac, fun fuel => C80_zero_fails fac h1 h2 h3 ⟨[{ exAC with blocks := [] }, exBC], 0⟩ _ rfl rfl (by decide) rfl 1 (by simp) (by simp) fuel⟩

end QuantiT.BN
