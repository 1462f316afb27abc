import Verif.Props.Calls
/-
C129: numbers given for the flags in Python.
-/
namespace QuantiT
namespace OV
open Spec BT BN PY
variable {G 𝕜 : Type} [RCLike 𝕜] [AddCommGroup G] [LinearOrder G]

/-- **C129.**  In Python a number given for a flag means `True` unless it is zero. -/
theorem C129_python_numbers (fac : Bool → Bool → Blk 𝕜 → Blk 𝕜 × Blk 𝕜 × Blk 𝕜) (facE : Bool → Blk ℝ → Blk ℝ × Blk ℝ) (eps : ℝ) (t : BT G 𝕜)
    (tE : BT G ℝ) (i j : Int) (x : ℝ) :
    svdPython fac eps t ⟨[], [(.some, .int i), (.computeUV, .int j)]⟩ =
      svdPython fac eps t ⟨[], [(.some, .bool (decide (i ≠ 0))), (.computeUV, .bool (decide (j ≠ 0)))]⟩ ∧
    eighPython facE eps tE ⟨[], [(.upper, .int i)]⟩ = eighPython facE eps tE ⟨[], [(.upper, .bool (decide (i ≠ 0)))]⟩ ∧
    eighPython facE eps tE ⟨[], [(.upper, .float x)]⟩ = eighPython facE eps tE ⟨[], [(.upper, .bool (decide (x ≠ 0)))]⟩ := by
  have e1 : ∀ i j : Int, dispatch svdPy ⟨[], [(.some, .int i), (.computeUV, .int j)]⟩ = some (.ok [.bool (decide (i ≠ 0)), .bool (decide (j ≠ 0))]) := by
    intro i j
    simp [dispatch, svdPy, fit, bindArgs, bound, castPy, List.findSome?, List.find?, pure, Except.pure, bind, Except.bind]
  have e2 : ∀ s uv, dispatch svdPy ⟨[], [(.some, .bool s), (.computeUV, .bool uv)]⟩ = some (.ok [.bool s, .bool uv]) := by
    intro s uv
    simp [dispatch, svdPy, fit, bindArgs, bound, castPy, List.findSome?, List.find?, pure, Except.pure, bind, Except.bind]
  have e3 : ∀ i : Int, dispatch eighPy ⟨[], [(.upper, .int i)]⟩ = some (.ok [.bool (decide (i ≠ 0))]) := by
    intro i
    simp [dispatch, eighPy, fit, bindArgs, bound, castPy, List.findSome?, List.find?, pure, Except.pure, bind, Except.bind]
  have e4 : ∀ s, dispatch eighPy ⟨[], [(.upper, .bool s)]⟩ = some (.ok [.bool s]) := by
    intro s
    simp [dispatch, eighPy, fit, bindArgs, bound, castPy, List.findSome?, List.find?, pure, Except.pure, bind, Except.bind]
  have e5 : dispatch eighPy ⟨[], [(.upper, .float x)]⟩ = some (.ok [.bool (decide (x ≠ 0))]) := by
    simp [dispatch, eighPy, fit, bindArgs, bound, castPy, List.findSome?, List.find?, pure, Except.pure, bind, Except.bind]
  refine ⟨?_, ?_, ?_⟩
  · simp only [svdPython, e1, e2]
  · simp only [eighPython, e3, e4]
  · simp only [eighPython, e5, e4]

/-- `eigh(t, upper=2)` and `eigh(t, upper=True)`. -/
example (facE : Bool → Blk ℝ → Blk ℝ × Blk ℝ) (tE : BT ℤ ℝ) :
    eighPython facE 0 tE ⟨[], [(.upper, .int 2)]⟩ = eighPython facE 0 tE ⟨[], [(.upper, .bool true)]⟩ :=
  (C129_python_numbers (𝕜 := ℝ) (fun _ _ b => (b, b, b)) facE 0 tE tE 2 0 0).2.1

end OV
end QuantiT
