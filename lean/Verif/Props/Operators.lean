import Verif.Model.Operators
import Verif.Props.Elementwise
import Verif.Props.Compare
/-
C120: operators between tensors and numbers, in C++ and in Python.
-/
namespace QuantiT
namespace PY
open Spec BT
variable {G R : Type} [AddCommGroup G] [DecidableEq G] [Field R] [LinearOrder R]

theorem onStored_map (g f : R → R) (hg : ∀ y, g y = f y) {t : BT G R} (ht : Conserving t.shape t.rule t.blocks) :
    OnStored f t.shape t.rule t.blocks (mapBlocks g t).shape (mapBlocks g t).rule (mapBlocks g t).blocks :=
  ⟨rfl, rfl, BN.conserving_mapBlocks g ht, fun _ he => by rw [map_held g ht.sorted he, hg],
    fun e he => entry_not_held fun h' => he ((held_map g t e).1 h')⟩

omit [AddCommGroup G] [DecidableEq G] [LinearOrder R] in
theorem scale_eq_map (x : R) (t : BT G R) : scale x t = mapBlocks (fun y => x * y) t := rfl

theorem onStored_cmp (c : Cmp) {t : BT G R} (ht : Conserving t.shape t.rule t.blocks) (x : R) :
    OnStored (fun y => (BinOp.cmp c).apply y x) t.shape t.rule t.blocks (cmpNum c t x).shape (cmpNum c t x).rule (cmpNum c t x).blocks := by
  obtain ⟨h1, h2, h3, h4⟩ := C99_compare_number_partial c t ht x
  exact ⟨h1, h2, h3, fun e he => (h4 e).1 he, fun e he => (h4 e).2 he⟩

/-- The comparison that says the same of its operands exchanged. -/
def exchanged : Cmp → Cmp
  | .le => .ge | .ge => .le | .eq => .eq | .less => .greater | .ne => .ne | .greater => .less

omit [Field R] in
theorem holds_exchanged (c : Cmp) (x y : R) : (exchanged c).Holds y x ↔ c.Holds x y := by
  cases c <;> simp only [exchanged, Cmp.Holds]
  · exact eq_comm
  · exact ne_comm

theorem onStored_exchanged (c : Cmp) {t : BT G R} (ht : Conserving t.shape t.rule t.blocks) (x : R) :
    OnStored (fun y => (BinOp.cmp c).apply x y) t.shape t.rule t.blocks (cmpNum (exchanged c) t x).shape (cmpNum (exchanged c) t x).rule
      (cmpNum (exchanged c) t x).blocks := by
  have h := onStored_cmp (exchanged c) ht x
  have e : (fun y => (BinOp.cmp (exchanged c)).apply y x) = fun y => (BinOp.cmp c).apply x y := by
    funext y
    simp only [BinOp.apply]
    rw [show (exchanged c).Holds y x = c.Holds x y from propext (holds_exchanged c x y)]
  rwa [e] at h

/-- **C120**, C++, tensor on the left: every operator there is between a tensor and a number gives the tensor whose stored elements are combined with
the number. -/
theorem C120_cpp_right (op : BinOp) (t : BT G R) (ht : Conserving t.shape t.rule t.blocks) (x : R) (r : Res (BT G R))
    (h : cppRight op t x = some r) :
    ∃ u, r = .ok u ∧ OnStored (fun y => op.apply y x) t.shape t.rule t.blocks u.shape u.rule u.blocks := by
  cases op with
  | add => cases h
  | sub => cases h
  | mul =>
    cases h
    exact ⟨_, rfl, onStored_map (fun y => x * y) _ (fun y => mul_comm x y) ht⟩
  | div =>
    cases h
    exact ⟨_, rfl, onStored_map (fun y => y / x) _ (fun y => rfl) ht⟩
  | cmp c =>
    cases h
    exact ⟨_, rfl, onStored_cmp c ht x⟩

/-- **C120**, C++, number on the left (partial: not for the division, `C94_scalar_div_fails`). -/
theorem C120_cpp_left_partial (op : BinOp) (hd : op ≠ .div) (t : BT G R) (ht : Conserving t.shape t.rule t.blocks) (x : R) (r : Res (BT G R))
    (h : cppLeft op x t = some r) :
    ∃ u, r = .ok u ∧ OnStored (fun y => op.apply x y) t.shape t.rule t.blocks u.shape u.rule u.blocks := by
  cases op with
  | add => cases h
  | sub => cases h
  | mul =>
    cases h
    exact ⟨_, rfl, onStored_map (fun y => x * y) _ (fun y => rfl) ht⟩
  | div => exact absurd rfl hd
  | cmp c => cases c <;> (cases h; exact ⟨_, rfl, onStored_exchanged _ ht x⟩)

/-- **C120**, Python, two tensors: every operator gives what it gives in C++, and raises the exception made of the one thrown there. -/
theorem C120_python_tensors (op : BinOp) (a b : BT G R) : python op (.tensor a) (.tensor b) = raise (cppTensors op a b) := by
  cases op with
  | cmp c => cases c <;> rfl
  | _ => rfl

/-- **C120**, Python, tensor on the left (partial: only for `*` and the comparisons). -/
theorem C120_python_right_partial (op : BinOp) (ho : op = .mul ∨ ∃ c, op = .cmp c) (t : BT G R) (ht : Conserving t.shape t.rule t.blocks) (x : R) :
    ∃ u, python op (.tensor t) (.number x) = .ok u ∧ OnStored (fun y => op.apply y x) t.shape t.rule t.blocks u.shape u.rule u.blocks := by
  rcases ho with rfl | ⟨c, rfl⟩
  · exact ⟨_, rfl, onStored_map (fun y => x * y) _ (fun y => mul_comm x y) ht⟩
  · cases c <;> exact ⟨_, rfl, onStored_cmp _ ht x⟩

/-- **C120**, Python, number on the left (partial: only for the comparisons). -/
theorem C120_python_left_partial (c : Cmp) (t : BT G R) (ht : Conserving t.shape t.rule t.blocks) (x : R) :
    ∃ u, python (.cmp c) (.number x) (.tensor t) = .ok u ∧
      OnStored (fun y => (BinOp.cmp c).apply x y) t.shape t.rule t.blocks u.shape u.rule u.blocks := by
  cases c <;> exact ⟨_, rfl, onStored_exchanged _ ht x⟩

/-- **C120 fails** in Python for `t + x`, `x + t`, `t - x`, `x - t`, `t / x`, `x / t` and `x * t`, whatever the tensor and the number: TypeError, although C++ has the last
three. -/
theorem C120_python_fails (t : BT G R) (x : R) :
    (∀ op, op = .add ∨ op = .sub ∨ op = .div →
      python op (.tensor t) (.number x) = .error .typeError ∧ python op (.number x) (.tensor t) = .error .typeError) ∧
    python .mul (.number x) (.tensor t) = .error .typeError ∧
    cppRight .div t x ≠ none ∧ cppLeft .div x t ≠ none ∧ cppLeft .mul x t ≠ none := by
  refine ⟨?_, rfl, by simp [cppRight], by simp [cppLeft], by simp [cppLeft]⟩
  rintro op (rfl | rfl | rfl) <;> exact ⟨rfl, rfl⟩

/-- **C120 fails** in Python for an operand that is neither a tensor nor a number: a product with it on the right, and every comparison, `t == None` for
example, raise RuntimeError and not TypeError; the other operators raise TypeError. -/
theorem C120_python_other_fails (t : BT G R) :
    python .mul (.tensor t) .other = .error .runtimeError ∧
    (∀ c, python (.cmp c) (.tensor t) .other = .error .runtimeError ∧ python (.cmp c) .other (.tensor t) = .error .runtimeError) ∧
    (∀ op, op = .add ∨ op = .sub ∨ op = .div → python op (.tensor t) .other = .error .typeError) := by
  refine ⟨rfl, fun c => by cases c <;> exact ⟨rfl, rfl⟩, ?_⟩
  rintro op (rfl | rfl | rfl) <;> rfl

end PY

namespace PY
open Spec

/-! ### Examples -/

/-- A diagonal 2×2 matrix. -/
def diag23 : BT ℤ ℚ := ⟨[[(1, 0), (1, 1)], [(1, 0), (1, -1)]], 0, [([0, 0], ⟨[1, 1], fun _ => 2⟩), ([1, 1], ⟨[1, 1], fun _ => 3⟩)]⟩

example : Conserving diag23.shape diag23.rule diag23.blocks := by
  refine ⟨?_, ?_⟩
  · show Sorted [([0, 0], _), ([1, 1], _)]
    simp only [Sorted, List.pairwise_cons, List.mem_singleton, forall_eq, List.not_mem_nil, false_implies, implies_true,
      List.Pairwise.nil, and_true]
    decide
  · intro k b h
    simp only [diag23, List.mem_cons, List.not_mem_nil, or_false, Prod.mk.injEq] at h
    rcases h with ⟨rfl, rfl⟩ | ⟨rfl, rfl⟩
    · exact ⟨_, rfl, rfl, rfl⟩
    · exact ⟨_, rfl, rfl, rfl⟩

/-- `t * 5` is the matrix with 10 and 15, `5 > t` says true of both elements and `2 * t` raises. -/
example : (∃ u, python .mul (.tensor diag23) (.number 5) = .ok u ∧ entry u.shape u.blocks [0, 0] = 10 ∧ entry u.shape u.blocks [1, 1] = 15) ∧
    (∃ u, python (.cmp .greater) (.number 5) (.tensor diag23) = .ok u ∧ entry u.shape u.blocks [0, 0] = 1 ∧ entry u.shape u.blocks [1, 1] = 1) ∧
    python .mul (.number 2) (.tensor diag23) = .error .typeError :=
  ⟨⟨_, rfl, by decide +kernel, by decide +kernel⟩, ⟨_, rfl, by decide +kernel, by decide +kernel⟩, rfl⟩

end PY
end QuantiT
