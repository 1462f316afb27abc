import Mathlib.Algebra.Order.Group.Unbundled.Abs
import Mathlib.Algebra.BigOperators.Group.List.Basic
import Mathlib.Algebra.Order.Field.Basic
/-
Weights lost by a truncation.
-/
namespace QuantiT
namespace Spec
variable {α : Type} [Field α] [LinearOrder α]

/-- Weight of some values, with `pw x = x^pow`. -/
def weight (pw : α → α) (l : List α) : α := (l.map fun x => pw |x|).sum

/-- Keeping the first `k` values of every row discards at most `bound`, in every row. -/
def LosesAtMost (pw : α → α) (bound : α) (rows : List (List α)) (k : Nat) : Prop :=
  ∀ r ∈ rows, weight pw (r.drop k) ≤ bound

end Spec
end QuantiT
