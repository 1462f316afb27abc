import Verif.Model.Strided
/-
What torch promises about `reshape`, and when the result of a contraction can be seen as a matrix in place.
-/
namespace QuantiT
namespace Spec
open BT Dense

/-- `w` has sizes `s` and its elements, in row-major order, lie in the same cells as those of `v`. -/
def SameCells (v w : View) (s : List Nat) : Prop :=
  w.sizes = s ∧ s.prod = v.sizes.prod ∧ ∀ k < s.prod, w.addr (unflat s k) = v.addr (unflat v.sizes k)

/-- The documented contract of torch's `reshape`: a view when possible, otherwise a copy. -/
structure TorchReshape (viewOf : View → List Nat → Option View) : Prop where
  shares : ∀ v s w, viewOf v s = some w → SameCells v w s
  whenPossible : ∀ v s w, SameCells v w s → ∃ w', viewOf v s = some w'

/-- No two elements of the tensor share a cell. -/
def NoOverlap (v : View) : Prop :=
  ∀ o o', InRange o v.sizes → InRange o' v.sizes → v.addr o = v.addr o' → o = o'

/-- The rows and the columns are evenly spaced in memory when the dimensions of sizes `sa` are numbered together, and
those of sizes `sb` together. -/
def EvenlySpaced (v : View) (sa sb : List Nat) : Prop :=
  ∃ x y, ∀ oa ob, InRange oa sa → InRange ob sb → v.addr (oa ++ ob) = v.offset + flat sa oa * x + flat sb ob * y

/-- Row-major strides. -/
def rowStrides : List Nat → List Nat
  | [] => []
  | _ :: ns => ns.prod :: rowStrides ns

end Spec
end QuantiT
