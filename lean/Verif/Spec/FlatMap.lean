import Mathlib.Order.Defs.LinearOrder
/-
What a `flat_map` is supposed to be: a list of (key, value) pairs with strictly increasing keys,
standing for the finite partial function `lookup`.
-/
namespace QuantiT.Spec
variable {K V : Type _}

/-- Strictly increasing keys. -/
def Sorted [LT K] (m : List (K × V)) : Prop := m.Pairwise (fun a b => a.1 < b.1)

/-- The partial function a list of pairs stands for: the value of the first pair with that key. -/
def lookup [DecidableEq K] (m : List (K × V)) (k : K) : Option V :=
  (m.find? (fun e => e.1 = k)).map Prod.snd

/-- Partial function update. -/
def update [DecidableEq K] (M : K → Option V) (k : K) (v : Option V) : K → Option V :=
  fun x => if x = k then v else M x

/-- What a merge does to the value of one key: own value, incoming value, result. -/
def mergeVal (f : V → V → V) (g : V → V) : Option V → Option V → Option V
  | some a, some b => some (f a b)
  | none, some b => some (g b)
  | some a, none => some a
  | none, none => none

end QuantiT.Spec
