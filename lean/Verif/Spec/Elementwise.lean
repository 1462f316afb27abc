import Verif.Spec.Broadcast
/-
Comparisons, as numbers.
-/
namespace QuantiT.Spec

/-- The six comparisons of the interface. -/
inductive Cmp where
  | le | ge | eq | less | ne | greater
  deriving DecidableEq

/-- What a comparison of two numbers says. -/
def Cmp.Holds {R : Type} [LT R] [LE R] : Cmp → R → R → Prop
  | .le, x, y => x ≤ y
  | .ge, x, y => y ≤ x
  | .eq, x, y => x = y
  | .less, x, y => x < y
  | .ne, x, y => x ≠ y
  | .greater, x, y => y < x

/-- A truth value as an entry of a tensor. -/
noncomputable def truth {R : Type} [Zero R] [One R] (p : Prop) : R := by
  classical exact if p then 1 else 0

/-- `r` is `t` with the function `f` applied to every element. -/
def Pointwise {G R S : Type} [AddCommMonoid G] [Zero R] [Zero S] (f : R → S) (shape : Shape G) (rule : G)
    (blocks : List (List Nat × Blk R)) (shape' : Shape G) (rule' : G) (blocks' : List (List Nat × Blk S)) : Prop :=
  shape' = shape ∧ rule' = rule ∧ Conserving shape' rule' blocks' ∧
    ∀ e, InRange e (shape.map dimSize) → entry shape' blocks' e = f (entry shape blocks e)

end QuantiT.Spec
