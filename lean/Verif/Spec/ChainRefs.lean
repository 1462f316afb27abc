import Verif.Spec.ChainStore
/-
Programs over chains whose sites are handles on tensors, for property C125.  Two sites may be handles on the same tensor.
-/
namespace QuantiT
namespace Spec
variable {R : Type}

/-- A statement: those of `ChainCmd`, two on single sites and the conversions. -/
inductive SiteCmd (R : Type) where
  /-- A statement on whole chains. -/
  | chain (s : ChainCmd R)
  /-- `x[p] = y[q]`, an assignment of one tensor variable to another. -/
  | site (x p y q : Nat)
  /-- An operation in place on the tensor `x[p]`, such as `x[p].mul_(2)`, `x[p].zero_()` or `x[p].index_put_(e, value)`: `h`
  gives the new elements from the tensor before. -/
  | edit (x p : Nat) (h : Blk R → List Nat → R)
  /-- `MPS x(y.to(options))`: every tensor converted by `conv`; the library returns the same handle for the tensors that are as
  wanted already, `fits`. -/
  | toNew (y : Nat) (fits : Blk R → Bool) (conv : Blk R → Blk R)
  /-- `x.to_(options)`. -/
  | toSelf (x : Nat) (fits : Blk R → Bool) (conv : Blk R → Blk R)

/-- The statement does not work in place on a tensor. -/
def SiteCmd.NoEdit : SiteCmd R → Prop
  | .edit .. => False
  | _ => True

/-- The statement makes no second handle on a tensor: no copy or conversion of a chain, no copy of a site, no chain of several sites from one
tensor. -/
def SiteCmd.NoShare : SiteCmd R → Prop
  | .chain (.fill n _ _) => n ≤ 1
  | .chain (.copy _) => False
  | .chain (.assign _ _) => False
  | .site .. => False
  | .toNew .. => False
  | _ => True

/-- Chains of handles: per variable the tensors its sites are handles on, by number, and the center; and the tensors. -/
structure Refs (R : Type) where
  vars : List (List Nat × Nat)
  heap : Nat → Blk R
  next : Nat

/-- Site `p` of variable `x` is a handle on the tensor number `a`. -/
def Refs.at (s : Refs R) (x p a : Nat) : Prop := ∃ v, s.vars[x]? = some v ∧ v.1[p]? = some a

/-- Two sites are handles on the same tensor. -/
def Refs.Shared (s : Refs R) (x p y q : Nat) : Prop := ∃ a, s.at x p a ∧ s.at y q a

/-- The value of site `p` of variable `x`. -/
def Refs.value (s : Refs R) (x p : Nat) : Option (Blk R) := ((s.vars[x]?).bind fun v => v.1[p]?).map s.heap

end Spec
end QuantiT
