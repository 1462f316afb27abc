import Verif.Spec.Mps
/-
Programs over MPS variables, for property C95, and what they mean for the states that the variables represent.
-/
namespace QuantiT
namespace Spec
variable {R : Type}

/-- A statement about variables numbered in order of creation. -/
inductive ChainCmd (R : Type) where
  /-- `MPS x(tensors, oc)`, from a vector, an initializer list or an MPT. -/
  | build (sites : List (Blk R)) (oc : Nat)
  /-- `MPS x(n, tensor, oc)`. -/
  | fill (n : Nat) (t : Blk R) (oc : Nat)
  /-- `MPS x;` -/
  | empty
  /-- `MPS x(y)`. -/
  | copy (y : Nat)
  /-- `MPS x(std::move(y))`. -/
  | take (y : Nat)
  /-- `x = y`. -/
  | assign (x y : Nat)
  /-- `x = std::move(y)`. -/
  | assignTake (x y : Nat)
  /-- `x.swap(y)`. -/
  | swap (x y : Nat)
  /-- `x.move_oc(i)`. -/
  | moveOc (x : Nat) (i : Int)
  /-- `x.push_back(t)`. -/
  | pushBack (x : Nat) (t : Blk R)
  /-- `x.pop_back()`. -/
  | popBack (x : Nat)
  /-- `x.erase(x.begin() + p)`. -/
  | erase (x p : Nat)
  /-- `x.insert(x.begin() + p, t)`. -/
  | insert (x p : Nat) (t : Blk R)
  /-- `x.clear()`. -/
  | clear (x : Nat)

/-- The statement does not use the modifiers of `std::vector`. -/
def ChainCmd.NoModifier : ChainCmd R → Prop
  | .pushBack .. | .popBack .. | .erase .. | .insert .. | .clear .. => False
  | _ => True

/-- The statement builds only chains in canonical form around the given center. -/
def ChainCmd.BuildsCanonical [Semiring R] [StarRing R] : ChainCmd R → Prop
  | .build s oc => Canonical s oc
  | .fill n t oc => Canonical (List.replicate n t) oc
  | _ => True

/-- What the statement means for the states: `move_oc` does nothing; a variable that was moved from is empty. -/
def stateStep (vs : List (List (Blk R))) : ChainCmd R → List (List (Blk R))
  | .build s _ => vs ++ [s]
  | .fill n t _ => vs ++ [List.replicate n t]
  | .empty => vs ++ [[]]
  | .copy y => vs ++ [vs.getD y []]
  | .take y => vs.set y [] ++ [vs.getD y []]
  | .assign x y => vs.set x (vs.getD y [])
  | .assignTake x y => if x = y then vs else (vs.set y []).set x (vs.getD y [])
  | .swap x y => (vs.set x (vs.getD y [])).set y (vs.getD x [])
  | .moveOc _ _ => vs
  | .pushBack x t => vs.set x (vs.getD x [] ++ [t])
  | .popBack x => vs.set x (vs.getD x []).dropLast
  | .erase x p => vs.set x ((vs.getD x []).eraseIdx p)
  | .insert x p t => vs.set x ((vs.getD x []).insertIdx p t)
  | .clear x => vs.set x []

/-- A whole program. -/
def stateRun (p : List (ChainCmd R)) : List (List (Blk R)) := p.foldl stateStep []

end Spec
end QuantiT
