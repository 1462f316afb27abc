import Verif.Model.BTensorOps
/-
Programs over block tensors, and what a user expects of them when tensors are values: each variable holds a tensor of its
own, and a statement changes the variable it names and nothing else.  The value of a sum is the one of `BT.add` (C21), the
value of a product with a number the one of `BT.scale`.
-/
namespace QuantiT
namespace Spec
variable {G R : Type}

/-- Statements.  Variables are numbered in the order of their creation; `new`, `copy`, `add`, `addTmp` and `mul` create
one. -/
inductive Cmd (G R : Type) where
  /-- `btensor t = zeros(…)`, `rand(…)`, …: a tensor with storage of its own. -/
  | new (t : BT G R)
  /-- `btensor t = x_i;` -/
  | copy (i : Nat)
  /-- `x_i = x_j;` -/
  | assign (i j : Nat)
  /-- `x_i` ends its life. -/
  | drop (i : Nat)
  /-- `x_i.block_at(k).copy_(b);` for a stored block of the same sizes -/
  | write (i : Nat) (k : List Nat) (b : Blk R)
  /-- `btensor t = x_i.add(x_j, alpha);` also `x_i + x_j`, `x_i - x_j`, `x_i.sub(x_j, -alpha)` -/
  | add (i j : Nat) (alpha : R)
  /-- `btensor t = x_i.add(std::move(x_j), alpha);` also a temporary for `x_j` -/
  | addTmp (i j : Nat) (alpha : R)
  /-- `x_i.add_(x_j, alpha);` also `x_i += x_j`, `x_i -= x_j` -/
  | addIn (i j : Nat) (alpha : R)
  /-- `x_i.add_(std::move(x_j), alpha);` -/
  | addInTmp (i j : Nat) (alpha : R)
  /-- `btensor t = x_i.mul(c);` -/
  | mul (i : Nat) (c : R)
  /-- `x_i.mul_(c);` -/
  | mulIn (i : Nat) (c : R)

/-- The tensors that a program creates have their blocks in the order of their indices. -/
def Cmd.Fine : Cmd G R → Prop
  | .new t => Sorted t.blocks
  | _ => True

/-- The statements that only create tensors or rebind variables: none of them is an operation in place. -/
def Cmd.OutOfPlace : Cmd G R → Prop
  | .new _ | .copy _ | .assign _ _ | .drop _ | .add _ _ _ | .mul _ _ => True
  | _ => False

/-- A tensor that holds no block any more: a variable whose life is over, or whose blocks were moved away. -/
def emptied (t : BT G R) : BT G R := { t with blocks := [] }

/-- The variables after a statement, when tensors are values.  A variable that does not exist makes the program
meaningless. -/
def valueStep [DecidableEq G] [Semiring R] (c : Cmd G R) (vs : List (BT G R)) : Res (List (BT G R)) :=
  match c with
  | .new t => .ok (vs ++ [t])
  | .copy i => match vs[i]? with
    | some a => .ok (vs ++ [a])
    | none => Res.ub
  | .assign i j => match vs[i]?, vs[j]? with
    | some _, some b => .ok (vs.set i b)
    | _, _ => Res.ub
  | .drop i => match vs[i]? with
    | some a => .ok (vs.set i (emptied a))
    | none => Res.ub
  | .write i k b => match vs[i]? with
    | some a => .ok (vs.set i { a with blocks := a.blocks.map fun e => if e.1 = k then (k, b) else e })
    | none => Res.ub
  | .add i j alpha | .addTmp i j alpha => match vs[i]?, vs[j]? with
    | some a, some b => (BT.add a b alpha).map fun r => vs ++ [r]
    | _, _ => Res.ub
  | .addIn i j alpha => match vs[i]?, vs[j]? with
    | some a, some b => (BT.add a b alpha).map fun r => vs.set i r
    | _, _ => Res.ub
  | .addInTmp i j alpha => match vs[i]?, vs[j]? with
    | some a, some b => (BT.add a b alpha).map fun r => (vs.set j (emptied b)).set i r
    | _, _ => Res.ub
  | .mul i c => match vs[i]? with
    | some a => .ok (vs ++ [BT.scale c a])
    | none => Res.ub
  | .mulIn i c => match vs[i]? with
    | some a => .ok (vs.set i (BT.scale c a))
    | none => Res.ub

/-- A whole program. -/
def valueRun [DecidableEq G] [Semiring R] : List (Cmd G R) → List (BT G R) → Res (List (BT G R))
  | [], vs => .ok vs
  | c :: cs, vs => do valueRun cs (← valueStep c vs)

end Spec
end QuantiT
