import Verif.Model.Mps
/-
Model of the conversions between tensor trains, matrix product states and matrix product operators (include/MPT.h), with the moves.
-/
namespace QuantiT
namespace CT
open MP
variable {T : Type}

/-- What the constructors of a family of chains look at: the checks of the constructors of the states and of the operators, and the center that
the constructor of the states from a pair of iterators gives, `none` if it is not initialised. -/
structure Family (T : Type) where
  checkState : List T → Nat → Res Nat
  checkOp : List T → Res Unit
  rangeCenter : Option Nat

/-- `MPT`, `MPS`, `MPO`, include/MPT.h:274-470; `MPS(begin, end)`, line 368, has its center at 0. -/
def dense (size : T → List Nat) : Family T :=
  ⟨fun l oc => mkMps (l.map size) oc, fun l => mkMpo (l.map size), some 0⟩

/-- `bMPT`, `bMPS`, `bMPO`, include/MPT.h:485-690; `bMPS(begin, end)`, line 582, does not mention the center, and the constructor of `property`
without arguments, include/property.h:39, leaves the number uninitialised. -/
def block [AddCommMonoid G] [DecidableEq G] (shape : T → Shape G) : Family T :=
  ⟨fun l oc => mkBMps (l.map shape) oc, fun l => mkBMpo (l.map shape), none⟩

/-- The variables of a program: trains (`MPT`), states (`MPS`, with their center) and operators (`MPO`). -/
structure Store (T : Type) where
  train : Nat → List T
  state : Nat → List T × Option Nat
  op : Nat → List T

/-- A variable is given a value. -/
def put (f : Nat → α) (i : Nat) (v : α) : Nat → α := fun j => if j = i then v else f j

/-- Statements. -/
inductive Cast (T : Type) where
  /-- `x = MPS(t, oc)`. -/
  | stateOf (x t oc : Nat)
  /-- `x = MPS(std::move(t), oc)`. -/
  | stateMove (x t oc : Nat)
  /-- `y = MPO(t)`. -/
  | opOf (y t : Nat)
  /-- `y = MPO(std::move(t))`. -/
  | opMove (y t : Nat)
  /-- `t = MPT(x)` of a state. -/
  | trainOfState (t x : Nat)
  /-- `t = MPT(y)` of an operator. -/
  | trainOfOp (t y : Nat)
  /-- `t = MPT(std::move(x))` of a state. -/
  | trainMoveState (t x : Nat)
  /-- `t = MPT(std::move(y))` of an operator. -/
  | trainMoveOp (t y : Nat)
  /-- `x = MPS(t.begin() + a, t.begin() + b)`. -/
  | stateRange (x t a b : Nat)
  /-- `y = MPO(t.begin() + a, t.begin() + b)`. -/
  | opRange (y t a b : Nat)
  /-- Calls of the container interface on a train, after which it holds `l`.  Only the result is kept. -/
  | write (t : Nat) (l : List T)

/-- How a statement or a program ends.  An exception leaves the variables as they are at that moment. -/
inductive Run (T : Type) where
  | done (s : Store T)
  | threw (e : Exn) (s : Store T)
  | ub

/-- The rest of a constructor after the tensors of the base class are in place, and of the statement: the checks, then the assignment, which
swaps the new chain into the variable (include/MPT.h:379-383, 478-482). -/
def after (r : Res α) (s : Store T) (k : α → Store T) : Run T :=
  match r with
  | .ok a => .done (k a)
  | .error (.throw e) => .threw e s
  | .error .ub => .ub

/-- One statement.  The constructors from a train copy (lines 350, 453) or move (359, 460) the vector of tensors before the ranks are checked, so that
an argument that is moved is empty when the check throws.  The conversion to a train is the explicit operator of lines 389-392 and
473-476, or the constructor of the base class from another chain, lines 110-117, which `MPT` inherits.  A moved chain is empty and keeps its center. -/
def step (K : Family T) : Cast T → Store T → Run T
  | .stateOf x t oc, s => after (K.checkState (s.train t) oc) s fun c => { s with state := put s.state x (s.train t, some c) }
  | .stateMove x t oc, s =>
    let s' := { s with train := put s.train t [] }
    after (K.checkState (s.train t) oc) s' fun c => { s' with state := put s.state x (s.train t, some c) }
  | .opOf y t, s => after (K.checkOp (s.train t)) s fun _ => { s with op := put s.op y (s.train t) }
  | .opMove y t, s =>
    let s' := { s with train := put s.train t [] }
    after (K.checkOp (s.train t)) s' fun _ => { s' with op := put s.op y (s.train t) }
  | .trainOfState t x, s => .done { s with train := put s.train t (s.state x).1 }
  | .trainOfOp t y, s => .done { s with train := put s.train t (s.op y) }
  | .trainMoveState t x, s => .done { s with train := put s.train t (s.state x).1, state := put s.state x ([], (s.state x).2) }
  | .trainMoveOp t y, s => .done { s with train := put s.train t (s.op y), op := put s.op y [] }
  | .stateRange x t a b, s =>
    if a ≤ b ∧ b ≤ (s.train t).length then .done { s with state := put s.state x (((s.train t).take b).drop a, K.rangeCenter) } else .ub
  | .opRange y t a b, s =>
    if a ≤ b ∧ b ≤ (s.train t).length then .done { s with op := put s.op y (((s.train t).take b).drop a) } else .ub
  | .write t l, s => .done { s with train := put s.train t l }

/-- A program: it ends with the first exception. -/
def run (K : Family T) : List (Cast T) → Store T → Run T
  | [], s => .done s
  | c :: l, s =>
    match step K c s with
    | .done s' => run K l s'
    | .threw e s' => .threw e s'
    | .ub => .ub

/-- `x.orthogonality_center`: undefined if the number was never initialised. -/
def center (s : Store T) (x : Nat) : Res Nat :=
  match (s.state x).2 with
  | some c => .ok c
  | none => Res.ub

end CT
end QuantiT
